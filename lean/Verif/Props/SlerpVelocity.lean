import Verif.Props.SlerpFrames
import Verif.Props.RotationVelocity

/-! # C06, C77: interpolating is turning with constant velocity -/

namespace Ubitrack.RotationVelocity

open Spec Quat Tracking SlerpFrames

private theorem start_closer (a b : Quat ℝ) : start a b = a.negateIfCloser b := by
  unfold start negateIfCloser
  have e : dot a b = a.x * b.x + a.y * b.y + a.z * b.z + a.w * b.w := rfl
  rw [e]
  by_cases h : a.x * b.x + a.y * b.y + a.z * b.z + a.w * b.w < 0
  · rw [if_pos h, if_neg (not_le.mpr h)]; rfl
  · rw [if_neg h, if_pos (not_lt.mp h)]

/-- **C77** Interpolating between two rotations that are not almost equal is turning the first one with the constant velocity
between them for the share `t` of the time, also for `t` outside of 0 and 1. -/
theorem C77_interpolation (a b : Quat ℝ) (ha : UnitQ a) (hb : UnitQ b) (hfar : |dot a b| ≤ 0.9999) (t : ℝ)
    (ht : t = 0 ∨ 1e-10 ≤ |t|) : SameRotation (slerp a b t) (a.mul (integrate (velocityBetween a b 1) t)) := by
  obtain ⟨hu, hdu⟩ := unit_relative ha hb
  have hs := (C07_negate_if_closer a b).1
  refine sameRotation_trans ?_ (sameRotation_mul_left _ _ _ hs)
  left
  rw [slerp_weight ha hb]
  have hd0 := start_dot_nonneg a b
  have hd1 : dot (start a b) b ≤ 0.9999 := by
    have : dot (start a b) b = |dot a b| := by
      unfold start; split_ifs with h
      · rw [abs_of_neg h, dot_neg_left]
      · rw [abs_of_nonneg (not_lt.mp h)]
    rw [this]; exact hfar
  rw [start_closer] at hd0 hd1 ⊢
  set a' := a.negateIfCloser b with ha'
  set δ := a'.conj.mul b with hδ
  have hbδ : b = a'.mul δ := (mul_conj_mul a' b hu).symm
  have hw : δ.w = dot a' b := by rw [hδ]; simp only [Quat.mul, Quat.conj, dot]; ring
  set d := dot a' b with hdd
  have hcos : Real.cos (Real.arccos d) = d := Real.cos_arccos (by linarith) (by norm_num at hd1; linarith)
  have him : δ.imagLen = Real.sin (Real.arccos d) := by
    rw [Real.sin_arccos]
    unfold imagLen
    congr 1
    unfold UnitQ at hdu
    rw [← hw]
    linarith
  have hsin : 0.01 ≤ Real.sin (Real.arccos d) := by
    rw [Real.sin_arccos]
    apply Real.le_sqrt_of_sq_le
    norm_num at hd1 ⊢
    nlinarith
  have hO : 0.01 ≤ Real.arccos d := le_trans hsin (Real.sin_le (Real.arccos_nonneg d))
  set O := Real.arccos d with hOd
  have hsin0 : Real.sin O ≠ 0 := by norm_num at hsin; linarith
  have hO0 : O ≠ 0 := by norm_num at hO; linarith
  have hlog : toLogarithm δ = ![δ.x * (2 * O / Real.sin O), δ.y * (2 * O / Real.sin O), δ.z * (2 * O / Real.sin O)] := by
    unfold toLogarithm
    simp only
    have hlt : d < 1 := lt_of_le_of_lt hd1 (by norm_num)
    have hbig : Real.sqrt (δ.x * δ.x + δ.y * δ.y + δ.z * δ.z) > 1e-12 := by
      change δ.imagLen > 1e-12
      rw [him]
      exact lt_of_lt_of_le (by norm_num) hsin
    rw [if_pos (show δ.w ≥ 0 by rw [hw]; exact hd0), mul_one, hw, if_pos hlt, if_pos hbig, one_mul]
    rw [show Real.sqrt (δ.x * δ.x + δ.y * δ.y + δ.z * δ.z) = Real.sin O from him]
  have hv : velocityBetween a b 1 = toLogarithm δ := by
    unfold velocityBetween
    simp
    rfl
  have hn : norm3 (toLogarithm δ) = 2 * O := by
    have h1 : δ.x * δ.x + δ.y * δ.y + δ.z * δ.z = Real.sin O ^ 2 := by
      rw [← him]; unfold imagLen; rw [Real.sq_sqrt (by nlinarith [mul_self_nonneg δ.x, mul_self_nonneg δ.y, mul_self_nonneg δ.z])]
    unfold norm3
    rw [hlog]
    simp only [Matrix.cons_val]
    rw [show δ.x * (2 * O / Real.sin O) * (δ.x * (2 * O / Real.sin O)) + δ.y * (2 * O / Real.sin O) * (δ.y * (2 * O / Real.sin O)) +
      δ.z * (2 * O / Real.sin O) * (δ.z * (2 * O / Real.sin O)) = (δ.x * δ.x + δ.y * δ.y + δ.z * δ.z) * (2 * O / Real.sin O) ^ 2 by ring, h1,
      show Real.sin O ^ 2 * (2 * O / Real.sin O) ^ 2 = (2 * O) ^ 2 by field_simp]
    exact Real.sqrt_sq (by norm_num at hO; linarith)
  have hint : integrate (velocityBetween a b 1) t =
      ⟨Real.sin (t * O) / Real.sin O * δ.x, Real.sin (t * O) / Real.sin O * δ.y, Real.sin (t * O) / Real.sin O * δ.z, Real.cos (t * O)⟩ := by
    rw [hv, integrate_eq _ t (by rw [hn]; positivity) (ht.imp id fun h => by
      rw [hn]; norm_num at hO h ⊢; nlinarith), hn, hlog]
    rw [show 2 * O * t / 2 = t * O by ring]
    simp only [Matrix.cons_val]
    apply quat_ext <;> simp only <;> field_simp
  have hcomb : comb a' b (weight d (1 - t)) (weight d t) = a'.mul (integrate (velocityBetween a b 1) t) := by
    rw [hint]
    unfold weight
    rw [if_neg (not_lt.mpr hd1), if_neg (not_lt.mpr hd1), ← hOd]
    have e1 : Real.sin ((1 - t) * O) = Real.sin O * Real.cos (t * O) - d * Real.sin (t * O) := by
      rw [show (1 - t) * O = O - t * O by ring, Real.sin_sub, hcos]
    rw [e1]
    have hδe : δ = ⟨δ.x, δ.y, δ.z, d⟩ := quat_ext rfl rfl rfl hw
    generalize Real.sin (t * O) = st
    generalize Real.cos (t * O) = ct
    conv_lhs => rw [hbδ, hδe]
    apply quat_ext <;> simp only [comb, Quat.mul] <;> field_simp <;> ring
  rw [hcomb]
  apply Quat.normalize_unit
  exact Quat.isUnit_mul hu (C05_exp_unit _)

/-- Two rotations about different axes. -/
example : UnitQ (⟨3/5, 0, 0, 4/5⟩ : Quat ℝ) ∧ UnitQ (⟨0, 5/13, 0, 12/13⟩ : Quat ℝ) ∧
    |dot (⟨3/5, 0, 0, 4/5⟩ : Quat ℝ) ⟨0, 5/13, 0, 12/13⟩| ≤ 0.9999 := by
  refine ⟨by norm_num [UnitQ], by norm_num [UnitQ], ?_⟩
  norm_num [dot, abs_le]

end Ubitrack.RotationVelocity
