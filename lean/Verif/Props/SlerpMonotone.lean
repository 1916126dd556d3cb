import Verif.Props.SlerpFrames

/-! # C06: interpolation comes nearer and nearer -/

namespace Ubitrack
open Ubitrack.Spec Ubitrack.Quat SlerpFrames

private theorem abs_dot_start (a b : Quat ℝ) : dot (start a b) b = |dot a b| := by
  unfold start; split_ifs with h
  · rw [abs_of_neg h, dot_neg_left]
  · rw [abs_of_nonneg (not_lt.mp h)]

/-- In the linear branch. -/
private theorem near_dot {a b : Quat ℝ} (ha : UnitQ a) (hb : UnitQ b) (t : ℝ) (h : 0.9999 < dot (start a b) b) :
    dot (slerp a b t) b = ((1 - t) * dot (start a b) b + t) /
      Real.sqrt (((1 - t) * dot (start a b) b + t) ^ 2 + (1 - t) ^ 2 * (1 - dot (start a b) b ^ 2)) := by
  rw [slerp_weight ha hb]
  have e1 : weight (dot (start a b) b) (1 - t) = 1 - t := if_pos h
  have e2 : weight (dot (start a b) b) t = t := if_pos h
  rw [e1, e2]
  have hn : ∀ X : Quat ℝ, dot X.normalize b = dot X b / X.abs := by
    intro X; simp only [dot, Quat.normalize]; ring
  rw [hn]
  congr 1
  · have hu := hb
    unfold UnitQ at hu
    simp only [dot, comb]
    linear_combination t * hu
  · unfold Quat.abs
    congr 1
    rw [normSq_comb (start_unit ha) hb]
    ring

/-- **C06** On its way the interpolation comes nearer and nearer to `b`: the cosine of half the angle to `b` does not decrease. This
holds on both branches of the code. -/
theorem C06_slerp_approaches (a b : Quat ℝ) (ha : UnitQ a) (hb : UnitQ b) (s t : ℝ) (h0 : 0 ≤ s) (hst : s ≤ t) (h1 : t ≤ 1) :
    dot (slerp a b s) b ≤ dot (slerp a b t) b := by
  by_cases hfar : |dot a b| ≤ 0.9999
  · rw [(C06_slerp_constant_speed a b ha hb s hfar).2, (C06_slerp_constant_speed a b ha hb t hfar).2]
    have hO0 := Real.arccos_nonneg |dot a b|
    have hO1 := Real.arccos_le_pi |dot a b|
    apply Real.cos_le_cos_of_nonneg_of_le_pi
    · exact mul_nonneg (by linarith) hO0
    · nlinarith
    · exact mul_le_mul_of_nonneg_right (by linarith) hO0
  · push Not at hfar
    rw [← abs_dot_start] at hfar
    rw [near_dot ha hb s hfar, near_dot ha hb t hfar]
    have hd1 := dot_le_one (start_unit (b := b) ha) hb
    set d := dot (start a b) b
    have hd0 : 0 < d := lt_trans (by norm_num) hfar
    have hk : 0 ≤ 1 - d ^ 2 := by nlinarith
    have hA : ∀ u : ℝ, 0 ≤ u → u ≤ 1 → 0 < (1 - u) * d + u := by
      intro u hu0 hu1
      rcases eq_or_lt_of_le hu0 with h | h
      · rw [← h]; linarith
      · have := mul_nonneg (sub_nonneg.mpr hu1) hd0.le; linarith
    have hAs := hA s h0 (by linarith)
    have hAt := hA t (by linarith) h1
    have key : ((1 - s) * d + s) * (1 - t) ≤ ((1 - t) * d + t) * (1 - s) := by nlinarith
    have hN : ∀ u : ℝ, 0 < (1 - u) * d + u → 0 < ((1 - u) * d + u) ^ 2 + (1 - u) ^ 2 * (1 - d ^ 2) := by
      intro u hu
      have := mul_nonneg (sq_nonneg (1 - u)) hk
      have := pow_pos hu 2
      linarith
    have hNs := hN s hAs
    have hNt := hN t hAt
    generalize ((1 - s) * d + s) = A at *
    generalize ((1 - t) * d + t) = B at *
    rw [div_le_div_iff₀ (Real.sqrt_pos.mpr hNs) (Real.sqrt_pos.mpr hNt)]
    apply le_of_sq_le_sq _ (mul_nonneg hAt.le (Real.sqrt_nonneg _))
    rw [mul_pow, mul_pow, Real.sq_sqrt hNs.le, Real.sq_sqrt hNt.le]
    have hsq : (A * (1 - t)) ^ 2 ≤ (B * (1 - s)) ^ 2 :=
      pow_le_pow_left₀ (mul_nonneg hAs.le (by linarith)) key 2
    nlinarith [mul_le_mul_of_nonneg_right hsq hk]

/-- **C06** ... and it moves away from `a`: the cosine of half the angle to `a` does not increase. -/
theorem C06_slerp_leaves (a b : Quat ℝ) (ha : UnitQ a) (hb : UnitQ b) (s t : ℝ) (h0 : 0 ≤ s) (hst : s ≤ t) (h1 : t ≤ 1) :
    |dot (slerp a b t) a| ≤ |dot (slerp a b s) a| := by
  have h := C06_slerp_approaches b a hb ha (1 - t) (1 - s) (by linarith) (by linarith) (by linarith)
  have hr : ∀ u, |dot (slerp a b u) a| = |dot (slerp b a (1 - u)) a| := by
    intro u
    rcases C06_slerp_reverse a b ha hb u with e | ⟨e1, e2, e3, e4⟩
    · rw [e]
    · have : dot (slerp b a (1 - u)) a = -dot (slerp a b u) a := by
        simp only [dot, e1, e2, e3, e4]; ring
      rw [this, _root_.abs_neg]
  have hpos : 0 ≤ dot (slerp b a (1 - t)) a := by
    have h2 := C06_slerp_approaches b a hb ha 0 (1 - t) le_rfl (by linarith) (by linarith)
    rw [slerp_zero hb ha] at h2
    exact le_trans (start_dot_nonneg b a) h2
  rw [hr, hr, abs_of_nonneg hpos, abs_of_nonneg (le_trans hpos h)]
  exact h

/-- **C06** Between 0 and 1 the interpolation is nowhere farther from `a` or `b` than they are from each other. -/
theorem C06_slerp_between (a b : Quat ℝ) (ha : UnitQ a) (hb : UnitQ b) (t : ℝ) (h0 : 0 ≤ t) (h1 : t ≤ 1) :
    |dot a b| ≤ dot (slerp a b t) b ∧ |dot a b| ≤ |dot (slerp a b t) a| := by
  constructor
  · have h := C06_slerp_approaches a b ha hb 0 t le_rfl h0 h1
    rwa [slerp_zero ha hb, abs_dot_start] at h
  · have h := C06_slerp_leaves a b ha hb t 1 h0 h1 le_rfl
    rwa [slerp_one ha hb, SlerpFrames.dot_comm b a] at h

example : UnitQ (⟨3/5, 0, 0, 4/5⟩ : Quat ℝ) ∧ UnitQ (⟨0, 5/13, 0, 12/13⟩ : Quat ℝ) ∧ (0 : ℝ) ≤ 1/4 ∧ (1/4 : ℝ) ≤ 1/2 ∧ (1/2 : ℝ) ≤ 1 := by
  refine ⟨?_, ?_, ?_, ?_, ?_⟩ <;> norm_num [UnitQ]

end Ubitrack
