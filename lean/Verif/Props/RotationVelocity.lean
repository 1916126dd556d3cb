import Verif.Model.RotationVelocity
import Verif.Props.ExpLog
import Mathlib.Tactic.LinearCombination

/-! # Rotation velocities -/

namespace Ubitrack.RotationVelocity

open Spec Quat Tracking

theorem quat_ext {p q : Quat ℝ} (hx : p.x = q.x) (hy : p.y = q.y) (hz : p.z = q.z) (hw : p.w = q.w) : p = q := by
  cases p; cases q; simp_all

/-- Multiplying by the relative rotation leads from the first to the second rotation. -/
theorem mul_conj_mul (a b : Quat ℝ) (ha : UnitQ a) : a.mul (a.conj.mul b) = b := by
  unfold UnitQ at ha
  apply quat_ext <;> simp only [Quat.mul, Quat.conj]
  · linear_combination b.x * ha
  · linear_combination b.y * ha
  · linear_combination b.z * ha
  · linear_combination b.w * ha

theorem conj_mul_mul (a b : Quat ℝ) (ha : UnitQ a) : a.conj.mul (a.mul b) = b := by
  unfold UnitQ at ha
  apply quat_ext <;> simp only [Quat.mul, Quat.conj]
  · linear_combination b.x * ha
  · linear_combination b.y * ha
  · linear_combination b.z * ha
  · linear_combination b.w * ha

theorem sameRotation_mul (a p q : Quat ℝ) (h : SameRotation p q) : SameRotation (a.mul p) (a.mul q) := by
  rcases h with rfl | ⟨hx, hy, hz, hw⟩
  · exact Or.inl rfl
  · refine Or.inr ⟨?_, ?_, ?_, ?_⟩ <;> simp only [Quat.mul, hx, hy, hz, hw] <;> ring

theorem sameRotation_mul_left (a a' q : Quat ℝ) (h : SameRotation a a') : SameRotation (a.mul q) (a'.mul q) := by
  rcases h with rfl | ⟨hx, hy, hz, hw⟩
  · exact Or.inl rfl
  · refine Or.inr ⟨?_, ?_, ?_, ?_⟩ <;> simp only [Quat.mul, hx, hy, hz, hw] <;> ring

theorem sameRotation_trans {p q r : Quat ℝ} (h : SameRotation p q) (h' : SameRotation q r) : SameRotation p r := by
  rcases h with rfl | ⟨hx, hy, hz, hw⟩
  · exact h'
  · rcases h' with rfl | ⟨hx', hy', hz', hw'⟩
    · exact Or.inr ⟨hx, hy, hz, hw⟩
    · left
      apply quat_ext <;> simp only [*, neg_neg]

theorem sameRotation_symm {p q : Quat ℝ} (h : SameRotation p q) : SameRotation q p := by
  rcases h with rfl | ⟨hx, hy, hz, hw⟩
  · exact Or.inl rfl
  · exact Or.inr ⟨by rw [hx, neg_neg], by rw [hy, neg_neg], by rw [hz, neg_neg], by rw [hw, neg_neg]⟩

theorem integrate_velocity (a b : Quat ℝ) {t : ℝ} (ht : t ≠ 0) :
    integrate (velocityBetween a b t) t = fromLogarithm (toLogarithm ((a.negateIfCloser b).conj.mul b)) := by
  unfold integrate velocityBetween
  congr 1
  funext i
  field_simp

theorem unit_relative {a b : Quat ℝ} (ha : UnitQ a) (hb : UnitQ b) :
    UnitQ (a.negateIfCloser b) ∧ UnitQ ((a.negateIfCloser b).conj.mul b) := by
  have h := (C07_negate_if_closer a b).1
  have hu : UnitQ (a.negateIfCloser b) := unit_of_sameRotation (sameRotation_symm h |> sameRotation_symm) ha
  exact ⟨hu, Quat.isUnit_mul (Quat.isUnit_conj hu) hb⟩

/-- **C77.** The velocity between two rotations, integrated over the interval, leads from the first to the second. -/
theorem C77_reaches (a b : Quat ℝ) (t : ℝ) (ha : UnitQ a) (hb : UnitQ b) (ht : t ≠ 0)
    (hi : 1e-12 < (a.conj.mul b).imagLen) : SameRotation (a.mul (integrate (velocityBetween a b t) t)) b := by
  obtain ⟨hu, hd⟩ := unit_relative ha hb
  have hs := (C07_negate_if_closer a b).1
  have hi' : 1e-12 < ((a.negateIfCloser b).conj.mul b).imagLen := by
    rcases hs with h | ⟨hx, hy, hz, hw⟩
    · rw [h]; exact hi
    · refine lt_of_lt_of_eq hi ?_
      unfold imagLen
      congr 1
      simp only [Quat.mul, Quat.conj, hx, hy, hz, hw]
      ring
  rw [integrate_velocity a b ht]
  have h1 := (C05_exp_log _ hd hi').1
  have h2 := sameRotation_mul (a.negateIfCloser b) _ _ h1
  rw [mul_conj_mul _ _ hu] at h2
  exact sameRotation_trans (sameRotation_mul_left _ _ _ (sameRotation_symm hs)) h2

/-- **C77.** The velocity is that of the shorter way round: its angle in the interval is the angle between the rotations and at
most half a turn. -/
theorem C77_shortest (a b : Quat ℝ) (t : ℝ) (ha : UnitQ a) (hb : UnitQ b) (ht : 0 < t) :
    angularVelocity (velocityBetween a b t) * t ≤ Real.pi ∧
    (1e-12 < (a.conj.mul b).imagLen → angularVelocity (velocityBetween a b t) * t = (a.conj.mul b).angle) := by
  obtain ⟨hu, hd⟩ := unit_relative ha hb
  have hs := (C07_negate_if_closer a b).1
  have hn : angularVelocity (velocityBetween a b t) * t = norm3 (toLogarithm ((a.negateIfCloser b).conj.mul b)) := by
    unfold angularVelocity velocityBetween
    simp only
    generalize toLogarithm ((a.negateIfCloser b).conj.mul b) = l
    unfold norm3
    rw [show l 0 / t * (l 0 / t) + l 1 / t * (l 1 / t) + l 2 / t * (l 2 / t) = (l 0 * l 0 + l 1 * l 1 + l 2 * l 2) / t ^ 2 by
      field_simp, Real.sqrt_div' _ (by positivity), Real.sqrt_sq ht.le]
    field_simp
  rw [hn]
  obtain ⟨h1, h2⟩ := C05_log_length _ hd
  refine ⟨h1, fun hi => ?_⟩
  rcases hs with h | ⟨hx, hy, hz, hw⟩
  · rw [h] at h2 ⊢; exact h2 hi
  · have hi' : 1e-12 < ((a.negateIfCloser b).conj.mul b).imagLen := by
      refine lt_of_lt_of_eq hi ?_
      unfold imagLen
      congr 1
      simp only [Quat.mul, Quat.conj, hx, hy, hz, hw]
      ring
    rw [h2 hi']
    have e : ((a.negateIfCloser b).conj.mul b).w = -(a.conj.mul b).w := by
      simp only [Quat.mul, Quat.conj, hx, hy, hz, hw]
      ring
    unfold angle
    rw [e]
    congr 2
    split_ifs <;> linarith

/-- **C77.** A motion with constant velocity is recovered from two rotations of it, if it turns by at most half a turn
between them. -/
theorem C77_recovered (a : Quat ℝ) (v : Vec ℝ 3) (t : ℝ) (ha : UnitQ a) (ht : 0 < t) (hlo : 1e-11 ≤ angularVelocity v * t)
    (hhi : angularVelocity v * t ≤ Real.pi) : velocityBetween a (a.mul (integrate v t)) t = v := by
  have hn : norm3 (fun i => v i * t) = angularVelocity v * t := by
    unfold angularVelocity norm3
    rw [show v 0 * t * (v 0 * t) + v 1 * t * (v 1 * t) + v 2 * t * (v 2 * t) = (v 0 * v 0 + v 1 * v 1 + v 2 * v 2) * t ^ 2 by
      ring, Real.sqrt_mul' _ (by positivity), Real.sqrt_sq ht.le]
  have hw : 0 ≤ (integrate v t).w := by
    have h12 : ¬ norm3 (fun i => v i * t) ≤ 1e-12 := by rw [hn]; norm_num at hlo ⊢; linarith
    unfold integrate fromLogarithm
    simp only
    rw [if_pos (not_le.mp h12), hn]
    exact Real.cos_nonneg_of_mem_Icc ⟨by linarith [Real.pi_pos], by linarith⟩
  have hclose : a.negateIfCloser (a.mul (integrate v t)) = a := by
    unfold negateIfCloser
    simp only
    rw [if_pos]
    have e : a.x * (a.mul (integrate v t)).x + a.y * (a.mul (integrate v t)).y + a.z * (a.mul (integrate v t)).z +
        a.w * (a.mul (integrate v t)).w = (integrate v t).w := by
      unfold UnitQ at ha
      simp only [Quat.mul]
      linear_combination (integrate v t).w * ha
    rw [e]
    exact hw
  unfold velocityBetween
  simp only
  rw [hclose, conj_mul_mul _ _ ha]
  unfold integrate
  rw [C05_log_exp _ (by rw [hn]; exact hlo) (by rw [hn]; exact hhi)]
  funext i
  field_simp

theorem integrate_eq (v : Vec ℝ 3) (t : ℝ) (hv : norm3 v ≠ 0) (h : t = 0 ∨ 1e-12 < norm3 v * |t|) :
    integrate v t = ⟨Real.sin (norm3 v * t / 2) / norm3 v * v 0, Real.sin (norm3 v * t / 2) / norm3 v * v 1,
      Real.sin (norm3 v * t / 2) / norm3 v * v 2, Real.cos (norm3 v * t / 2)⟩ := by
  have hn : norm3 (fun i => v i * t) = norm3 v * |t| := by
    unfold norm3
    rw [show v 0 * t * (v 0 * t) + v 1 * t * (v 1 * t) + v 2 * t * (v 2 * t) = (v 0 * v 0 + v 1 * v 1 + v 2 * v 2) * t ^ 2 by
      ring, Real.sqrt_mul' _ (by positivity), Real.sqrt_sq_eq_abs]
  unfold integrate fromLogarithm
  simp only
  rw [hn]
  rcases h with rfl | h
  · rw [if_neg (by norm_num)]
    simp
  · rw [if_pos h]
    have ht : t ≠ 0 := by rintro rfl; norm_num at h
    rcases lt_or_gt_of_ne ht with h0 | h0
    · rw [abs_of_neg h0, show norm3 v * -t / 2 = -(norm3 v * t / 2) by ring, Real.sin_neg, Real.cos_neg]
      apply quat_ext <;> simp only <;> field_simp
    · rw [abs_of_pos h0]
      apply quat_ext <;> simp only <;> field_simp

/-- **C77.** Integrating over two intervals, one after the other, is integrating over the sum, backwards and forwards, for
angles of zero or more than 1e-12. -/
theorem C77_additive_partial (v : Vec ℝ 3) (s t : ℝ) (hs : s = 0 ∨ 1e-12 < angularVelocity v * |s|)
    (ht : t = 0 ∨ 1e-12 < angularVelocity v * |t|) (hst : s + t = 0 ∨ 1e-12 < angularVelocity v * |s + t|) :
    (integrate v s).mul (integrate v t) = integrate v (s + t) := by
  by_cases hv : norm3 v = 0
  · have h0 : ∀ u, u = 0 ∨ 1e-12 < angularVelocity v * |u| → u = 0 := by
      intro u hu
      refine hu.resolve_right fun h => ?_
      unfold angularVelocity at h
      rw [hv] at h
      norm_num at h
    obtain rfl := h0 s hs
    obtain rfl := h0 t ht
    have h1 : integrate v 0 = ⟨0, 0, 0, 1⟩ := by
      unfold integrate fromLogarithm
      simp [norm3]
    rw [add_zero, h1]
    simp [Quat.mul]
  · rw [integrate_eq v s hv hs, integrate_eq v t hv ht, integrate_eq v (s + t) hv hst]
    have hsq := norm3_sq v
    rw [show norm3 v * (s + t) / 2 = norm3 v * s / 2 + norm3 v * t / 2 by ring, Real.sin_add, Real.cos_add]
    generalize Real.sin (norm3 v * s / 2) = a
    generalize Real.cos (norm3 v * s / 2) = b
    generalize Real.sin (norm3 v * t / 2) = c
    generalize Real.cos (norm3 v * t / 2) = d
    apply quat_ext <;> simp only [Quat.mul]
    · field_simp; ring
    · field_simp; ring
    · field_simp; ring
    · have : a / norm3 v * v 0 * (c / norm3 v * v 0) + a / norm3 v * v 1 * (c / norm3 v * v 1) +
          a / norm3 v * v 2 * (c / norm3 v * v 2) = a * c := by
        rw [show a / norm3 v * v 0 * (c / norm3 v * v 0) + a / norm3 v * v 1 * (c / norm3 v * v 1) +
          a / norm3 v * v 2 * (c / norm3 v * v 2) = a * c * (v 0 ^ 2 + v 1 ^ 2 + v 2 ^ 2) / norm3 v ^ 2 by
            field_simp, ← hsq]
        field_simp
      linarith

/-- **C77, refuted.** Angles up to 1e-12 are dropped: however often a motion is integrated over a short interval, the rotation
does not change, while the integral over the whole time is another rotation. -/
theorem C77_small_refuted : ∃ (v : Vec ℝ 3) (t : ℝ), integrate v t = ⟨0, 0, 0, 1⟩ ∧
    (∀ q : Quat ℝ, q.mul (integrate v t) = q) ∧ integrate v (1e12 * t) ≠ ⟨0, 0, 0, 1⟩ := by
  have h1 : integrate ![1, 0, 0] 1e-12 = ⟨0, 0, 0, 1⟩ := by
    unfold integrate fromLogarithm
    simp only
    rw [if_neg]
    have : norm3 (fun i => (![1, 0, 0] : Vec ℝ 3) i * 1e-12) = 1e-12 := by
      unfold norm3
      change Real.sqrt (1 * 1e-12 * (1 * 1e-12) + 0 * 1e-12 * (0 * 1e-12) + 0 * 1e-12 * (0 * 1e-12)) = _
      rw [show (1 * 1e-12 * (1 * 1e-12) + 0 * 1e-12 * (0 * 1e-12) + 0 * 1e-12 * (0 * 1e-12) : ℝ) = (1e-12) ^ 2 by norm_num]
      exact Real.sqrt_sq (by norm_num)
    rw [this]
    exact lt_irrefl _
  refine ⟨![1, 0, 0], 1e-12, h1, fun q => ?_, ?_⟩
  · rw [h1]
    apply quat_ext <;> simp [Quat.mul]
  · have hn : norm3 (![1, 0, 0] : Vec ℝ 3) = 1 := by
      unfold norm3
      change Real.sqrt (1 * 1 + 0 * 0 + 0 * 0) = 1
      norm_num
    rw [show (1e12 * 1e-12 : ℝ) = 1 by norm_num, integrate_eq _ _ (by rw [hn]; norm_num) (Or.inr (by rw [hn]; norm_num))]
    intro h
    have := congrArg Quat.x h
    simp only [hn] at this
    have hpos : 0 < Real.sin (1 * 1 / 2) := Real.sin_pos_of_pos_of_lt_pi (by norm_num) (by linarith [Real.pi_gt_three])
    change Real.sin (1 * 1 / 2) / 1 * 1 = 0 at this
    linarith

/-- **C77.** A velocity is its axis, a vector of length one, times the angular velocity; the angular velocity is the length. -/
theorem C77_axis (v : Vec ℝ 3) : (∀ i, v i = axis v i * angularVelocity v) ∧ angularVelocity v ^ 2 = lenSq v ∧
    0 ≤ angularVelocity v ∧ (v ≠ 0 → lenSq (axis v) = 1) := by
  have hsq : angularVelocity v ^ 2 = lenSq v := norm3_sq v
  have h0 : angularVelocity v = 0 → v = 0 := by
    intro h
    rw [h] at hsq
    unfold lenSq at hsq
    funext i
    fin_cases i
    · change v 0 = 0; nlinarith [sq_nonneg (v 0), sq_nonneg (v 1), sq_nonneg (v 2)]
    · change v 1 = 0; nlinarith [sq_nonneg (v 0), sq_nonneg (v 1), sq_nonneg (v 2)]
    · change v 2 = 0; nlinarith [sq_nonneg (v 0), sq_nonneg (v 1), sq_nonneg (v 2)]
  refine ⟨fun i => ?_, hsq, norm3_nonneg v, fun hv => ?_⟩
  · unfold axis
    split_ifs with h
    · field_simp
    · rw [h0 (not_not.mp h)]; simp
  · have h : angularVelocity v ≠ 0 := fun h => hv (h0 h)
    unfold axis
    simp only [if_pos h]
    rw [show lenSq (fun i => v i / angularVelocity v) = lenSq v / angularVelocity v ^ 2 by unfold lenSq; field_simp, ← hsq]
    field_simp

/-- Two rotations and a velocity as in the theorems. -/
example : ∃ (a b : Quat ℝ) (v : Vec ℝ 3), UnitQ a ∧ UnitQ b ∧ 1e-12 < (a.conj.mul b).imagLen ∧
    1e-11 ≤ angularVelocity v * 2 ∧ angularVelocity v * 2 ≤ Real.pi := by
  refine ⟨⟨0, 0, 0, 1⟩, ⟨3 / 5, 0, 0, 4 / 5⟩, ![0, 3 / 5, 4 / 5], by norm_num [UnitQ], by norm_num [UnitQ], ?_, ?_⟩
  · unfold imagLen
    simp only [Quat.mul, Quat.conj]
    rw [show ((1 : ℝ) * (3 / 5) + -0 * (4 / 5) + -0 * 0 - -0 * 0) * (1 * (3 / 5) + -0 * (4 / 5) + -0 * 0 - -0 * 0) +
      (1 * 0 - -0 * 0 + -0 * (4 / 5) + -0 * (3 / 5)) * (1 * 0 - -0 * 0 + -0 * (4 / 5) + -0 * (3 / 5)) +
      (1 * 0 + -0 * 0 - -0 * (3 / 5) + -0 * (4 / 5)) * (1 * 0 + -0 * 0 - -0 * (3 / 5) + -0 * (4 / 5)) = (3 / 5) ^ 2 by norm_num,
      Real.sqrt_sq (by norm_num)]
    norm_num
  · have hn : angularVelocity (![0, 3 / 5, 4 / 5] : Vec ℝ 3) = 1 := by
      unfold angularVelocity norm3
      change Real.sqrt (0 * 0 + 3 / 5 * (3 / 5) + 4 / 5 * (4 / 5)) = 1
      rw [show (0 * 0 + 3 / 5 * (3 / 5) + 4 / 5 * (4 / 5) : ℝ) = 1 by norm_num, Real.sqrt_one]
    rw [hn]
    exact ⟨by norm_num, by linarith [Real.pi_gt_three]⟩

end Ubitrack.RotationVelocity
