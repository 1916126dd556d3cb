import Verif.Props.RotationVelocity
import Mathlib.Analysis.Quaternion

/-! # C77: the error of integrating a rotation velocity in steps -/

namespace Ubitrack.RotationVelocity

open Spec Quat Tracking

local notation "ℍ" => Quaternion ℝ

/-- The rotation by the angle `norm3 v * u` about `v`. -/
private noncomputable def exact (v : Vec ℝ 3) (u : ℝ) : Quat ℝ :=
  ⟨Real.sin (norm3 v * u / 2) / norm3 v * v 0, Real.sin (norm3 v * u / 2) / norm3 v * v 1,
    Real.sin (norm3 v * u / 2) / norm3 v * v 2, Real.cos (norm3 v * u / 2)⟩

private theorem norm_sq (p q : Quat ℝ) : ‖toH p - toH q‖ ^ 2 = distSq p q := by
  rw [sq, ← Quaternion.normSq_eq_norm_mul_self, Quaternion.normSq_def']
  simp only [distSq, Quaternion.re_sub, Quaternion.imI_sub, Quaternion.imJ_sub, Quaternion.imK_sub,
    toH_re, toH_imI, toH_imJ, toH_imK]
  ring

private theorem norm_unit {p : Quat ℝ} (hp : UnitQ p) : ‖toH p‖ = 1 := by
  have h : ‖toH p‖ ^ 2 = 1 := by
    rw [sq, ← Quaternion.normSq_eq_norm_mul_self, Quaternion.normSq_def']
    simp only [toH_re, toH_imI, toH_imJ, toH_imK]
    unfold UnitQ at hp
    linarith
  nlinarith [norm_nonneg (toH p)]

private theorem exact_zero (v : Vec ℝ 3) : exact v 0 = ⟨0, 0, 0, 1⟩ := by simp [exact]

private theorem exact_add (v : Vec ℝ 3) (s t : ℝ) : (exact v s).mul (exact v t) = exact v (s + t) := by
  by_cases hv : norm3 v = 0
  · simp [exact, hv, Quat.mul]
  have hsq := norm3_sq v
  unfold exact
  rw [show norm3 v * (s + t) / 2 = norm3 v * s / 2 + norm3 v * t / 2 by ring, Real.sin_add, Real.cos_add]
  generalize Real.sin (norm3 v * s / 2) = a
  generalize Real.cos (norm3 v * s / 2) = b
  generalize Real.sin (norm3 v * t / 2) = c
  generalize Real.cos (norm3 v * t / 2) = d
  apply quat_ext <;> simp only [Quat.mul]
  · field_simp; ring
  · field_simp; ring
  · field_simp; ring
  · have : a / norm3 v * v 0 * (c / norm3 v * v 0) + a / norm3 v * v 1 * (c / norm3 v * v 1) +
        a / norm3 v * v 2 * (c / norm3 v * v 2) = a * c := by
      rw [show a / norm3 v * v 0 * (c / norm3 v * v 0) + a / norm3 v * v 1 * (c / norm3 v * v 1) +
        a / norm3 v * v 2 * (c / norm3 v * v 2) = a * c * (v 0 ^ 2 + v 1 ^ 2 + v 2 ^ 2) / norm3 v ^ 2 by
          field_simp, ← hsq]
      field_simp
    linarith

private theorem exact_unit (v : Vec ℝ 3) (u : ℝ) : UnitQ (exact v u) := by
  by_cases hv : norm3 v = 0
  · simp [exact, hv, UnitQ]
  have hsq := norm3_sq v
  unfold exact UnitQ
  simp only
  rw [show (Real.sin (norm3 v * u / 2) / norm3 v * v 0) ^ 2 + (Real.sin (norm3 v * u / 2) / norm3 v * v 1) ^ 2 +
      (Real.sin (norm3 v * u / 2) / norm3 v * v 2) ^ 2 =
      Real.sin (norm3 v * u / 2) ^ 2 * (v 0 ^ 2 + v 1 ^ 2 + v 2 ^ 2) / norm3 v ^ 2 by field_simp, ← hsq]
  field_simp
  exact Real.sin_sq_add_cos_sq _

private theorem close (v : Vec ℝ 3) (u : ℝ) : ‖toH (integrate v u) - toH (exact v u)‖ ≤ 5e-13 := by
  by_cases h : norm3 v ≠ 0 ∧ (u = 0 ∨ 1e-12 < norm3 v * |u|)
  · rw [show integrate v u = exact v u from integrate_eq v u h.1 h.2, sub_self, norm_zero]
    norm_num
  have hle : norm3 v * |u| ≤ 1e-12 := by
    by_contra hc
    push Not at hc
    refine h ⟨fun h0 => ?_, Or.inr hc⟩
    rw [h0] at hc
    norm_num at hc
  have hn : norm3 (fun i => v i * u) = norm3 v * |u| := by
    unfold norm3
    rw [show v 0 * u * (v 0 * u) + v 1 * u * (v 1 * u) + v 2 * u * (v 2 * u) = (v 0 * v 0 + v 1 * v 1 + v 2 * v 2) * u ^ 2 by
      ring, Real.sqrt_mul' _ (by positivity), Real.sqrt_sq_eq_abs]
  have hi : integrate v u = ⟨0, 0, 0, 1⟩ := by
    unfold integrate fromLogarithm
    simp only
    rw [hn, if_neg (not_lt.mpr hle)]
  have hu := exact_unit v u
  have hcos := Real.one_sub_sq_div_two_le_cos (x := norm3 v * u / 2)
  have hx : (norm3 v * u / 2) ^ 2 ≤ (5e-13) ^ 2 := by
    have h0 : (0 : ℝ) ≤ norm3 v * |u| := mul_nonneg (Real.sqrt_nonneg _) (abs_nonneg _)
    have : (norm3 v * u) ^ 2 = (norm3 v * |u|) ^ 2 := by rw [mul_pow, mul_pow, sq_abs]
    nlinarith
  have hd : distSq (integrate v u) (exact v u) ≤ (5e-13) ^ 2 := by
    rw [hi]
    have hw : (exact v u).w = Real.cos (norm3 v * u / 2) := rfl
    unfold UnitQ at hu
    unfold distSq
    simp only
    rw [← hw] at hcos
    nlinarith
  rw [← norm_sq] at hd
  exact le_of_sq_le_sq hd (by norm_num)

private theorem toH_mul' (p q : Quat ℝ) : toH (p.mul q) = toH p * toH q := C02_product_is_quaternion_product p q

private theorem steps (v : Vec ℝ 3) (l : List ℝ) : ∀ q : Quat ℝ, UnitQ q →
    ‖toH (l.foldl (fun q t => q.mul (integrate v t)) q) - toH (q.mul (exact v l.sum))‖ ≤ l.length * 5e-13 := by
  induction l with
  | nil =>
    intro q _
    simp [exact_zero, Quat.mul]
  | cons t l ih =>
    intro q hq
    have hi : UnitQ (integrate v t) := C05_exp_unit _
    have h1 := ih (q.mul (integrate v t)) (Quat.isUnit_mul hq hi)
    simp only [List.foldl_cons, List.sum_cons, List.length_cons, Nat.cast_add, Nat.cast_one]
    have h2 : ‖toH ((q.mul (integrate v t)).mul (exact v l.sum)) - toH (q.mul (exact v (t + l.sum)))‖ ≤ 5e-13 := by
      rw [← exact_add]
      simp only [toH_mul']
      rw [show toH q * toH (integrate v t) * toH (exact v l.sum) - toH q * (toH (exact v t) * toH (exact v l.sum)) =
        toH q * (toH (integrate v t) - toH (exact v t)) * toH (exact v l.sum) by noncomm_ring, norm_mul, norm_mul,
        norm_unit hq, norm_unit (exact_unit v _), one_mul, mul_one]
      exact close v t
    calc _ ≤ _ := norm_sub_le_norm_sub_add_norm_sub _ (toH ((q.mul (integrate v t)).mul (exact v l.sum))) _
      _ ≤ _ := by linarith

/-- **C77.** Integrating a velocity in steps, from any rotation, over any intervals, backwards and forwards, is integrating it
once over the sum of the intervals, up to a distance of the quaternions of 5e-13 for each step and for the sum. -/
theorem C77_steps (v : Vec ℝ 3) (q : Quat ℝ) (hq : UnitQ q) (l : List ℝ) :
    distSq (l.foldl (fun q t => q.mul (integrate v t)) q) (q.mul (integrate v l.sum)) ≤ ((l.length + 1) * 5e-13) ^ 2 := by
  rw [← norm_sq]
  have h1 := steps v l q hq
  have h2 : ‖toH (q.mul (exact v l.sum)) - toH (q.mul (integrate v l.sum))‖ ≤ 5e-13 := by
    simp only [toH_mul']
    rw [← mul_sub, norm_mul, norm_unit hq, one_mul, norm_sub_rev]
    exact close v _
  have h3 := norm_sub_le_norm_sub_add_norm_sub (toH (l.foldl (fun q t => q.mul (integrate v t)) q))
    (toH (q.mul (exact v l.sum))) (toH (q.mul (integrate v l.sum)))
  exact pow_le_pow_left₀ (norm_nonneg _) (by linarith) 2

private theorem distSq_mul (a p q : Quat ℝ) (ha : UnitQ a) : distSq (a.mul p) (a.mul q) = distSq p q := by
  unfold UnitQ at ha
  simp only [distSq, Quat.mul]
  linear_combination ((p.x - q.x) ^ 2 + (p.y - q.y) ^ 2 + (p.z - q.z) ^ 2 + (p.w - q.w) ^ 2) * ha

/-- **C77.** The velocity between any two rotations, integrated over the interval, leads from the first to the second up to a
squared distance of 2e-24 and the sign, however close or far the rotations are. -/
theorem C77_reaches_all (a b : Quat ℝ) (t : ℝ) (ha : UnitQ a) (hb : UnitQ b) (ht : t ≠ 0) :
    distSq (a.mul (integrate (velocityBetween a b t) t)) b ≤ 2e-24 ∨
    distSq (a.mul (integrate (velocityBetween a b t) t)) ⟨-b.x, -b.y, -b.z, -b.w⟩ ≤ 2e-24 := by
  by_cases hi : 1e-12 < (a.conj.mul b).imagLen
  · rcases C77_reaches a b t ha hb ht hi with h | ⟨hx, hy, hz, hw⟩
    · left; rw [h]; simp only [distSq]; norm_num
    · right; simp only [distSq, hx, hy, hz, hw]; norm_num
  · obtain ⟨hu, hd⟩ := unit_relative ha hb
    have hs := (C07_negate_if_closer a b).1
    have hi' : ¬ 1e-12 < ((a.negateIfCloser b).conj.mul b).imagLen := by
      rcases hs with h | ⟨hx, hy, hz, hw⟩
      · rw [h]; exact hi
      · refine fun h => hi (lt_of_lt_of_eq h ?_)
        unfold imagLen
        congr 1
        simp only [Quat.mul, Quat.conj, hx, hy, hz, hw]
        ring
    obtain ⟨h1, h2⟩ := C05_exp_log_near_identity _ hd hi'
    rw [integrate_velocity a b ht, h1]
    have hone : ∀ p : Quat ℝ, p.mul one = p := Quat.mul_one'
    have e1 : distSq (a.negateIfCloser b) b = distSq one ((a.negateIfCloser b).conj.mul b) := by
      rw [← distSq_mul (a.negateIfCloser b) one _ hu, hone, mul_conj_mul _ _ hu]
    have e2 : distSq (a.negateIfCloser b) (neg b) = distSq one (neg ((a.negateIfCloser b).conj.mul b)) := by
      rw [← distSq_mul (a.negateIfCloser b) one _ hu, hone]
      congr 1
      rw [← mul_conj_mul (a.negateIfCloser b) (neg b) hu]
      congr 1
      simp only [neg, Quat.mul]
      apply quat_ext <;> simp only <;> ring
    rw [hone]
    rw [← e1, ← e2] at h2
    rcases hs with h | ⟨hx, hy, hz, hw⟩
    · rw [h] at h2; exact h2
    · simp only [distSq, neg, hx, hy, hz, hw] at h2 ⊢
      rcases h2 with h2 | h2
      · right; refine le_of_eq_of_le ?_ h2; ring
      · left; refine le_of_eq_of_le ?_ h2; ring

example : UnitQ (⟨3/5, 0, 0, 4/5⟩ : Quat ℝ) ∧ UnitQ (⟨0, 5/13, 0, 12/13⟩ : Quat ℝ) := by
  constructor <;> norm_num [UnitQ]

/-- Seven steps, one of them back, from a rotation that is not the identity. -/
example : UnitQ (⟨3/5, 0, 0, 4/5⟩ : Quat ℝ) ∧ ([1, 2, -1, 4, 1/2, 1e-20, 3] : List ℝ).length = 7 := by
  constructor
  · norm_num [UnitQ]
  · rfl

end Ubitrack.RotationVelocity
