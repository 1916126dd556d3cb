import Verif.Model.RotationCast
import Verif.Spec.Turn
import Verif.Spec.Rotation
import Verif.Spec.Alignment
import Verif.Props.Rotation
import Verif.Props.RotationMatrix
import Mathlib.Analysis.SpecialFunctions.Trigonometric.Bounds

/-!
# C63: conversions between representations of rotations
-/

namespace Ubitrack.RotationCast
open Spec
open scoped Matrix

lemma turn_apply (n : Vec ℝ 3) (θ : ℝ) (v : Vec ℝ 3) : turn n θ v =
    ![Real.cos θ * v 0 + Real.sin θ * (n 1 * v 2 - n 2 * v 1) + (1 - Real.cos θ) * (n 0 * v 0 + n 1 * v 1 + n 2 * v 2) * n 0,
      Real.cos θ * v 1 + Real.sin θ * (n 2 * v 0 - n 0 * v 2) + (1 - Real.cos θ) * (n 0 * v 0 + n 1 * v 1 + n 2 * v 2) * n 1,
      Real.cos θ * v 2 + Real.sin θ * (n 0 * v 1 - n 1 * v 0) + (1 - Real.cos θ) * (n 0 * v 0 + n 1 * v 1 + n 2 * v 2) * n 2] := by
  funext i
  fin_cases i <;> simp [turn, crossProduct, dotProduct, Fin.sum_univ_three, Matrix.vecHead, Matrix.vecTail]

lemma turn_zero_axis (v : Vec ℝ 3) : turn 0 0 v = v := by
  simp [turn]

lemma norm_sq (v : Vec ℝ 3) : v ⬝ᵥ v = v 0 * v 0 + v 1 * v 1 + v 2 * v 2 := by
  simp [dotProduct, Fin.sum_univ_three]

/-- A quaternion with half the angle turns by the angle. -/
lemma rotate_half (n : Vec ℝ 3) (hn : n ⬝ᵥ n = 1) (θ : ℝ) (v : Vec ℝ 3) :
    UnitQ (⟨n 0 * Real.sin (θ / 2), n 1 * Real.sin (θ / 2), n 2 * Real.sin (θ / 2), Real.cos (θ / 2)⟩ : Quat ℝ) ∧
    Quat.rotate ⟨n 0 * Real.sin (θ / 2), n 1 * Real.sin (θ / 2), n 2 * Real.sin (θ / 2), Real.cos (θ / 2)⟩ v = turn n θ v := by
  have hs := Real.sin_sq_add_cos_sq (θ / 2)
  have h2 : Real.sin θ = 2 * Real.sin (θ / 2) * Real.cos (θ / 2) := by rw [← Real.sin_two_mul]; congr 1; ring
  have hc : Real.cos θ = 2 * Real.cos (θ / 2) ^ 2 - 1 := by rw [← Real.cos_two_mul]; congr 1; ring
  rw [norm_sq] at hn
  set s := Real.sin (θ / 2)
  set c := Real.cos (θ / 2)
  constructor
  · simp only [UnitQ]
    linear_combination s ^ 2 * hn + hs
  · rw [turn_apply, h2, hc]
    have e : 1 - (2 * c ^ 2 - 1) = 2 * s ^ 2 := by linear_combination -2 * hs
    rw [e]
    funext i
    fin_cases i <;> simp [Quat.rotate] <;> ring

/-- **C63** The matrix of an axis and an angle turns every point about the axis by the angle. -/
theorem C63_axis_angle_to_matrix (n : Vec ℝ 3) (θ : ℝ) (v : Vec ℝ 3) :
    (axisAngleToMatrix ![n 0, n 1, n 2, θ]).mulVec v = turn n θ v := by
  rw [turn_apply]
  funext i
  fin_cases i <;> simp [axisAngleToMatrix, Matrix.mulVec, dotProduct, Fin.sum_univ_three] <;> ring

/-- **C63** The quaternion of a unit axis and an angle is a unit quaternion and turns every point about the axis by the angle. -/
theorem C63_axis_angle_to_quaternion (n : Vec ℝ 3) (hn : n ⬝ᵥ n = 1) (θ : ℝ) (v : Vec ℝ 3) :
    UnitQ (axisAngleToQuat ![n 0, n 1, n 2, θ]) ∧ (axisAngleToQuat ![n 0, n 1, n 2, θ]).rotate v = turn n θ v :=
  rotate_half n hn θ v

/-- A unit axis that is not a coordinate axis. -/
example : (![3 / 5, 0, 4 / 5] : Vec ℝ 3) ⬝ᵥ ![3 / 5, 0, 4 / 5] = 1 := by
  rw [norm_sq]
  simp only [Matrix.cons_val]
  norm_num

/-- **C63** The matrix of a unit quaternion rotates every point like the quaternion. -/
theorem C63_quaternion_to_matrix (q : Quat ℝ) (hq : UnitQ q) (v : Vec ℝ 3) : (quatToMatrix q).mulVec v = q.rotate v := by
  unfold UnitQ at hq
  funext i
  fin_cases i <;> simp [quatToMatrix, Quat.rotate, Matrix.mulVec, dotProduct, Fin.sum_univ_three]
  · linear_combination (-v 0) * hq
  · linear_combination (-v 1) * hq
  · linear_combination (-v 2) * hq

lemma sqrt_imag (q : Quat ℝ) (hq : UnitQ q) (h : q.w ^ 2 ≠ 1) :
    ∃ s : ℝ, s = Real.sqrt (1 - q.w * q.w) ∧ 0 < s ∧ s * s = q.x * q.x + q.y * q.y + q.z * q.z ∧ 0 < 1 - q.w * q.w := by
  unfold UnitQ at hq
  have hpos : 0 < 1 - q.w * q.w := by
    rcases lt_or_eq_of_le (show q.w ^ 2 ≤ 1 by nlinarith [sq_nonneg q.x, sq_nonneg q.y, sq_nonneg q.z]) with h1 | h1
    · nlinarith
    · exact absurd h1 h
  refine ⟨_, rfl, Real.sqrt_pos.mpr hpos, ?_, hpos⟩
  rw [Real.mul_self_sqrt hpos.le]
  linear_combination -hq

/-- **C63** Axis and angle of a unit quaternion other than plus or minus one: the axis has length one, the angle is between zero
and a full turn, and turning about the axis is the rotation. -/
theorem C63_quaternion_to_axis_angle (q : Quat ℝ) (hq : UnitQ q) (h : q.w ^ 2 ≠ 1) :
    ∃ n θ, quatToAxisAngle q = some ![n 0, n 1, n 2, θ] ∧ n ⬝ᵥ n = 1 ∧ 0 < θ ∧ θ < 2 * Real.pi ∧ ∀ v, turn n θ v = q.rotate v := by
  obtain ⟨s, hs, hs0, hss, hpos⟩ := sqrt_imag q hq h
  have hw1 : -1 < q.w := by nlinarith
  have hw2 : q.w < 1 := by nlinarith
  refine ⟨![q.x / s, q.y / s, q.z / s], 2 * Real.arccos q.w, ?_, ?_, ?_, ?_, fun v => ?_⟩
  · rw [quatToAxisAngle, if_neg (not_le.mpr hpos), ← hs]
    rfl
  · rw [norm_sq]
    simp only [Matrix.cons_val]
    field_simp
    linear_combination -hss
  · have := Real.arccos_pos.mpr hw2
    linarith
  · have : Real.arccos q.w < Real.pi := by
      rcases lt_or_eq_of_le (Real.arccos_le_pi q.w) with h | h
      · exact h
      · have := Real.arccos_eq_pi.mp h
        linarith
    linarith
  · have hn : (![q.x / s, q.y / s, q.z / s] : Vec ℝ 3) ⬝ᵥ ![q.x / s, q.y / s, q.z / s] = 1 := by
      rw [norm_sq]
      simp only [Matrix.cons_val]
      field_simp
      linear_combination -hss
    have := (rotate_half ![q.x / s, q.y / s, q.z / s] hn (2 * Real.arccos q.w) v).2
    rw [← this]
    have e : 2 * Real.arccos q.w / 2 = Real.arccos q.w := by ring
    have e2 : Real.sin (Real.arccos q.w) = s := by rw [Real.sin_arccos, hs, pow_two]
    rw [e, e2, Real.cos_arccos hw1.le hw2.le]
    simp only [Matrix.cons_val, div_mul_cancel₀ _ hs0.ne']

example : UnitQ (⟨3 / 5, 0, 0, 4 / 5⟩ : Quat ℝ) ∧ (4 / 5 : ℝ) ^ 2 ≠ 1 := by norm_num [UnitQ]

/-- **C63** The identity has no axis and angle: the components are not numbers. -/
theorem C63_quaternion_identity_refuted : UnitQ (⟨0, 0, 0, 1⟩ : Quat ℝ) ∧ quatToAxisAngle ⟨0, 0, 0, 1⟩ = none := by
  constructor
  · norm_num [UnitQ]
  · norm_num [quatToAxisAngle]

lemma sqrt_ne {r : Vec ℝ 3} (h : ¬ Real.sqrt (r 0 * r 0 + r 1 * r 1 + r 2 * r 2) < 1e-10) :
    r ≠ 0 ∧ 0 < Real.sqrt (r ⬝ᵥ r) ∧ Real.sqrt (r ⬝ᵥ r) = Real.sqrt (r 0 * r 0 + r 1 * r 1 + r 2 * r 2) := by
  have h1 : Real.sqrt (r ⬝ᵥ r) = Real.sqrt (r 0 * r 0 + r 1 * r 1 + r 2 * r 2) := by rw [norm_sq]
  have h2 : 0 < Real.sqrt (r ⬝ᵥ r) := by
    rw [h1]
    have : (0 : ℝ) < 1e-10 := by norm_num
    linarith
  refine ⟨?_, h2, h1⟩
  rintro rfl
  simp at h2

lemma unit_axis {r : Vec ℝ 3} (h : 0 < Real.sqrt (r ⬝ᵥ r)) :
    (fun i => r i / Real.sqrt (r ⬝ᵥ r)) ⬝ᵥ (fun i => r i / Real.sqrt (r ⬝ᵥ r)) = 1 := by
  have hs : Real.sqrt (r ⬝ᵥ r) * Real.sqrt (r ⬝ᵥ r) = r ⬝ᵥ r := Real.mul_self_sqrt (by
    rw [norm_sq]; nlinarith [mul_self_nonneg (r 0), mul_self_nonneg (r 1), mul_self_nonneg (r 2)])
  set s := Real.sqrt (r ⬝ᵥ r)
  rw [norm_sq] at hs ⊢
  field_simp
  linear_combination -hs

/-- **C63** A rotation vector that is not shorter than `1e-10`: its quaternion, its matrix and the matrix of its axis and angle
turn every point about the direction of the vector by its length, and the axis has length one. -/
theorem C63_vector (r : Vec ℝ 3) (hr : 1e-10 ≤ Real.sqrt (r ⬝ᵥ r)) (v : Vec ℝ 3) :
    UnitQ (vectorToQuat r) ∧ (vectorToQuat r).rotate v = turnVector r v ∧ (vectorToMatrix r).mulVec v = turnVector r v ∧
    ∃ n, vectorToAxisAngle r = ![n 0, n 1, n 2, Real.sqrt (r ⬝ᵥ r)] ∧ n ⬝ᵥ n = 1 ∧
      turn n (Real.sqrt (r ⬝ᵥ r)) v = turnVector r v := by
  have hlt : ¬ Real.sqrt (r 0 * r 0 + r 1 * r 1 + r 2 * r 2) < 1e-10 := by rw [← norm_sq]; exact not_lt.mpr hr
  obtain ⟨h0, hpos, he⟩ := sqrt_ne hlt
  have hu := unit_axis hpos
  obtain ⟨n, hn⟩ : ∃ n : Vec ℝ 3, n = fun i => r i / Real.sqrt (r ⬝ᵥ r) := ⟨_, rfl⟩
  rw [← hn] at hu
  have hn0 : n 0 = r 0 / Real.sqrt (r ⬝ᵥ r) := by rw [hn]
  have hn1 : n 1 = r 1 / Real.sqrt (r ⬝ᵥ r) := by rw [hn]
  have hn2 : n 2 = r 2 / Real.sqrt (r ⬝ᵥ r) := by rw [hn]
  have ha : vectorToAxisAngle r = ![n 0, n 1, n 2, Real.sqrt (r ⬝ᵥ r)] := by
    simp only [vectorToAxisAngle]
    rw [if_neg hlt, hn0, hn1, hn2, he]
  have hq : vectorToQuat r = axisAngleToQuat ![n 0, n 1, n 2, Real.sqrt (r ⬝ᵥ r)] := by
    simp only [vectorToQuat]
    rw [if_neg hlt, hn0, hn1, hn2, he]
  have ht : turnVector r v = turn n (Real.sqrt (r ⬝ᵥ r)) v := by rw [turnVector, if_neg h0, hn]
  rw [hq, ht, vectorToMatrix, ha]
  obtain ⟨h1, h2⟩ := C63_axis_angle_to_quaternion n hu (Real.sqrt (r ⬝ᵥ r)) v
  exact ⟨h1, h2, C63_axis_angle_to_matrix n _ v, n, rfl, hu, rfl⟩

example : (1e-10 : ℝ) ≤ Real.sqrt ((![3, 0, 4] : Vec ℝ 3) ⬝ᵥ ![3, 0, 4]) := by
  rw [norm_sq]
  simp only [Matrix.cons_val]
  refine Real.le_sqrt_of_sq_le ?_
  norm_num

lemma turn_near (n : Vec ℝ 3) (hn : n ⬝ᵥ n = 1) (θ : ℝ) (v : Vec ℝ 3) :
    (turn n θ v - v) ⬝ᵥ (turn n θ v - v) ≤ θ ^ 2 * (v ⬝ᵥ v) := by
  have hsc := Real.sin_sq_add_cos_sq θ
  have hcos : 1 - θ ^ 2 / 2 ≤ Real.cos θ := Real.one_sub_sq_div_two_le_cos
  have hc1 := Real.cos_le_one θ
  have e : (turn n θ v - v) ⬝ᵥ (turn n θ v - v) = 2 * (1 - Real.cos θ) * (v ⬝ᵥ v - (n ⬝ᵥ v) ^ 2) := by
    rw [norm_sq] at hn ⊢
    rw [norm_sq v, turn_apply]
    simp only [Pi.sub_apply, Matrix.cons_val, dotProduct, Fin.sum_univ_three]
    set c := Real.cos θ
    set s := Real.sin θ
    have hs2 : s ^ 2 = 1 - c ^ 2 := by linear_combination hsc
    have hn2 : n 2 ^ 2 = 1 - n 0 ^ 2 - n 1 ^ 2 := by linear_combination hn
    linear_combination (v 0 ^ 2 + v 1 ^ 2 + v 2 ^ 2 - (n 0 * v 0 + n 1 * v 1 + n 2 * v 2) ^ 2) * hs2 +
      (s ^ 2 * (v 0 ^ 2 + v 1 ^ 2 + v 2 ^ 2) + (1 - c) ^ 2 * (n 0 * v 0 + n 1 * v 1 + n 2 * v 2) ^ 2) * hn
  have hcs : 0 ≤ v ⬝ᵥ v - (n ⬝ᵥ v) ^ 2 := by
    rw [norm_sq] at hn
    rw [norm_sq v]
    simp only [dotProduct, Fin.sum_univ_three]
    have : v 0 * v 0 + v 1 * v 1 + v 2 * v 2 - (n 0 * v 0 + n 1 * v 1 + n 2 * v 2) ^ 2 =
      (n 0 * v 1 - n 1 * v 0) ^ 2 + (n 1 * v 2 - n 2 * v 1) ^ 2 + (n 2 * v 0 - n 0 * v 2) ^ 2 := by
      linear_combination -(v 0 ^ 2 + v 1 ^ 2 + v 2 ^ 2) * hn
    rw [this]
    positivity
  rw [e]
  have h1 : v ⬝ᵥ v - (n ⬝ᵥ v) ^ 2 ≤ v ⬝ᵥ v := by nlinarith [sq_nonneg (n ⬝ᵥ v)]
  have h2 : 2 * (1 - Real.cos θ) ≤ θ ^ 2 := by linarith
  calc 2 * (1 - Real.cos θ) * (v ⬝ᵥ v - (n ⬝ᵥ v) ^ 2) ≤ θ ^ 2 * (v ⬝ᵥ v - (n ⬝ᵥ v) ^ 2) :=
        mul_le_mul_of_nonneg_right h2 hcs
    _ ≤ θ ^ 2 * (v ⬝ᵥ v) := mul_le_mul_of_nonneg_left h1 (sq_nonneg _)

/-- **C63** A shorter rotation vector becomes the identity, in all representations; the error is below `1e-10` of the length of
the point. -/
theorem C63_vector_short (r : Vec ℝ 3) (hr : Real.sqrt (r ⬝ᵥ r) < 1e-10) (v : Vec ℝ 3) :
    (vectorToQuat r).rotate v = v ∧ (vectorToMatrix r).mulVec v = v ∧ vectorToAxisAngle r = 0 ∧
    (turnVector r v - v) ⬝ᵥ (turnVector r v - v) ≤ (1e-10) ^ 2 * (v ⬝ᵥ v) := by
  have hlt : Real.sqrt (r 0 * r 0 + r 1 * r 1 + r 2 * r 2) < 1e-10 := by rw [← norm_sq]; exact hr
  have ha : vectorToAxisAngle r = 0 := by
    simp only [vectorToAxisAngle]
    rw [if_pos hlt]
    funext i
    fin_cases i <;> rfl
  refine ⟨?_, ?_, ha, ?_⟩
  · simp only [vectorToQuat]
    rw [if_pos hlt]
    funext i
    fin_cases i <;> simp [Quat.rotate] <;> ring
  · rw [vectorToMatrix, ha]
    have := C63_axis_angle_to_matrix 0 0 v
    rw [turn_zero_axis v] at this
    convert this using 2
    congr 1
    funext i
    fin_cases i <;> rfl
  · have hvv : 0 ≤ v ⬝ᵥ v := by rw [norm_sq]; nlinarith [mul_self_nonneg (v 0), mul_self_nonneg (v 1), mul_self_nonneg (v 2)]
    rw [turnVector]
    split_ifs with h0
    · simp
      positivity
    · have hpos : 0 < Real.sqrt (r ⬝ᵥ r) := by
        rw [Real.sqrt_pos, norm_sq]
        by_contra hc
        apply h0
        have h1 := mul_self_nonneg (r 0)
        have h2 := mul_self_nonneg (r 1)
        have h3 := mul_self_nonneg (r 2)
        have e0 : r 0 = 0 := mul_self_eq_zero.mp (by linarith)
        have e1 : r 1 = 0 := mul_self_eq_zero.mp (by linarith)
        have e2 : r 2 = 0 := mul_self_eq_zero.mp (by linarith)
        funext i
        fin_cases i
        · exact e0
        · exact e1
        · exact e2
      refine (turn_near _ (unit_axis hpos) _ v).trans (mul_le_mul_of_nonneg_right ?_ hvv)
      exact pow_le_pow_left₀ hpos.le hr.le 2

example : Real.sqrt ((![1e-11, 0, 0] : Vec ℝ 3) ⬝ᵥ ![1e-11, 0, 0]) < 1e-10 ∧ (![1e-11, 0, 0] : Vec ℝ 3) 0 ≠ 0 := by
  constructor
  · rw [norm_sq]
    simp only [Matrix.cons_val]
    rw [Real.sqrt_lt' (by norm_num)]
    norm_num
  · norm_num

/-- **C63** Axis and angle as a rotation vector: the angle times the axis. -/
theorem C63_axis_angle_to_vector (n : Vec ℝ 3) (hn : n ⬝ᵥ n = 1) (θ : ℝ) :
    axisAngleToVector ![n 0, n 1, n 2, θ] = θ • n := by
  rw [norm_sq] at hn
  have h1 : ¬ Real.sqrt (n 0 * n 0 + n 1 * n 1 + n 2 * n 2) < 1e-10 := by
    rw [hn, Real.sqrt_one]
    norm_num
  have e : axisAngleToVector ![n 0, n 1, n 2, θ] = if Real.sqrt (n 0 * n 0 + n 1 * n 1 + n 2 * n 2) < 1e-10 then ![0, 0, 0]
      else ![θ * n 0 / Real.sqrt (n 0 * n 0 + n 1 * n 1 + n 2 * n 2), θ * n 1 / Real.sqrt (n 0 * n 0 + n 1 * n 1 + n 2 * n 2),
        θ * n 2 / Real.sqrt (n 0 * n 0 + n 1 * n 1 + n 2 * n 2)] := rfl
  rw [e, if_neg h1, hn, Real.sqrt_one]
  funext i
  fin_cases i <;> simp

lemma turnVector_smul (n : Vec ℝ 3) (hn : n ⬝ᵥ n = 1) (θ : ℝ) (v : Vec ℝ 3) : turnVector (θ • n) v = turn n θ v := by
  have hsq : (θ • n) ⬝ᵥ (θ • n) = θ ^ 2 := by
    rw [smul_dotProduct, dotProduct_smul, hn]
    simp [pow_two]
  have hn0 : n ≠ 0 := by
    rintro rfl
    simp at hn
  unfold turnVector
  by_cases hθ : θ = 0
  · subst hθ
    simp [turn]
  · rw [if_neg (smul_ne_zero hθ hn0), hsq, Real.sqrt_sq_eq_abs]
    rcases le_or_gt 0 θ with h | h
    · rw [abs_of_nonneg h]
      congr 1
      funext i
      simp
      field_simp
    · rw [abs_of_neg h, turn_apply, turn_apply, Real.cos_neg, Real.sin_neg]
      have e : ∀ i, (θ • n) i / -θ = - n i := by
        intro i
        simp
        field_simp
      simp only [e]
      funext i
      fin_cases i <;> simp <;> ring

/-- **C63** The turn by a rotation vector obtained from axis and angle is the turn about the axis by the angle (also for negative
angles and angles beyond a half turn). -/
theorem C63_axis_angle_vector_turn (n : Vec ℝ 3) (hn : n ⬝ᵥ n = 1) (θ : ℝ) (v : Vec ℝ 3) :
    turnVector (axisAngleToVector ![n 0, n 1, n 2, θ]) v = turn n θ v := by
  rw [C63_axis_angle_to_vector n hn, turnVector_smul n hn]

/-- **C63** Every unit quaternion has a rotation vector, of a length below a full turn, that describes its rotation. -/
theorem C63_quaternion_to_vector (q : Quat ℝ) (hq : UnitQ q) :
    ∃ r, quatToVector q = some r ∧ Real.sqrt (r ⬝ᵥ r) < 2 * Real.pi ∧ ∀ v, turnVector r v = q.rotate v := by
  by_cases h : q.w ^ 2 = 1
  · unfold UnitQ at hq
    have hx : q.x = 0 := by nlinarith [sq_nonneg q.x, sq_nonneg q.y, sq_nonneg q.z]
    have hy : q.y = 0 := by nlinarith [sq_nonneg q.x, sq_nonneg q.y, sq_nonneg q.z]
    have hz : q.z = 0 := by nlinarith [sq_nonneg q.x, sq_nonneg q.y, sq_nonneg q.z]
    have hz3 : (![0, 0, 0] : Vec ℝ 3) = 0 := by funext i; fin_cases i <;> rfl
    refine ⟨![0, 0, 0], ?_, ?_, fun v => ?_⟩
    · rw [quatToVector, quatToAxisAngle]
      have : 1 - q.w * q.w ≤ 0 := by nlinarith
      simp [this, hx]
    · rw [hz3]
      simp
      exact Real.pi_pos
    · rw [hz3, turnVector, if_pos rfl]
      funext i
      have hww : q.w * q.w = 1 := by rw [← pow_two]; exact h
      fin_cases i <;> simp [Quat.rotate, hx, hy, hz, hww] <;> ring
  · obtain ⟨n, θ, h1, h2, h3, h4, h5⟩ := C63_quaternion_to_axis_angle q hq h
    refine ⟨θ • n, ?_, ?_, fun v => ?_⟩
    · rw [quatToVector, h1]
      simp only
      rw [C63_axis_angle_to_vector n h2]
    · rw [smul_dotProduct, dotProduct_smul, h2]
      simp only [smul_eq_mul, mul_one]
      rw [Real.sqrt_mul_self h3.le]
      exact h4
    · rw [turnVector_smul n h2, h5]

/-! ### From matrices -/

/-- A rotation matrix that is not a half turn comes from a unit quaternion with positive real part. -/
lemma exists_positive (R : Mat ℝ 3 3) (hR : IsRotation R) (ht : R 0 0 + R 1 1 + R 2 2 ≠ -1) :
    ∃ q : Quat ℝ, UnitQ q ∧ 0 < q.w ∧ q.toMatrix = R := by
  obtain ⟨h1, h2, _⟩ := C04_every_rotation_matrix R hR.1 hR.2
  obtain ⟨q, rfl⟩ : ∃ q, q = Quat.ofMatrix R := ⟨_, rfl⟩
  set q := Quat.ofMatrix R with hq
  have hw : q.w ≠ 0 := by
    intro hw
    apply ht
    have h1' := h1
    unfold UnitQ at h1'
    rw [← h2]
    simp [Quat.toMatrix]
    rw [hw] at h1'
    linear_combination -4 * h1'
  rcases lt_or_gt_of_ne hw with h | h
  · refine ⟨q.neg, ?_, ?_, ?_⟩
    · unfold UnitQ at h1 ⊢
      simp only [Quat.neg, neg_sq]
      exact h1
    · simp only [Quat.neg]
      linarith
    · rw [← h2]
      ext i j
      fin_cases i <;> fin_cases j <;> simp [Quat.toMatrix, Quat.neg]
  · exact ⟨q, h1, h, h2⟩

lemma sqrt_quarter {a b : ℝ} (h : a = b ^ 2) : Real.sqrt (max 0 a) = |b| := by
  rw [h, max_eq_right (sq_nonneg b), Real.sqrt_sq_eq_abs]

lemma signed {a b w : ℝ} (hw : 0 < w) (h : a = 4 * w * b) : (if a < 0 then -|b| else |b|) = b := by
  split_ifs with hs
  · rw [abs_of_neg]
    · ring
    · by_contra hc
      have : 0 ≤ 4 * w * b := mul_nonneg (by linarith) (not_lt.mp hc)
      linarith
  · rw [abs_of_nonneg]
    by_contra hc
    have : 4 * w * b < 0 := mul_neg_of_pos_of_neg (by linarith) (not_le.mp hc)
    linarith

/-- **C63** (part) The quaternion of a rotation matrix other than a half turn: a unit quaternion with positive real part that
rotates every point like the matrix. -/
theorem C63_matrix_to_quaternion_partial (R : Mat ℝ 3 3) (hR : IsRotation R) (ht : R 0 0 + R 1 1 + R 2 2 ≠ -1) :
    UnitQ (matrixToQuat R) ∧ 0 < (matrixToQuat R).w ∧ ∀ v, (matrixToQuat R).rotate v = R.mulVec v := by
  obtain ⟨q, hq, hw, rfl⟩ := exists_positive R hR ht
  have hu := hq
  unfold UnitQ at hu
  have key : matrixToQuat q.toMatrix = q := by
    simp only [matrixToQuat]
    rw [sqrt_quarter (b := q.x) (by simp [Quat.toMatrix]; ring),
      sqrt_quarter (b := q.y) (by simp [Quat.toMatrix]; ring),
      sqrt_quarter (b := q.z) (by simp [Quat.toMatrix]; ring),
      sqrt_quarter (b := q.w) (by simp [Quat.toMatrix]; linear_combination -hu),
      signed (b := q.x) hw (by simp [Quat.toMatrix]; ring), signed (b := q.y) hw (by simp [Quat.toMatrix]; ring),
      signed (b := q.z) hw (by simp [Quat.toMatrix]; ring), abs_of_pos hw]
  rw [key]
  exact ⟨hq, hw, fun v => ((C03_quaternion_to_matrix q hq).1 v).symm⟩

/-- The quarter turn about the third axis. -/
def quarterTurn : Mat ℝ 3 3 := !![0, -1, 0; 1, 0, 0; 0, 0, 1]

lemma quarterTurn_isRotation : IsRotation quarterTurn := by
  constructor
  · ext i j
    fin_cases i <;> fin_cases j <;> simp [quarterTurn, Matrix.mul_apply, Fin.sum_univ_three]
  · simp [quarterTurn, Matrix.det_fin_three]

lemma quarterTurn_trace : quarterTurn 0 0 + quarterTurn 1 1 + quarterTurn 2 2 = 1 := by simp [quarterTurn]

example : IsRotation quarterTurn ∧ quarterTurn 0 0 + quarterTurn 1 1 + quarterTurn 2 2 ≠ -1 := by
  refine ⟨quarterTurn_isRotation, ?_⟩
  rw [quarterTurn_trace]
  norm_num

/-- **C63** (part) Axis and angle of a rotation matrix other than a half turn: if the angle is at least `1e-10`, the axis has
length one, the angle is at most a half turn and turning about the axis is the multiplication with the matrix. -/
theorem C63_matrix_to_axis_angle_partial (R : Mat ℝ 3 3) (hR : IsRotation R) (ht : R 0 0 + R 1 1 + R 2 2 ≠ -1)
    (ha : 1e-10 ≤ Real.arccos ((R 0 0 + R 1 1 + R 2 2 - 1) / 2)) :
    ∃ n θ, matrixToAxisAngle R = some ![n 0, n 1, n 2, θ] ∧ n ⬝ᵥ n = 1 ∧ 0 < θ ∧ θ < Real.pi ∧ ∀ v, turn n θ v = R.mulVec v := by
  obtain ⟨q, hq, hw, rfl⟩ := exists_positive R hR ht
  have hu := hq
  unfold UnitQ at hu
  have htr : (q.toMatrix 0 0 + q.toMatrix 1 1 + q.toMatrix 2 2 - 1) / 2 = 2 * q.w ^ 2 - 1 := by
    simp [Quat.toMatrix]
    linear_combination -2 * hu
  have hw1 : q.w ≤ 1 := by nlinarith [sq_nonneg q.x, sq_nonneg q.y, sq_nonneg q.z]
  have hacos : Real.arccos (2 * q.w ^ 2 - 1) = 2 * Real.arccos q.w := by
    have h1 : Real.cos (2 * Real.arccos q.w) = 2 * q.w ^ 2 - 1 := by
      rw [Real.cos_two_mul, Real.cos_arccos (by linarith) hw1]
    rw [← h1, Real.arccos_cos]
    · linarith [Real.arccos_nonneg q.w]
    · linarith [Real.arccos_le_pi_div_two.mpr hw.le]
  rw [htr] at ha
  have hne : q.w ^ 2 ≠ 1 := by
    intro h
    rw [h] at ha
    norm_num at ha
  obtain ⟨s, hs, hs0, hss, hpos⟩ := sqrt_imag q hq hne
  obtain ⟨n, θ, h1, h2, h3, h4, h5⟩ := C63_quaternion_to_axis_angle q hq hne
  rw [quatToAxisAngle, if_neg (not_le.mpr hpos), ← hs] at h1
  have hv := Option.some.inj h1
  have e0 : q.x / s = n 0 := congrFun hv 0
  have e1 : q.y / s = n 1 := congrFun hv 1
  have e2 : q.z / s = n 2 := congrFun hv 2
  have e3 : 2 * Real.arccos q.w = θ := congrFun hv 3
  refine ⟨n, θ, ?_, h2, h3, ?_, fun v => ?_⟩
  · have m1 : q.toMatrix 2 1 - q.toMatrix 1 2 = 4 * q.w * q.x := by simp [Quat.toMatrix]; ring
    have m2 : q.toMatrix 0 2 - q.toMatrix 2 0 = 4 * q.w * q.y := by simp [Quat.toMatrix]; ring
    have m3 : q.toMatrix 1 0 - q.toMatrix 0 1 = 4 * q.w * q.z := by simp [Quat.toMatrix]; ring
    have hd : Real.sqrt (4 * q.w * q.x * (4 * q.w * q.x) + 4 * q.w * q.y * (4 * q.w * q.y) + 4 * q.w * q.z * (4 * q.w * q.z)) =
        4 * q.w * s := by
      rw [show 4 * q.w * q.x * (4 * q.w * q.x) + 4 * q.w * q.y * (4 * q.w * q.y) + 4 * q.w * q.z * (4 * q.w * q.z) =
        (4 * q.w * s) * (4 * q.w * s) by linear_combination -16 * q.w ^ 2 * hss]
      exact Real.sqrt_mul_self (by positivity)
    have hne0 : 4 * q.w * s ≠ 0 := by positivity
    have hc : ¬ (2 * q.w ^ 2 - 1 < -1 ∨ 1 < 2 * q.w ^ 2 - 1 ∨ Real.arccos (2 * q.w ^ 2 - 1) < 1e-10) := by
      rintro (h | h | h)
      · nlinarith [sq_nonneg q.w]
      · nlinarith
      · linarith
    simp only [matrixToAxisAngle, htr, m1, m2, m3, hd]
    rw [if_neg hc, if_neg hne0, hacos, e3, ← e0, ← e1, ← e2]
    have hw0 : q.w ≠ 0 := hw.ne'
    have f : ∀ x, 4 * q.w * x / (4 * q.w * s) = x / s := fun x => mul_div_mul_left _ _ (by positivity)
    rw [f, f, f]
  · rw [← e3]
    have : Real.arccos q.w < Real.pi / 2 := Real.arccos_lt_pi_div_two.mpr hw
    linarith
  · rw [h5, (C03_quaternion_to_matrix q hq).1]

example : (1e-10 : ℝ) ≤ Real.arccos ((quarterTurn 0 0 + quarterTurn 1 1 + quarterTurn 2 2 - 1) / 2) := by
  rw [quarterTurn_trace]
  norm_num
  have := Real.two_le_pi
  linarith

/-- The half turn about the diagonal of the first and minus the second axis. -/
def halfTurn : Mat ℝ 3 3 := !![0, -1, 0; -1, 0, 0; 0, 0, -1]

lemma halfTurn_isRotation : IsRotation halfTurn := by
  constructor
  · ext i j
    fin_cases i <;> fin_cases j <;> simp [halfTurn, Matrix.mul_apply, Fin.sum_univ_three]
  · simp [halfTurn, Matrix.det_fin_three]

/-- **C63** fails for half turns: the quaternion of the half turn about `(1,-1,0)` is that of the half turn about `(1,1,0)`. -/
theorem C63_matrix_to_quaternion_refuted : IsRotation halfTurn ∧
    (matrixToQuat halfTurn).rotate ![1, 0, 0] = ![0, 1, 0] ∧ halfTurn.mulVec ![1, 0, 0] = ![0, -1, 0] := by
  refine ⟨halfTurn_isRotation, ?_, ?_⟩
  · have h : Real.sqrt (1 / 2) * Real.sqrt (1 / 2) = 1 / 2 := Real.mul_self_sqrt (by norm_num)
    have e : matrixToQuat halfTurn = ⟨Real.sqrt (1 / 2), Real.sqrt (1 / 2), 0, 0⟩ := by
      have h1 : (halfTurn 0 0, halfTurn 1 1, halfTurn 2 2) = (0, 0, -1) := by simp [halfTurn]
      have h2 : (halfTurn 2 1, halfTurn 1 2, halfTurn 0 2) = (0, 0, 0) := by simp [halfTurn]
      have h3 : (halfTurn 2 0, halfTurn 1 0, halfTurn 0 1) = (0, -1, -1) := by simp [halfTurn]
      simp only [Prod.mk.injEq] at h1 h2 h3
      simp only [matrixToQuat, h1, h2, h3]
      norm_num
    rw [e]
    generalize Real.sqrt (1 / 2) = s at h
    funext i
    fin_cases i <;> simp [Quat.rotate] <;> linarith
  · funext i
    fin_cases i <;> simp [halfTurn, Matrix.mulVec, dotProduct, Fin.sum_univ_three]

/-- **C63** fails for half turns: axis and angle are not numbers, and the rotation vector is the zero vector. -/
theorem C63_matrix_to_axis_angle_refuted (R : Mat ℝ 3 3) (hR : IsRotation R) (ht : R 0 0 + R 1 1 + R 2 2 = -1) :
    matrixToAxisAngle R = none ∧ matrixToVector R = 0 := by
  obtain ⟨h1, h2, _⟩ := C04_every_rotation_matrix R hR.1 hR.2
  obtain ⟨q, hq, rfl⟩ : ∃ q : Quat ℝ, UnitQ q ∧ q.toMatrix = R := ⟨_, h1, h2⟩
  have hu := hq
  unfold UnitQ at hu
  have hw : q.w = 0 := by
    simp [Quat.toMatrix] at ht
    have : q.w ^ 2 = 0 := by linear_combination (1 / 4) * ht + hu
    exact pow_eq_zero_iff (two_ne_zero) |>.mp this
  have hn : matrixToAxisAngle q.toMatrix = none := by
    have m1 : q.toMatrix 2 1 - q.toMatrix 1 2 = 0 := by simp [Quat.toMatrix, hw]
    have m2 : q.toMatrix 0 2 - q.toMatrix 2 0 = 0 := by simp [Quat.toMatrix, hw]
    have m3 : q.toMatrix 1 0 - q.toMatrix 0 1 = 0 := by simp [Quat.toMatrix, hw]
    have hc : ¬ (((-1 : ℝ) - 1) / 2 < -1 ∨ 1 < ((-1 : ℝ) - 1) / 2 ∨ Real.arccos (((-1 : ℝ) - 1) / 2) < 1e-10) := by
      have : Real.arccos (((-1 : ℝ) - 1) / 2) = Real.pi := by norm_num
      rw [this]
      rintro (h | h | h)
      · norm_num at h
      · norm_num at h
      · have := Real.two_le_pi
        norm_num at h
        linarith
    simp only [matrixToAxisAngle, ht, m1, m2, m3]
    rw [if_neg hc]
    simp
  refine ⟨hn, ?_⟩
  rw [matrixToVector, hn]
  funext i
  fin_cases i <;> rfl

example : IsRotation halfTurn ∧ halfTurn 0 0 + halfTurn 1 1 + halfTurn 2 2 = -1 :=
  ⟨halfTurn_isRotation, by simp [halfTurn]⟩

/-- **C63** (part) The rotation vector of a rotation matrix other than a half turn, with an angle of at least `1e-10`. -/
theorem C63_matrix_to_vector_partial (R : Mat ℝ 3 3) (hR : IsRotation R) (ht : R 0 0 + R 1 1 + R 2 2 ≠ -1)
    (ha : 1e-10 ≤ Real.arccos ((R 0 0 + R 1 1 + R 2 2 - 1) / 2)) (v : Vec ℝ 3) :
    turnVector (matrixToVector R) v = R.mulVec v := by
  obtain ⟨n, θ, h1, h2, h3, h4, h5⟩ := C63_matrix_to_axis_angle_partial R hR ht ha
  rw [matrixToVector, h1]
  simp only
  rw [C63_axis_angle_vector_turn n h2, h5]

/-! ### The constructors and functions of `Quaternion` -/

lemma norm3_eq (r : Vec ℝ 3) : Quat.norm3 r = Real.sqrt (r ⬝ᵥ r) := by
  rw [norm_sq]
  rfl

lemma sqrt_pos_of_ne {r : Vec ℝ 3} (h0 : r ≠ 0) : 0 < Real.sqrt (r ⬝ᵥ r) := by
  rw [Real.sqrt_pos, norm_sq]
  by_contra hc
  apply h0
  have h1 := mul_self_nonneg (r 0)
  have h2 := mul_self_nonneg (r 1)
  have h3 := mul_self_nonneg (r 2)
  have e0 : r 0 = 0 := mul_self_eq_zero.mp (by linarith)
  have e1 : r 1 = 0 := mul_self_eq_zero.mp (by linarith)
  have e2 : r 2 = 0 := mul_self_eq_zero.mp (by linarith)
  funext i
  fin_cases i
  · exact e0
  · exact e1
  · exact e2

/-- **C63** A quaternion constructed from any axis other than the zero vector, and an angle, is a unit quaternion that turns every
point about the direction of the axis by the angle. -/
theorem C63_constructor_axis_angle (a : Vec ℝ 3) (h0 : a ≠ 0) (θ : ℝ) (v : Vec ℝ 3) :
    UnitQ (Quat.ofAxisAngle a θ) ∧ (Quat.ofAxisAngle a θ).rotate v = turn (fun i => a i / Real.sqrt (a ⬝ᵥ a)) θ v := by
  have hpos := sqrt_pos_of_ne h0
  have hu := unit_axis hpos
  have e : Quat.ofAxisAngle a θ = ⟨a 0 / Real.sqrt (a ⬝ᵥ a) * Real.sin (θ / 2), a 1 / Real.sqrt (a ⬝ᵥ a) * Real.sin (θ / 2),
      a 2 / Real.sqrt (a ⬝ᵥ a) * Real.sin (θ / 2), Real.cos (θ / 2)⟩ := by
    simp only [Quat.ofAxisAngle, norm3_eq]
    congr 1 <;> ring
  rw [e]
  exact rotate_half _ hu θ v

example : (![2, 0, 0] : Vec ℝ 3) ≠ 0 := fun h => by simpa using congrFun h 0

/-- **C63** `toAxisAngle` and the constructor from axis and angle: every unit quaternion other than plus or minus one comes back. -/
theorem C63_to_axis_angle_round_trip (q : Quat ℝ) (hq : UnitQ q) (h : q.w ^ 2 ≠ 1) :
    Quat.ofAxisAngle q.toAxisAngle.1 q.toAxisAngle.2 = q := by
  obtain ⟨s, hs, hs0, hss, hpos⟩ := sqrt_imag q hq h
  have hw1 : -1 < q.w := by nlinarith
  have hw2 : q.w < 1 := by nlinarith
  have e : 2 * Real.arccos q.w / 2 = Real.arccos q.w := by ring
  have e2 : Real.sin (Real.arccos q.w) = s := by rw [Real.sin_arccos, hs, pow_two]
  simp only [Quat.toAxisAngle, ← hs]
  split_ifs with hlt
  · have hn : Quat.norm3 ![q.x, q.y, q.z] = s := by
      rw [norm3_eq, norm_sq]
      simp only [Matrix.cons_val]
      rw [← hss]
      exact Real.sqrt_mul_self hs0.le
    simp only [Quat.ofAxisAngle, hn, e, e2, Real.cos_arccos hw1.le hw2.le, Matrix.cons_val]
    rw [div_self hs0.ne']
    simp
  · have hn : Quat.norm3 ![q.x / s, q.y / s, q.z / s] = 1 := by
      rw [norm3_eq, norm_sq]
      simp only [Matrix.cons_val]
      rw [show q.x / s * (q.x / s) + q.y / s * (q.y / s) + q.z / s * (q.z / s) = 1 by
        field_simp
        linear_combination -hss]
      exact Real.sqrt_one
    simp only [Quat.ofAxisAngle, hn, e, e2, Real.cos_arccos hw1.le hw2.le, Matrix.cons_val, div_one]
    simp [div_mul_cancel₀ _ hs0.ne']

/-- **C63** (part) `toAxisAngle` gives an axis of length one if the sine of half the angle is at least `0.001`. -/
theorem C63_to_axis_angle_partial (q : Quat ℝ) (hq : UnitQ q) (h : 0.001 ≤ Real.sqrt (1 - q.w * q.w)) (v : Vec ℝ 3) :
    q.toAxisAngle.1 ⬝ᵥ q.toAxisAngle.1 = 1 ∧ turn q.toAxisAngle.1 q.toAxisAngle.2 v = q.rotate v := by
  have hne : q.w ^ 2 ≠ 1 := by
    intro hc
    rw [← pow_two, hc] at h
    norm_num at h
  obtain ⟨n, θ, h1, h2, h3, h4, h5⟩ := C63_quaternion_to_axis_angle q hq hne
  obtain ⟨s, hs, hs0, hss, hpos⟩ := sqrt_imag q hq hne
  rw [quatToAxisAngle, if_neg (not_le.mpr hpos)] at h1
  have hv := Option.some.inj h1
  have e0 : q.x / Real.sqrt (1 - q.w * q.w) = n 0 := congrFun hv 0
  have e1 : q.y / Real.sqrt (1 - q.w * q.w) = n 1 := congrFun hv 1
  have e2 : q.z / Real.sqrt (1 - q.w * q.w) = n 2 := congrFun hv 2
  have e3 : 2 * Real.arccos q.w = θ := congrFun hv 3
  have hn : (![n 0, n 1, n 2] : Vec ℝ 3) = n := by
    funext i
    fin_cases i <;> rfl
  have e : q.toAxisAngle = (n, θ) := by
    simp only [Quat.toAxisAngle]
    rw [if_neg (not_lt.mpr h), e0, e1, e2, e3, hn]
  rw [e]
  exact ⟨h2, h5 v⟩

example : UnitQ (⟨3 / 5, 0, 0, 4 / 5⟩ : Quat ℝ) ∧ (0.001 : ℝ) ≤ Real.sqrt (1 - 4 / 5 * (4 / 5)) := by
  refine ⟨by norm_num [UnitQ], Real.le_sqrt_of_sq_le ?_⟩
  norm_num

/-- **C63** fails for small angles: the axis is not normalised. -/
theorem C63_to_axis_angle_refuted : ∃ q : Quat ℝ, UnitQ q ∧ q.w ^ 2 ≠ 1 ∧ q.toAxisAngle.1 ⬝ᵥ q.toAxisAngle.1 ≠ 1 := by
  have hs : Real.sqrt (1 - 0.0001 ^ 2) * Real.sqrt (1 - 0.0001 ^ 2) = 1 - 0.0001 ^ 2 := Real.mul_self_sqrt (by norm_num)
  refine ⟨⟨0.0001, 0, 0, Real.sqrt (1 - 0.0001 ^ 2)⟩, ?_, ?_, ?_⟩
  · simp only [UnitQ]
    rw [pow_two (Real.sqrt _), hs]
    norm_num
  · simp only
    rw [pow_two (Real.sqrt _), hs]
    norm_num
  · have h : Real.sqrt (1 - (1 - 0.0001 ^ 2)) < 0.001 := by
      rw [Real.sqrt_lt' (by norm_num)]
      norm_num
    simp only [Quat.toAxisAngle, hs]
    rw [if_pos h, norm_sq]
    simp only [Matrix.cons_val]
    norm_num

/-- **C63** The constructor from three angles `x`, `y`, `z`: a unit quaternion that turns a point about the first axis by `z`, then
about the third axis by `x` and then about the second axis by `y`. -/
theorem C63_constructor_three_angles (x y z : ℝ) (v : Vec ℝ 3) :
    UnitQ (Quat.ofEuler x y z) ∧ (Quat.ofEuler x y z).rotate v = turn axisY y (turn axisZ x (turn axisX z v)) := by
  have hX : axisX ⬝ᵥ axisX = 1 := by rw [norm_sq]; simp [axisX]
  have hY : axisY ⬝ᵥ axisY = 1 := by rw [norm_sq]; simp [axisY]
  have hZ : axisZ ⬝ᵥ axisZ = 1 := by rw [norm_sq]; simp [axisZ]
  have e : Quat.ofEuler x y z = (Quat.mul (⟨0, Real.sin (y / 2), 0, Real.cos (y / 2)⟩ : Quat ℝ)
      (Quat.mul ⟨0, 0, Real.sin (x / 2), Real.cos (x / 2)⟩ ⟨Real.sin (z / 2), 0, 0, Real.cos (z / 2)⟩)) := by
    simp only [Quat.ofEuler, Quat.mul]
    congr 1 <;> ring
  obtain ⟨u1, r1⟩ := rotate_half axisX hX z v
  obtain ⟨u2, r2⟩ := rotate_half axisZ hZ x (turn axisX z v)
  obtain ⟨u3, r3⟩ := rotate_half axisY hY y (turn axisZ x (turn axisX z v))
  simp only [axisX, Matrix.cons_val, one_mul, zero_mul] at u1 r1
  simp only [axisZ, Matrix.cons_val, one_mul, zero_mul] at u2 r2
  simp only [axisY, Matrix.cons_val, one_mul, zero_mul] at u3 r3
  have u12 := Quat.isUnit_mul u2 u1
  rw [e]
  refine ⟨Quat.isUnit_mul u3 u12, ?_⟩
  rw [C02_rotation_group_action.1 _ _ u3 u12, C02_rotation_group_action.1 _ _ u2 u1]
  exact (congrArg _ ((congrArg _ r1).trans r2)).trans r3

end Ubitrack.RotationCast
