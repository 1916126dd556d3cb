import Verif.Proofs.Rotation
import Mathlib.LinearAlgebra.Matrix.Determinant.Basic
import Mathlib.Tactic.Linarith
import Mathlib.Tactic.NormNum

/-!
# C01, C02, C03, C07: quaternion rotation
-/

namespace Ubitrack
open Ubitrack.Spec Ubitrack.Quat Quaternion
open scoped Matrix

variable {K : Type*} [CommRing K]

/-- A non-trivial unit quaternion used to show that hypotheses can be met. -/
def qEx : Quat ℚ := ⟨1 / 2, -1 / 2, 1 / 2, 1 / 2⟩

theorem qEx_unit : UnitQ qEx := by norm_num [UnitQ, qEx]

/-- A second one, not of the same axis. -/
def qEx' : Quat ℚ := ⟨3 / 5, 0, 0, 4 / 5⟩

theorem qEx'_unit : UnitQ qEx' := by norm_num [UnitQ, qEx']

/-- **C01** Rotation by a unit quaternion keeps dot products, cross products (handedness) and
hence lengths, and it is the textbook sandwich `q v q̄`. -/
theorem C01_rotation_rigid (q : Quat K) (hq : UnitQ q) :
    (∀ u v : Vec K 3, rotate q u ⬝ᵥ rotate q v = u ⬝ᵥ v) ∧
    (∀ u v : Vec K 3, crossProduct (rotate q u) (rotate q v) = rotate q (crossProduct u v)) ∧
    (∀ v : Vec K 3, lenSq (rotate q v) = lenSq v) := by
  refine ⟨fun u v => ?_, fun u v => ?_, fun v => ?_⟩
  · rw [rotate_eq_sandwich hq, rotate_eq_sandwich hq, sandwich_dot]
    unfold UnitQ at hq; rw [hq]; ring
  · rw [rotate_eq_sandwich hq, rotate_eq_sandwich hq, rotate_eq_sandwich hq]
    have key : crossProduct (sandwich q u) (sandwich q v)
        = (q.x ^ 2 + q.y ^ 2 + q.z ^ 2 + q.w ^ 2) • sandwich q (crossProduct u v) := by
      ext i; fin_cases i <;> simp [sandwich, crossProduct] <;> ring
    unfold UnitQ at hq
    rw [key, hq, one_smul]
  · rw [rotate_eq_sandwich hq]
    have key : lenSq (sandwich q v) = (q.x ^ 2 + q.y ^ 2 + q.z ^ 2 + q.w ^ 2) ^ 2 * lenSq v := by
      simp [sandwich, lenSq]; ring
    unfold UnitQ at hq
    rw [key, hq]; ring

/-- **C01** The rotated vector is the imaginary part of `q v q̄` in the quaternion algebra. -/
theorem C01_rotation_is_sandwich (q : Quat K) (hq : UnitQ q) (v : Vec K 3) :
    Spec.pure (rotate q v) = toH q * Spec.pure v * star (toH q) := by
  rw [rotate_eq_sandwich hq]
  ext <;> simp [sandwich] <;> ring

example : UnitQ qEx ∧ rotate qEx ![1, 2, 3] = ![-2, -3, 1] := by
  refine ⟨qEx_unit, ?_⟩
  ext i; fin_cases i <;> simp [rotate, qEx] <;> norm_num

/-- The model's quaternion product is the product of the quaternion algebra. -/
theorem C02_product_is_quaternion_product (p q : Quat K) : toH (mul p q) = toH p * toH q := by
  ext <;> simp [mul]

/-- **C02** Unit quaternions act on vectors, `~q` is the inverse, the default quaternion is
neutral, and the units are closed under product and conjugation. -/
theorem C02_rotation_group_action :
    (∀ p q : Quat K, UnitQ p → UnitQ q → ∀ v : Vec K 3,
        rotate (mul p q) v = rotate p (rotate q v)) ∧
    (∀ v : Vec K 3, rotate one v = v) ∧
    (∀ q : Quat K, UnitQ q → ∀ v : Vec K 3,
        rotate (conj q) (rotate q v) = v ∧ rotate q (rotate (conj q) v) = v) ∧
    (∀ p q : Quat K, UnitQ p → UnitQ q → UnitQ (mul p q) ∧ UnitQ (conj p)) ∧
    (∀ q : Quat K, UnitQ q → mul q (conj q) = one ∧ mul (conj q) q = one) :=
  ⟨fun _ _ hp hq v => rotate_mul hp hq v, rotate_one,
   fun _ hq v => ⟨rotate_conj_rotate hq v, rotate_rotate_conj hq v⟩,
   fun _ _ hp hq => ⟨isUnit_mul hp hq, isUnit_conj hp⟩,
   fun _ hq => ⟨mul_conj_self hq, conj_mul_self hq⟩⟩

/-- The unit hypothesis of C02 is needed: the coded formula is not an action of all quaternions. -/
theorem C02_needs_unit : ∃ (p : Quat ℚ) (v : Vec ℚ 3),
    rotate (mul p p) v ≠ rotate p (rotate p v) := by
  refine ⟨⟨0, 0, 0, 2⟩, ![1, 0, 0], fun h => ?_⟩
  have := congrFun h 0
  norm_num [rotate, mul] at this

example : UnitQ qEx ∧ UnitQ qEx' ∧ mul qEx qEx' ≠ mul qEx' qEx := by
  refine ⟨qEx_unit, qEx'_unit, fun h => ?_⟩
  have := congrArg Quat.y h
  norm_num [mul, qEx, qEx'] at this

/-- **C03** `toMatrix` of a unit quaternion is the matrix of the rotation, is orthogonal and has
determinant 1. -/
theorem C03_quaternion_to_matrix (q : Quat K) (hq : UnitQ q) :
    (∀ v : Vec K 3, toMatrix q *ᵥ v = rotate q v) ∧
    (toMatrix q)ᵀ * toMatrix q = 1 ∧ toMatrix q * (toMatrix q)ᵀ = 1 ∧
    (toMatrix q).det = 1 := by
  have hM : ∀ v : Vec K 3, toMatrix q *ᵥ v = rotate q v := by
    intro v
    unfold UnitQ at hq
    ext i; fin_cases i
    · simp [toMatrix, rotate, Matrix.mulVec, dotProduct, Fin.sum_univ_three]
      linear_combination (-2 * v 0) * hq
    · simp [toMatrix, rotate, Matrix.mulVec, dotProduct, Fin.sum_univ_three]
      linear_combination (-2 * v 1) * hq
    · simp [toMatrix, rotate, Matrix.mulVec, dotProduct, Fin.sum_univ_three]
      linear_combination (-2 * v 2) * hq
  unfold UnitQ at hq
  refine ⟨hM, ?_, ?_, ?_⟩
  · ext i j
    fin_cases i <;> fin_cases j <;>
      simp [toMatrix, Matrix.mul_apply, Fin.sum_univ_three, Matrix.transpose_apply]
    · linear_combination (4 * (q.y ^ 2 + q.z ^ 2)) * hq
    · linear_combination (-4 * (q.x * q.y)) * hq
    · linear_combination (-4 * (q.x * q.z)) * hq
    · linear_combination (-4 * (q.x * q.y)) * hq
    · linear_combination (4 * (q.x ^ 2 + q.z ^ 2)) * hq
    · linear_combination (-4 * (q.y * q.z)) * hq
    · linear_combination (-4 * (q.x * q.z)) * hq
    · linear_combination (-4 * (q.y * q.z)) * hq
    · linear_combination (4 * (q.x ^ 2 + q.y ^ 2)) * hq
  · ext i j
    fin_cases i <;> fin_cases j <;>
      simp [toMatrix, Matrix.mul_apply, Fin.sum_univ_three, Matrix.transpose_apply]
    · linear_combination (4 * (q.y ^ 2 + q.z ^ 2)) * hq
    · linear_combination (-4 * (q.x * q.y)) * hq
    · linear_combination (-4 * (q.x * q.z)) * hq
    · linear_combination (-4 * (q.x * q.y)) * hq
    · linear_combination (4 * (q.x ^ 2 + q.z ^ 2)) * hq
    · linear_combination (-4 * (q.y * q.z)) * hq
    · linear_combination (-4 * (q.x * q.z)) * hq
    · linear_combination (-4 * (q.y * q.z)) * hq
    · linear_combination (4 * (q.x ^ 2 + q.y ^ 2)) * hq
  · simp [toMatrix, Matrix.det_fin_three]
    linear_combination (4 * (q.x ^ 2 + q.y ^ 2 + q.z ^ 2)) * hq

example : UnitQ qEx ∧ toMatrix qEx = !![0, -1, 0; 0, 0, -1; 1, 0, 0] := by
  refine ⟨qEx_unit, ?_⟩
  ext i j; fin_cases i <;> fin_cases j <;> norm_num [toMatrix, qEx]

/-- **C07** `negateIfCloser` returns the quaternion or its negation, and whatever it returns is at
least as close to the reference as the other representative. -/
theorem C07_negate_if_closer {F : Type*} [Field F] [LinearOrder F] [IsStrictOrderedRing F]
    (q ref : Quat F) :
    SameRotation (negateIfCloser q ref) q ∧
    distSq (negateIfCloser q ref) ref ≤ distSq q ref ∧
    distSq (negateIfCloser q ref) ref ≤ distSq (neg q) ref := by
  unfold negateIfCloser
  simp only
  split_ifs with h
  · refine ⟨Or.inl rfl, le_rfl, ?_⟩
    simp only [distSq, neg]; nlinarith
  · refine ⟨Or.inr ⟨rfl, rfl, rfl, rfl⟩, ?_, ?_⟩
    · simp only [distSq]; nlinarith
    · simp only [distSq, neg]; exact le_rfl

/-- **C07** A quaternion with a tie is kept, and the result is on the same side as the reference. -/
theorem C07_same_side {F : Type*} [Field F] [LinearOrder F] [IsStrictOrderedRing F]
    (q ref : Quat F) :
    0 ≤ dot (negateIfCloser q ref) ref ∧ (dot q ref = 0 → negateIfCloser q ref = q) := by
  unfold negateIfCloser
  simp only
  split_ifs with h
  · exact ⟨h, fun _ => rfl⟩
  · refine ⟨?_, fun h0 => absurd (le_of_eq h0.symm) h⟩
    simp only [dot] at *
    push Not at h
    linarith

example : negateIfCloser qEx qEx' = qEx ∧ negateIfCloser (neg qEx) qEx' = qEx := by
  constructor
  · norm_num [negateIfCloser, qEx, qEx']
  · norm_num [negateIfCloser, qEx, qEx', neg]

end Ubitrack
