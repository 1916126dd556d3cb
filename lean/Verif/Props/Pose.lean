import Verif.Model.Pose
import Verif.Props.Rotation

/-!
# C08, C09: poses as a group acting on points
-/

namespace Ubitrack
open Ubitrack.Spec Ubitrack.Quat
open scoped Matrix

variable {K : Type*} [CommRing K]

theorem Pose.ext_iff' {p q : Pose K} (hr : p.rotation = q.rotation)
    (ht : p.translation = q.translation) : p = q := Pose.ext hr ht

/-- Two poses with different axes, translations. -/
def pEx : Pose ℚ := ⟨qEx, ![1, 2, 3]⟩
def pEx' : Pose ℚ := ⟨qEx', ![0, -1, 7]⟩

/-- **C08** Composition of poses with unit rotation acts on points as composition of maps. -/
theorem C08_pose_action (p q : Pose K) (hp : UnitQ p.rotation) (hq : UnitQ q.rotation)
    (v : Vec K 3) : (p.mul q).apply v = p.apply (q.apply v) := by
  simp only [Pose.mul, Pose.apply]
  rw [rotate_mul hp hq, rotate_add, add_assoc]

/-- **C08** Composition is associative, the default pose is neutral, `~p` is a two-sided inverse,
and unit rotations stay unit rotations. -/
theorem C08_pose_group (p q r : Pose K) (hp : UnitQ p.rotation) (hq : UnitQ q.rotation) :
    (p.mul q).mul r = p.mul (q.mul r) ∧
    (Pose.one.mul p = p ∧ p.mul Pose.one = p) ∧
    (p.inv.mul p = Pose.one ∧ p.mul p.inv = Pose.one) ∧
    UnitQ (p.mul q).rotation ∧ UnitQ p.inv.rotation ∧ UnitQ (Pose.one : Pose K).rotation := by
  have hz : (![0, 0, 0] : Vec K 3) = 0 := by ext i; fin_cases i <;> rfl
  refine ⟨?_, ⟨?_, ?_⟩, ⟨?_, ?_⟩, isUnit_mul hp hq, isUnit_conj hp, isUnit_one⟩
  · apply Pose.ext
    · exact mul_assoc' _ _ _
    · simp only [Pose.mul]
      rw [rotate_mul hp hq, rotate_add, add_assoc]
  · apply Pose.ext
    · exact one_mul' _
    · simp only [Pose.mul, Pose.one]; rw [rotate_one, hz, add_zero]
  · apply Pose.ext
    · exact mul_one' _
    · simp only [Pose.mul, Pose.one]; rw [hz, rotate_zero, zero_add]
  · apply Pose.ext
    · exact conj_mul_self hp
    · simp only [Pose.mul, Pose.one, Pose.inv]; rw [hz]; exact add_neg_cancel _
  · apply Pose.ext
    · exact mul_conj_self hp
    · simp only [Pose.mul, Pose.one, Pose.inv]
      rw [hz, rotate_neg, rotate_rotate_conj hp]; exact neg_add_cancel _

/-- **C08** `~p` undoes `p` on every point, in both orders. -/
theorem C08_pose_inverse_undoes (p : Pose K) (hp : UnitQ p.rotation) (v : Vec K 3) :
    p.inv.apply (p.apply v) = v ∧ p.apply (p.inv.apply v) = v := by
  constructor
  · simp only [Pose.apply, Pose.inv]
    rw [rotate_add, rotate_conj_rotate hp]; abel
  · simp only [Pose.apply, Pose.inv]
    rw [rotate_add, rotate_neg, rotate_rotate_conj hp, rotate_rotate_conj hp]; abel

/-- **C08** A pose is a rigid motion: distances between points are preserved. -/
theorem C08_pose_isometry (p : Pose K) (hp : UnitQ p.rotation) (u v : Vec K 3) :
    lenSq (p.apply u - p.apply v) = lenSq (u - v) := by
  have : p.apply u - p.apply v = rotate p.rotation (u - v) := by
    simp only [Pose.apply]; rw [rotate_sub]; abel
  rw [this, (C01_rotation_rigid _ hp).2.2]

example : UnitQ pEx.rotation ∧ UnitQ pEx'.rotation ∧ pEx.mul pEx' ≠ pEx'.mul pEx := by
  refine ⟨qEx_unit, qEx'_unit, fun h => ?_⟩
  have := congrArg (fun p => p.rotation.y) h
  norm_num [Pose.mul, mul, pEx, pEx', qEx, qEx'] at this

/-- The homogeneous embedding `(v, 1)` of a point. -/
def homog (v : Vec K 3) : Vec K 4 := ![v 0, v 1, v 2, 1]

/-- **C09** The 4x4 matrix of a pose maps `(v,1)` to `(p*v,1)`; the 3x4 matrix maps it to `p*v`. -/
theorem C09_pose_matrix_apply (p : Pose K) (hp : UnitQ p.rotation) (v : Vec K 3) :
    p.toMatrix4 *ᵥ homog v = homog (p.apply v) ∧ p.toMatrix34 *ᵥ homog v = p.apply v := by
  have h : ∀ i, (toMatrix p.rotation *ᵥ v) i = rotate p.rotation v i :=
    fun i => congrFun ((C03_quaternion_to_matrix p.rotation hp).1 v) i
  have h0 := h 0
  have h1 := h 1
  have h2 := h 2
  simp only [Matrix.mulVec, dotProduct, Fin.sum_univ_three] at h0 h1 h2
  constructor
  · ext i; fin_cases i <;>
      simp [Pose.toMatrix4, homog, Pose.apply, Matrix.mulVec, dotProduct, Fin.sum_univ_four,
        ← h0, ← h1, ← h2]
  · ext i; fin_cases i <;>
      simp [Pose.toMatrix34, homog, Pose.apply, Matrix.mulVec, dotProduct, Fin.sum_univ_four,
        ← h0, ← h1, ← h2]

theorem toMatrix_mul {p q : Quat K} (hp : UnitQ p) (hq : UnitQ q) :
    toMatrix (mul p q) = toMatrix p * toMatrix q := by
  apply Matrix.ext_of_mulVec_single
  intro i
  rw [(C03_quaternion_to_matrix _ (isUnit_mul hp hq)).1, ← Matrix.mulVec_mulVec,
    (C03_quaternion_to_matrix _ hq).1, (C03_quaternion_to_matrix _ hp).1, rotate_mul hp hq]

/-- **C09** The matrix of a product of poses is the product of the matrices, the matrix of `~p` is
the inverse matrix, the matrix of the default pose is the identity. -/
theorem C09_pose_matrix_product (p q : Pose K) (hp : UnitQ p.rotation) (hq : UnitQ q.rotation) :
    (p.mul q).toMatrix4 = p.toMatrix4 * q.toMatrix4 ∧
    p.inv.toMatrix4 * p.toMatrix4 = 1 ∧ p.toMatrix4 * p.inv.toMatrix4 = 1 ∧
    (Pose.one : Pose K).toMatrix4 = 1 := by
  have hone : (Pose.one : Pose K).toMatrix4 = 1 := by
    ext i j; fin_cases i <;> fin_cases j <;>
      simp [Pose.toMatrix4, Pose.one, Quat.one, toMatrix]
  have hmul : ∀ p q : Pose K, UnitQ p.rotation → UnitQ q.rotation →
      (p.mul q).toMatrix4 = p.toMatrix4 * q.toMatrix4 := by
    intro p q hp hq
    have hR := toMatrix_mul hp hq
    have ht := (C03_quaternion_to_matrix p.rotation hp).1 q.translation
    ext i j
    have hRij : ∀ i j : Fin 3, toMatrix (mul p.rotation q.rotation) i j =
        toMatrix p.rotation i 0 * toMatrix q.rotation 0 j +
        toMatrix p.rotation i 1 * toMatrix q.rotation 1 j +
        toMatrix p.rotation i 2 * toMatrix q.rotation 2 j := by
      intro i j; rw [hR, Matrix.mul_apply, Fin.sum_univ_three]
    have hti : ∀ i : Fin 3, rotate p.rotation q.translation i =
        toMatrix p.rotation i 0 * q.translation 0 + toMatrix p.rotation i 1 * q.translation 1 +
        toMatrix p.rotation i 2 * q.translation 2 := by
      intro i; rw [← ht]; simp [Matrix.mulVec, dotProduct, Fin.sum_univ_three]
    fin_cases i <;> fin_cases j <;>
      simp [Pose.toMatrix4, Pose.mul, Matrix.mul_apply, Fin.sum_univ_four, hRij, hti]
  have g := C08_pose_group p q q hp hq
  refine ⟨hmul p q hp hq, ?_, ?_, hone⟩
  · rw [← hmul _ _ (isUnit_conj hp) hp, g.2.2.1.1, hone]
  · rw [← hmul _ _ hp (isUnit_conj hp), g.2.2.1.2, hone]

example : UnitQ pEx.rotation ∧ pEx.toMatrix4 = !![0, -1, 0, 1; 0, 0, -1, 2; 1, 0, 0, 3; 0, 0, 0, 1] := by
  refine ⟨qEx_unit, ?_⟩
  ext i j; fin_cases i <;> fin_cases j <;> simp [Pose.toMatrix4, toMatrix, pEx, qEx] <;> norm_num

/-- **C10** `fromVector( toVector( p ) ) = p` for every pose, and the other way round. -/
theorem C10_pose_vector_roundtrip (p : Pose K) (v : Vec K 7) :
    Pose.fromVector p.toVector = p ∧ (Pose.fromVector v).toVector = v := by
  constructor
  · apply Pose.ext
    · ext <;> simp [Pose.fromVector, Pose.toVector, Quat.fromVector, Quat.toVector]
    · ext i; fin_cases i <;> simp [Pose.fromVector, Pose.toVector]
  · ext i; fin_cases i <;>
      simp [Pose.fromVector, Pose.toVector, Quat.fromVector, Quat.toVector]

example : (pEx.toVector) = ![1, 2, 3, 1/2, -1/2, 1/2, 1/2] := by
  ext i; fin_cases i <;> simp [Pose.toVector, Quat.toVector, pEx, qEx]

end Ubitrack
