import Verif.Proofs.SO3

/-!
# C04, C09: conversion of arbitrary rotation matrices

A rotation matrix here is any real 3x3 matrix with orthonormal columns and determinant one; no
quaternion appears in the hypothesis.
-/

namespace Ubitrack
open Ubitrack.Spec Ubitrack.Quat
open scoped Matrix

/-- **C04** For every rotation matrix the constructed quaternion has unit length, converts back
to the same matrix, and rotates every vector as the matrix does. -/
theorem C04_every_rotation_matrix (R : Mat ℝ 3 3) (hR : Rᵀ * R = 1) (hdet : R.det = 1) :
    UnitQ (ofMatrix R) ∧ toMatrix (ofMatrix R) = R ∧
      ∀ v, (ofMatrix R).rotate v = R.mulVec v := by
  obtain ⟨q, hq, rfl⟩ := exists_unit_of_rotation R hR hdet
  have hs := C04_matrix_to_quaternion q hq
  have hu : UnitQ (ofMatrix (toMatrix q)) := unit_of_sameRotation hs hq
  refine ⟨hu, C04_matrix_roundtrip q hq, fun v => ?_⟩
  rw [← (C03_quaternion_to_matrix _ hu).1 v, C04_matrix_roundtrip q hq]

/-- **C04** The unit quaternion of a rotation matrix is determined up to sign: any unit quaternion
with the same matrix is the constructed one or its negation. -/
theorem C04_unique (R : Mat ℝ 3 3) (q : Quat ℝ) (hq : UnitQ q) (h : toMatrix q = R) :
    SameRotation (ofMatrix R) q := by
  subst h; exact C04_matrix_to_quaternion q hq

/-- **C09** A pose built from any 4x4 matrix whose upper-left block is a rotation moves a point by
that block and the last column. -/
theorem C09_pose_from_rigid_matrix (T : Mat ℝ 4 4)
    (hR : (T.submatrix ![0, 1, 2] ![0, 1, 2])ᵀ * T.submatrix ![0, 1, 2] ![0, 1, 2] = 1)
    (hdet : (T.submatrix ![0, 1, 2] ![0, 1, 2]).det = 1) (v : Vec ℝ 3) :
    (Pose.ofMatrix4 T).apply v =
      fun i => T (![0, 1, 2] i) 0 * v 0 + T (![0, 1, 2] i) 1 * v 1 + T (![0, 1, 2] i) 2 * v 2 +
        T (![0, 1, 2] i) 3 := by
  have h3 : (!![T 0 0, T 0 1, T 0 2; T 1 0, T 1 1, T 1 2; T 2 0, T 2 1, T 2 2] : Mat ℝ 3 3) =
      T.submatrix ![0, 1, 2] ![0, 1, 2] := by
    ext i j; fin_cases i <;> fin_cases j <;> rfl
  have h := (C04_every_rotation_matrix _ hR hdet).2.2 v
  simp only [Pose.apply, Pose.ofMatrix4, h3, h]
  ext i
  fin_cases i <;> simp [Matrix.mulVec, dotProduct, Fin.sum_univ_three]

/-- A quarter turn about the z axis, and a half turn about the x axis (trace -1). -/
example : (!![0, -1, 0; 1, 0, 0; 0, 0, 1] : Mat ℝ 3 3)ᵀ * !![0, -1, 0; 1, 0, 0; 0, 0, 1] = 1 ∧
    (!![0, -1, 0; 1, 0, 0; 0, 0, 1] : Mat ℝ 3 3).det = 1 := by
  constructor
  · ext i j; fin_cases i <;> fin_cases j <;> simp [Matrix.mul_apply, Fin.sum_univ_three]
  · simp [Matrix.det_fin_three]
example : (!![1, 0, 0; 0, -1, 0; 0, 0, -1] : Mat ℝ 3 3)ᵀ * !![1, 0, 0; 0, -1, 0; 0, 0, -1] = 1 ∧
    (!![1, 0, 0; 0, -1, 0; 0, 0, -1] : Mat ℝ 3 3).det = 1 := by
  constructor
  · ext i j; fin_cases i <;> fin_cases j <;> simp [Matrix.mul_apply, Fin.sum_univ_three]
  · simp [Matrix.det_fin_three]

end Ubitrack
