import Verif.Model.RotationFunction
import Verif.Spec.Rotation
import Verif.Proofs.Jacobian
import Mathlib.Tactic.FieldSimp
import Mathlib.Tactic.LinearCombination

/-!
# C32: Jacobians of the rotation of a vector; C52: Jacobians of the hand-eye and exponential map functions
-/

namespace Ubitrack.RotationFunction

open Spec

/-- Specification: the vector part of `q v q*`, for quaternions of any length. -/
def sandwich (q : Vec ℝ 4) (v : Vec ℝ 3) : Vec ℝ 3 :=
  let r := ((Quat.fromVector q).mul ⟨v 0, v 1, v 2, 0⟩).mul (Quat.fromVector q).conj
  ![r.x, r.y, r.z]

/-- **C32** The documented product `q v q*` has the Jacobian that both copies of the code compute, at every quaternion. -/
theorem C32_wrt_q (q : Vec ℝ 4) (v : Vec ℝ 3) :
    IsJacobian (fun q => sandwich q v) q (quaternionRotationJacobian v q) ∧
    IsJacobian (fun q => sandwich q v) q (quaternionVectorRotationJacQ q v) := by
  have e : quaternionVectorRotationJacQ q v = quaternionRotationJacobian v q := by
    ext i j
    fin_cases i <;> fin_cases j <;> simp [quaternionVectorRotationJacQ, quaternionRotationJacobian] <;> ring
  rw [e, and_self]
  apply isJacobian_of_partials
  · rw [differentiableAt_pi]
    intro i
    fin_cases i <;> simp [sandwich, Quat.mul, Quat.conj, Quat.fromVector] <;> fun_prop
  · intro i j
    fin_cases i <;> fin_cases j <;> simp [sandwich, Quat.mul, Quat.conj, Quat.fromVector, quaternionRotationJacobian] <;>
    · refine HasDerivAt.congr_deriv (by hasderiv) ?_
      ring

/-- **C32** What the functions evaluate is this product, if the quaternion has length one; in general they add
`(|q|² - 1) v`. -/
theorem C32_evaluate (q : Vec ℝ 4) (v : Vec ℝ 3) :
    quaternionRotation v q = quaternionVectorRotation q v ∧
    quaternionRotation v q = sandwich q v + (q 0 ^ 2 + q 1 ^ 2 + q 2 ^ 2 + q 3 ^ 2 - 1) • v := by
  constructor
  · ext i; fin_cases i <;> simp [quaternionRotation, quaternionVectorRotation, Quat.rotate, Quat.fromVector]
  · ext i
    fin_cases i <;> simp [quaternionRotation, Quat.rotate, sandwich, Quat.mul, Quat.conj, Quat.fromVector] <;> ring

/-- **C32** Hence at unit quaternions the Jacobian is the derivative of what is evaluated, in all directions tangent
to the unit sphere. -/
theorem C32_tangent (q : Vec ℝ 4) (v : Vec ℝ 3) :
    ∃ J, IsJacobian (quaternionRotation v) q J ∧
      ∀ e : Vec ℝ 4, q 0 * e 0 + q 1 * e 1 + q 2 * e 2 + q 3 * e 3 = 0 → J.mulVec e = (quaternionRotationJacobian v q).mulVec e := by
  refine ⟨quaternionRotationJacobian v q + Matrix.of fun i j => 2 * v i * q j, ?_, ?_⟩
  · apply isJacobian_of_partials
    · rw [differentiableAt_pi]
      intro i
      fin_cases i <;> simp [quaternionRotation, Quat.rotate, Quat.fromVector] <;> fun_prop
    · intro i j
      fin_cases i <;> fin_cases j <;> simp [quaternionRotation, Quat.rotate, Quat.fromVector, quaternionRotationJacobian] <;>
      · refine HasDerivAt.congr_deriv (by hasderiv) ?_
        ring
  · intro e he
    rw [Matrix.add_mulVec]
    have : (Matrix.of fun i j => 2 * v i * q j : Mat ℝ 3 4).mulVec e = 0 := by
      ext i
      simp only [Matrix.mulVec, dotProduct, Matrix.of_apply, Fin.sum_univ_four, Pi.zero_apply]
      linear_combination 2 * v i * he
    rw [this, add_zero]

/-- **C32 (refuted for the radial direction)** The Jacobian is not the Jacobian of what `evaluate` computes, even at unit
quaternions: it differs in the direction of the quaternion itself. -/
theorem C32_evaluate_refuted :
    ∃ (q : Vec ℝ 4) (v : Vec ℝ 3), q 0 ^ 2 + q 1 ^ 2 + q 2 ^ 2 + q 3 ^ 2 = 1 ∧
      ¬ IsJacobian (quaternionRotation v) q (quaternionRotationJacobian v q) := by
  refine ⟨![0, 0, 0, 1], ![1, 0, 0], by simp, fun h => ?_⟩
  have h1 := h.line 0 3
  have h2 : HasDerivAt (fun s : ℝ => quaternionRotation ![1, 0, 0] (Function.update ![0, 0, 0, 1] 3 s) 0) 4 1 := by
    have e : (fun s : ℝ => quaternionRotation ![1, 0, 0] (Function.update ![0, 0, 0, 1] 3 s) 0) = fun s => 2 * (s * s) - 1 := by
      funext s
      simp [quaternionRotation, Quat.rotate, Quat.fromVector]
    rw [e]
    refine HasDerivAt.congr_deriv (by hasderiv) ?_
    norm_num
  have := h1.unique (by simpa using h2)
  simp [quaternionRotationJacobian] at this

/-- **C32** The Jacobian with respect to the vector, at unit quaternions. -/
theorem C32_wrt_v (q : Vec ℝ 4) (v : Vec ℝ 3) (hq : q 0 ^ 2 + q 1 ^ 2 + q 2 ^ 2 + q 3 ^ 2 = 1) :
    IsJacobian (fun v => quaternionVectorRotation q v) v (quaternionVectorRotationJacVec q) := by
  apply isJacobian_of_partials
  · rw [differentiableAt_pi]
    intro i
    fin_cases i <;> simp [quaternionVectorRotation] <;> fun_prop
  · intro i j
    fin_cases i <;> fin_cases j <;> simp [quaternionVectorRotation, quaternionVectorRotationJacVec] <;>
    · refine HasDerivAt.congr_deriv (by hasderiv) ?_
      first
        | ring1
        | linear_combination 2 * hq

/-- **C32** The Jacobian with respect to the rotation error `(x, y, z, 1)` applied to the right of a unit quaternion. -/
theorem C32_wrt_error (q : Vec ℝ 4) (v : Vec ℝ 3) (hq : q 0 ^ 2 + q 1 ^ 2 + q 2 ^ 2 + q 3 ^ 2 = 1) :
    IsJacobian (fun e : Vec ℝ 3 => sandwich ((Quat.fromVector q).mul ⟨e 0, e 1, e 2, 1⟩).toVector v) 0
      (quaternionRotationErrorJacobian v q) := by
  have hB : IsJacobian (fun e : Vec ℝ 3 => ((Quat.fromVector q).mul ⟨e 0, e 1, e 2, 1⟩).toVector) 0
      !![q 3, -q 2, q 1; q 2, q 3, -q 0; -q 1, q 0, q 3; -q 0, -q 1, -q 2] := by
    apply isJacobian_of_partials
    · rw [differentiableAt_pi]
      intro i
      fin_cases i <;> simp [Quat.mul, Quat.fromVector, Quat.toVector] <;> fun_prop
    · intro i j
      fin_cases i <;> fin_cases j <;> simp [Quat.mul, Quat.fromVector, Quat.toVector] <;>
      · refine HasDerivAt.congr_deriv (by hasderiv) ?_
        ring
  have h := IsJacobian.comp (C32_wrt_q _ v).1 hB
  convert h using 1
  ext i j
  fin_cases i <;> fin_cases j <;>
    simp [quaternionRotationErrorJacobian, quaternionRotationJacobian, Matrix.mul_apply, Fin.sum_univ_four, Quat.mul,
      Quat.fromVector, Quat.toVector] <;>
    grind

set_option maxHeartbeats 2000000 in
/-- **C32** Inversion of a rotation velocity: the Jacobian with respect to orientation and velocity, again with the
documented product in place of the evaluated one. -/
theorem C32_invert_velocity (x : Vec ℝ 7) (hq : x 0 ^ 2 + x 1 ^ 2 + x 2 ^ 2 + x 3 ^ 2 = 1) :
    invertRotationVelocity x = sandwich ![x 0, x 1, x 2, x 3] ![-x 4, -x 5, -x 6] ∧
    IsJacobian (fun x : Vec ℝ 7 => sandwich ![x 0, x 1, x 2, x 3] ![-x 4, -x 5, -x 6]) x (invertRotationVelocityJacobian x) := by
  constructor
  · have := (C32_evaluate ![x 0, x 1, x 2, x 3] ![-x 4, -x 5, -x 6])
    unfold invertRotationVelocity
    rw [← this.1, this.2]
    simp [hq]
  · apply isJacobian_of_partials
    · rw [differentiableAt_pi]
      intro i
      fin_cases i <;> simp [sandwich, Quat.mul, Quat.conj, Quat.fromVector] <;> fun_prop
    · intro i j
      fin_cases i <;> fin_cases j <;>
        simp [sandwich, Quat.mul, Quat.conj, Quat.fromVector, invertRotationVelocityJacobian, quaternionVectorRotationJacQ,
          quaternionVectorRotationJacVec] <;>
      · refine HasDerivAt.congr_deriv (by hasderiv) ?_
        first
          | ring1
          | linear_combination -hq

/-- Non-vacuity: a unit quaternion that is not the identity. -/
example : ∃ q : Vec ℝ 4, q 0 ^ 2 + q 1 ^ 2 + q 2 ^ 2 + q 3 ^ 2 = 1 ∧ q 0 ≠ 0 ∧ q 1 ≠ 0 :=
  ⟨![3 / 5, 4 / 5, 0, 0], by simp; norm_num⟩

end Ubitrack.RotationFunction
