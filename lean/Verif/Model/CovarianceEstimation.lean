import Verif.Model.BackwardPropagation
import Verif.Model.AbsoluteOrientation
import Verif.Model.ProjectionFunction

/-!
# Covariance of a pose estimated from 3D point correspondences

`src/utAlgorithm/PoseEstimation3D3D/CovarianceEstimation.h`.
-/

namespace Ubitrack.CovarianceEstimation
open RotationFunction ProjectionFunction BackwardPropagation

/-- `MultiplePointTransformationError::jacobian`, CovarianceEstimation.h l.89-123. `J` is the previous content of the
matrix; the points are a sequence of length `n`. -/
def multiplePointTransformationErrorJacobian {n : ℕ} (points : Fin n → Vec ℝ 3) (J : Mat ℝ (3 * n) (3 + 3)) (input : Vec ℝ (3 + 4)) :
    Mat ℝ (3 * n) (3 + 3) :=
  (List.finRange n).foldl (fun J (i : Fin n) =>
    let rotJ := quaternionRotationErrorJacobian (points i) (inputR input)
    let trafo : Mat ℝ 3 3 := 1
    setBlock (setBlock J (i * 3) 0 trafo) (i * 3) 3 rotJ) J

/-- `estimatePose6DCovariance`, CovarianceEstimation.h l.131-158, with `backwardPropagationIdentity` for a function,
BackwardPropagation.h l.199-212. `J` is the content of the new, uninitialised Jacobian. -/
noncomputable def estimatePose6DCovariance {n : ℕ}
    (gesvd : Mat ℝ (3 * n) (3 + 3) → Vec ℝ (3 + 3) × Mat ℝ (3 * n) (3 + 3) × Mat ℝ (3 + 3) (3 + 3)) (J : Mat ℝ (3 * n) (3 + 3))
    (a : Fin n → Vec ℝ 3) (pose : Pose ℝ) (b : Fin n → Vec ℝ 3) (covariance : Mat ℝ (3 + 3) (3 + 3)) :
    Option (Mat ℝ (3 + 3) (3 + 3)) :=
  let err := AbsoluteOrientation.residual (List.ofFn a) (List.ofFn b) pose
  let params : Vec ℝ (3 + 4) := pose.toVector
  backwardPropagationIdentity gesvd covariance err (multiplePointTransformationErrorJacobian b J params)

end Ubitrack.CovarianceEstimation
