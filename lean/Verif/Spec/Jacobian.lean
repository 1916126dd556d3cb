import Verif.Model.Quaternion
import Mathlib.Analysis.Calculus.FDeriv.Pi
import Mathlib.Topology.Algebra.Module.FiniteDimension
import Mathlib.LinearAlgebra.Matrix.ToLin

/-!
# Specification: Jacobian matrices
-/

namespace Ubitrack.Spec

/-- `J` is the Jacobian matrix of `f` at `x`: `f` is differentiable at `x` and the derivative is the linear map
`v ↦ J v`. -/
def IsJacobian {m n : ℕ} (f : Vec ℝ n → Vec ℝ m) (x : Vec ℝ n) (J : Mat ℝ m n) : Prop :=
  HasFDerivAt f (LinearMap.toContinuousLinearMap (Matrix.mulVecLin J)) x

end Ubitrack.Spec
