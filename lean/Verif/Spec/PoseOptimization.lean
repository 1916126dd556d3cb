import Verif.Spec.PlanarPose
import Verif.Spec.Projection
import Mathlib.LinearAlgebra.Matrix.PosDef

/-!
# Specification: solving normal equations, and images under a disturbed pose
-/

namespace Ubitrack.Spec
open scoped Matrix

/-- LAPACK `posv`: it succeeds on positive definite matrices, and then the result solves the equations. -/
def CholeskySolver {n : ℕ} (posv : Mat ℝ n n → Vec ℝ n → Option (Vec ℝ n)) : Prop :=
  ∀ A b, A.PosDef → ∃ d, posv A b = some d ∧ A *ᵥ d = b

/-- Where a pose with the error `(e_t, e_r)` moves a point, ErrorPose.h l.52-60: `q e_r x e_r* q* + t + e_t` with the small rotation
`e_r = (e_rx, e_ry, e_rz, 1)`. -/
noncomputable def disturbed (p : Pose ℝ) (e : Vec ℝ 6) (x : Vec ℝ 3) : Vec ℝ 3 :=
  sandwich (p.rotation.mul ⟨e 3, e 4, e 5, 1⟩) x + (p.translation + ![e 0, e 1, e 2])

end Ubitrack.Spec
