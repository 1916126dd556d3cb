import Verif.Spec.LinearCalibration
import Verif.Spec.Factorisation

/-!
# Specification: epipolar geometry
-/

namespace Ubitrack.Spec
open scoped Matrix

/-- The matrix of the cross product with `t`. -/
def crossMatrix (t : Vec ℝ 3) : Mat ℝ 3 3 := !![0, -t 2, t 1; t 2, 0, -t 0; -t 1, t 0, 0]

/-- The epipolar constraint: the second point lies on the line the matrix assigns to the first point. -/
def Epipolar (F : Mat ℝ 3 3) (p q : Vec ℝ 2) : Prop := homogeneous q ⬝ᵥ F.mulVec (homogeneous p) = 0

/-- The camera matrix `K [R | t]`. -/
def camera (K R : Mat ℝ 3 3) (t : Vec ℝ 3) : Mat ℝ 3 4 :=
  K * !![R 0 0, R 0 1, R 0 2, t 0; R 1 0, R 1 1, R 1 2, t 1; R 2 0, R 2 1, R 2 2, t 2]

/-- LAPACK `gesvd('A', 'A', ...)` on a square matrix, with its status: where it succeeds, the result is a singular value
decomposition. -/
def SquareSVD {n : ℕ} (gesvd : Mat ℝ n n → Option (Vec ℝ n × Mat ℝ n n × Mat ℝ n n)) : Prop :=
  ∀ A s U Vt, gesvd A = some (s, U, Vt) →
    Antitone s ∧ (∀ i, 0 ≤ s i) ∧ Uᵀ * U = 1 ∧ Vt * Vtᵀ = 1 ∧ A = U * Matrix.diagonal s * Vt

end Ubitrack.Spec
