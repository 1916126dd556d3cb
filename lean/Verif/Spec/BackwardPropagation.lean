import Verif.Spec.Factorisation
import Mathlib.LinearAlgebra.Matrix.NonsingularInverse

/-!
# Covariance of parameters determined from measurements

For a measurement `y = J x + noise` with noise of covariance `E`, the best linear estimate of `x` has the inverse of
`Jᵀ E⁻¹ J` as covariance.
-/

namespace Ubitrack.Spec
open scoped Matrix

/-- `C` is the covariance of the parameters: the inverse of the information that measurements with covariance `E` carry. -/
def ParameterCovariance {m n : ℕ} (J : Mat ℝ m n) (E : Mat ℝ m m) (C : Mat ℝ n n) : Prop :=
  C * (Jᵀ * E⁻¹ * J) = 1

/-- Every direction the measurement depends on at all changes it by at least `1e-8` of the strongest change. A direction is
a unit vector; the measurement depends on it when it is orthogonal to all directions without any effect. -/
def Resolvable {m n : ℕ} (J : Mat ℝ m n) : Prop :=
  ∀ x y : Vec ℝ n, x ⬝ᵥ x = 1 → y ⬝ᵥ y = 1 → (∀ z, J *ᵥ z = 0 → x ⬝ᵥ z = 0) →
    1e-16 * (J *ᵥ y ⬝ᵥ J *ᵥ y) ≤ J *ᵥ x ⬝ᵥ J *ᵥ x

/-- No direction leaves the measurement as it is. -/
def Determined {m n : ℕ} (J : Mat ℝ m n) : Prop := ∀ x : Vec ℝ n, J *ᵥ x = 0 → x = 0

end Ubitrack.Spec
