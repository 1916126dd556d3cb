import Verif.Spec.Jacobian

/-!
# The error that Gauss-Newton is to minimise
-/

namespace Ubitrack.Spec

/-- The sum of the squared differences of a measurement and what is predicted for the parameters `x`. -/
def squaredError {m n : ℕ} (f : Vec ℝ n → Vec ℝ m) (z : Vec ℝ m) (x : Vec ℝ n) : ℝ := ∑ i, (z i - f x i) ^ 2

/-- `x` minimises the error. -/
def Minimal {m n : ℕ} (f : Vec ℝ n → Vec ℝ m) (z : Vec ℝ m) (x : Vec ℝ n) : Prop :=
  ∀ y, squaredError f z x ≤ squaredError f z y

/-- The derivative of the error vanishes. -/
def Stationary {m n : ℕ} (f : Vec ℝ n → Vec ℝ m) (z : Vec ℝ m) (x : Vec ℝ n) : Prop :=
  HasFDerivAt (squaredError f z) (0 : Vec ℝ n →L[ℝ] ℝ) x

end Ubitrack.Spec
