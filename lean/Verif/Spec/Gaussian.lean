import Verif.Model.Quaternion
import Mathlib.LinearAlgebra.Matrix.PosDef
import Mathlib.Analysis.SpecialFunctions.Log.Basic
import Mathlib.Analysis.SpecialFunctions.Trigonometric.Basic

/-!
# Mean, covariance and normal distributions
-/

namespace Ubitrack.Spec
open scoped Matrix

/-- The weighted mean of a list of weights and values. -/
noncomputable def weightedMean {N : ℕ} (l : List (ℝ × Vec ℝ N)) : Vec ℝ N :=
  fun i => (l.map fun p => p.1 * p.2 i).sum / (l.map Prod.fst).sum

/-- The weighted covariance matrix of a list of weights and values. -/
noncomputable def weightedCovariance {N : ℕ} (l : List (ℝ × Vec ℝ N)) : Mat ℝ N N :=
  Matrix.of fun a b => (l.map fun p => p.1 * (p.2 a - weightedMean l a) * (p.2 b - weightedMean l b)).sum / (l.map Prod.fst).sum

/-- The density of the normal distribution with mean `m` and covariance `C`. -/
noncomputable def normalDensity {N : ℕ} (m : Vec ℝ N) (C : Mat ℝ N N) (x : Vec ℝ N) : ℝ :=
  Real.exp (-(1 / 2) * ((x - m) ⬝ᵥ (C⁻¹ *ᵥ (x - m)))) / Real.sqrt ((2 * Real.pi) ^ N * C.det)

/-- The logarithm of the likelihood of a list of values for a mixture of normal distributions, given as weights, means and
covariances. -/
noncomputable def mixtureLogLikelihood {N : ℕ} (mix : List (ℝ × Vec ℝ N × Mat ℝ N N)) (values : List (Vec ℝ N)) : ℝ :=
  (values.map fun x => Real.log (mix.map fun c => c.1 * normalDensity c.2.1 c.2.2 x).sum).sum

end Ubitrack.Spec
