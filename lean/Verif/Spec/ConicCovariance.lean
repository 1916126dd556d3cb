import Verif.Spec.Factorisation
import Mathlib.Analysis.Calculus.Deriv.Basic
import Mathlib.Analysis.SpecialFunctions.Pow.Real

/-!
# Specification: how well points determine a conic
-/

namespace Ubitrack.Spec

/-- The polynomial `a x² + 2 b x y + c y² + 2 d x + 2 e y + f` of the conic `(a, b, c, d, e, f)` (elements of a symmetric matrix). -/
def symmetricConicAt (u : Vec ℝ 6) (p : Vec ℝ 2) : ℝ :=
  u 0 * p 0 ^ 2 + 2 * u 1 * (p 0 * p 1) + u 2 * p 1 ^ 2 + 2 * u 3 * p 0 + 2 * u 4 * p 1 + u 5

/-- The squared length of its gradient at a point. -/
noncomputable def gradientSq (u : Vec ℝ 6) (p : Vec ℝ 2) : ℝ :=
  deriv (fun x => symmetricConicAt u ![x, p 1]) (p 0) ^ 2 + deriv (fun y => symmetricConicAt u ![p 0, y]) (p 1) ^ 2

/-- The conic with length one as a vector. -/
noncomputable def unitConic (u : Vec ℝ 6) : Vec ℝ 6 := fun i => u i / Real.sqrt (∑ k, u k ^ 2)

/-- The information of points about a conic: the polynomial at a point changes with the coefficients (`symmetricConicAt` of the unit
vectors); noise of a given variance in the coordinates makes it uncertain by the variance times the squared gradient. -/
noncomputable def conicInformation (variance : ℝ) (conic : Vec ℝ 6) (points : List (Vec ℝ 2)) : Mat ℝ 6 6 :=
  Matrix.of fun i j => (points.map fun p =>
    symmetricConicAt (Pi.single i 1) p * symmetricConicAt (Pi.single j 1) p / (variance * gradientSq (unitConic conic) p)).sum

end Ubitrack.Spec
