import Verif.Model.MatrixOperations
import Mathlib.Analysis.SpecialFunctions.Pow.Real

/-!
# Model: covariance of an estimated conic

src/utMath/Geometry/ConicCovariance.h. `double` is modelled by exact reals.
-/

namespace Ubitrack.ConicCovariance

/-- The monomials of a point, ConicCovariance.h l.106-114. -/
def monomials (p : Vec ℝ 2) : Vec ℝ 6 :=
  let x := p 0
  let y := p 1
  let x2 := x * x
  let y2 := y * y
  ![x2, 2 * x * y, y2, 2 * x, 2 * y, 1]

/-- `stdDev`, l.94. -/
noncomputable def stdDev : ℝ := 0.0001

/-- `t0` for the normalised conic `u = (a, b, c, d, e, f)`, l.118-119. -/
noncomputable def denominator (u : Vec ℝ 6) (p : Vec ℝ 2) : ℝ :=
  let x := p 0
  let y := p 1
  let x2 := x * x
  let y2 := y * y
  let a := u 0
  let b := u 1
  let c := u 2
  let d := u 3
  let e := u 4
  let t4 := b * stdDev * x * y * 4
  b * (b * stdDev * (y2 * 4 + x2 * 4) + d * stdDev * y * 4 + e * stdDev * x * 4 + a * stdDev * x * y * 4 + c * stdDev * x * y * 4) +
    d * (d * stdDev * 4 + a * stdDev * x * 4 + b * stdDev * y * 4) + e * (e * stdDev * 4 + b * stdDev * x * 4 + c * stdDev * y * 4) +
    a * (t4 + a * stdDev * x2 * 4 + d * stdDev * x * 4) + c * (t4 + c * stdDev * y2 * 4 + e * stdDev * y * 4)

/-- `norm_2( conic )`, l.84. -/
noncomputable def norm2 (conic : Vec ℝ 6) : ℝ :=
  Real.sqrt (conic 0 * conic 0 + conic 1 * conic 1 + conic 2 * conic 2 + conic 3 * conic 3 + conic 4 * conic 4 + conic 5 * conic 5)

open Classical in
/-- One pass of the loop, l.98-123. `none`: a division by zero, the matrix is not a number from there on. -/
noncomputable def addPoint (conic : Vec ℝ 6) (invCov : Mat ℝ 6 6) (p : Vec ℝ 2) : Option (Mat ℝ 6 6) :=
  let n2 := norm2 conic
  let u : Vec ℝ 6 := fun i => conic i / n2
  let t := monomials p
  let tmp : Mat ℝ 6 6 := Matrix.of fun i j => t i * t j
  let t0 := denominator u p
  if n2 = 0 ∨ t0 = 0 then none else some (invCov + (1 / t0) • tmp)

/-- `estimateCovariance`, l.73-128. -/
noncomputable def estimateCovariance (gesvd : Mat ℝ 6 6 → Vec ℝ 6 × Mat ℝ 6 6 × Mat ℝ 6 6) (points : List (Vec ℝ 2)) (conic : Vec ℝ 6) :
    Option (Mat ℝ 6 6) :=
  (points.foldlM (addPoint conic) 0).map (MatrixOperations.pseudoInvertMatrix gesvd)

end Ubitrack.ConicCovariance
