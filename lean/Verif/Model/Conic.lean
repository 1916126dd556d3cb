import Verif.Model.Quaternion
import Mathlib.Analysis.SpecialFunctions.Trigonometric.Arctan
import Mathlib.LinearAlgebra.Matrix.NonsingularInverse

/-!
# Conics and quadrics

src/utMath/Geometry/Conic.h, QuadricFunctors.h. Numbers are exact. A function returns `none` where the code divides by zero or
takes the square root of a negative number (the code returns infinities or NaN there).
-/

namespace Ubitrack

namespace Conic

section Field
variable {K : Type*} [Field K]

/-- `MatrixFromConic`, Conic.h l.115-125. The factor 0.5 is written as division by two. -/
def toMatrix (v : Vec K 6) : Mat K 3 3 :=
  !![v 0, v 1 / 2, v 3 / 2;
     v 1 / 2, v 2, v 4 / 2;
     v 3 / 2, v 4 / 2, v 5]

/-- `ConicFromMatrix`, Conic.h l.149-159. -/
def fromMatrix (m : Mat K 3 3) : Vec K 6 := ![m 0 0, m 1 0 + m 0 1, m 1 1, m 2 0 + m 0 2, m 2 1 + m 1 2, m 2 2]

/-- The denominator of `ConicInverse`, Conic.h l.193. -/
def inverseDenominator (v : Vec K 6) : K :=
  let a := v 0; let b := v 1; let c := v 2; let d := v 3; let e := v 4; let f := v 5
  a * (e * e) + c * (d * d) + (b * b) * f - a * c * f * 4 - b * d * e

/-- `ConicInverse`, Conic.h l.185-203. -/
def inverse [DecidableEq K] (v : Vec K 6) : Option (Vec K 6) :=
  let a := v 0; let b := v 1; let c := v 2; let d := v 3; let e := v 4; let f := v 5
  if inverseDenominator v = 0 then none else
  let divisor := 1 / inverseDenominator v
  some ![-(c * f * 4 - e * e) * divisor,
         2 * (b * f * 2 - d * e) * divisor,
         -(a * f * 4 - d * d) * divisor,
         2 * (-(b * e - c * d * 2) * divisor),
         2 * (a * e * 2 - b * d) * divisor,
         -(a * c * 4 - b * b) * divisor]

/-- `ConicDeterminant`, Conic.h l.226-235. The factor 0.25 is written as division by four. -/
def determinant (v : Vec K 6) : K :=
  let a := v 0; let b := v 1; let c := v 2; let d := v 3; let e := v 4; let f := v 5
  a * c * f + (-b * b * f + b * e * d - c * d * d - a * e * e) / 4

/-- What `ConicCenter` can do: return a point, throw, or return infinite coordinates. -/
inductive Center (K : Type*) where
  | point (p : Vec K 2)
  | throws
  | infinite

/-- `ConicCenter`, Conic.h l.388-406. The reciprocal is taken before it is compared with zero: the reciprocal of zero is
infinite. -/
def center [DecidableEq K] (v : Vec K 6) : Center K :=
  let a := v 0; let b := v 1 / 2; let c := v 2; let d := v 3 / 2; let e := v 4 / 2
  if b * b - a * c = 0 then .infinite else
  let divisor := 1 / (b * b - a * c)
  if divisor = 0 then .throws else
  .point ![(c * d - b * e) * divisor, (a * e - b * d) * divisor]

/-- `ScaleConicUnsafe`, Conic.h l.715-777. -/
def scale [DecidableEq K] (scaleA scaleB : K) (v : Vec K 6) : Option (Vec K 6) :=
  if scaleA = 0 ∨ scaleB = 0 then none else
  let scaleA1 := 1 / scaleA
  let scaleA2 := scaleA1 * scaleA1
  let scaleB1 := 1 / scaleB
  let scaleB2 := scaleB1 * scaleB1
  some ![v 0 * scaleA2, v 1 * scaleA1 * scaleB1, v 2 * scaleB2, v 3 * scaleA1, v 4 * scaleB1, v 5]

/-- `TranslateConic`, Conic.h l.802-841. -/
def translate (t : Vec K 2) (v : Vec K 6) : Vec K 6 :=
  let a := v 0; let b := v 1 / 2; let c := v 2; let d := v 3 / 2; let e := v 4 / 2; let f := v 5
  let tx := t 0; let ty := t 1
  let atx := a * tx
  let btx := b * tx
  let bty := b * ty
  ![v 0, v 1, v 2, (d - atx - bty) * 2, (e - btx - c * ty) * 2,
    f - d * tx - e * ty + tx * (-d + atx + bty) + ty * (-e + btx + ty * c)]

/-- `ConicPixel`, Conic.h l.870-883. -/
def pixel (v : Vec K 6) (p : Vec K 2) : K :=
  let x := p 0; let y := p 1
  let a := v 0; let b := v 1 / 2; let c := v 2; let d := v 3 / 2; let e := v 4 / 2; let f := v 5
  f + e * y + d * x + x * (d + a * x + b * y) + y * (e + b * x + c * y)

/-- `FlipConicHorizontal`, Conic.h l.915-944. -/
def flipHorizontal (height : K) (v : Vec K 6) : Vec K 6 :=
  let y := height - 1
  let a := v 0; let b := v 1 / 2; let c := v 2; let d := v 3 / 2; let e := v 4 / 2; let f := v 5
  ![a, -b * 2, c, (d + b * y) * 2, -(e + c * y) * 2, f + e * y + y * (e + c * y)]

end Field

/-! ## Real functions -/

/-- `ConicAngle`, Conic.h l.264-272. For `a = c` the quotient is infinite with the sign of `b`, or NaN for `b = 0`. -/
noncomputable def angle (v : Vec ℝ 6) : Option ℝ :=
  let a := v 0; let b := v 1; let c := v 2
  if a = c then
    if b = 0 then none else some (if 0 < b then Real.pi / 2 * 0.5 else -(Real.pi / 2) * 0.5)
  else
    let angle := Real.arctan (b / (a - c)) * 0.5
    some (if a ≤ c then angle else Real.pi * 0.5 + angle)

/-- `ConicSemiAxes`, Conic.h l.298-329. -/
noncomputable def semiAxes (v : Vec ℝ 6) : Option (Vec ℝ 2) := do
  let theta0 ← angle v
  let a := v 0; let b := v 1; let c := v 2; let d := v 3; let e := v 4; let f := v 5
  let cot := Real.cos theta0
  let sit := Real.sin theta0
  let cot2 := cot * cot
  let sit2 := sit * sit
  let a1 := a * cot2 + b * sit * cot + c * sit2
  let c1 := a * sit2 - b * sit * cot + c * cot2
  let d1 := d * cot + e * sit
  let e1 := -d * sit + e * cot
  let f1 := f
  if 4 * a1 * c1 = 0 then none else
  let num := (c1 * d1 * d1 + a1 * e1 * e1 - 4 * a1 * c1 * f1) / (4 * a1 * c1)
  if num / a1 < 0 ∨ num / c1 < 0 then none else
  some ![Real.sqrt (num / a1), Real.sqrt (num / c1)]

/-- `ConicEccentricity`, Conic.h l.438-450, for arguments for which nothing is divided by zero and no root is negative. -/
noncomputable def eccentricity (v : Vec ℝ 6) : ℝ :=
  let a := v 0; let b := v 1 / 2; let c := v 2
  let upper := Real.sqrt ((a - c) ^ 2 + b * b)
  let ac := a + c
  if determinant v < 0 then Real.sqrt (2 * upper / (upper + ac)) else Real.sqrt (2 * upper / (upper - ac))

/-- `ConicArea`, Conic.h l.482-486. -/
noncomputable def area (v : Vec ℝ 6) : Option ℝ := do
  let s ← semiAxes v
  some (Real.pi * s 0 * s 1)

/-- `IsConicCircle`, Conic.h l.524-535. -/
def isCircle (error : ℝ) (v : Vec ℝ 6) : Prop :=
  ¬ |v 1| > error ∧ ¬ |v 0 - v 2| > error ∧ v 1 * v 1 - 4 * v 0 * v 2 < 0

/-- `IsConicDegenerate`, Conic.h l.576-579. -/
def isDegenerate (epsilon : ℝ) (v : Vec ℝ 6) : Prop := |determinant v| < epsilon

/-- `IsConicEllipse`, Conic.h l.602-606. -/
def isEllipse (v : Vec ℝ 6) : Prop := v 1 * v 1 - 4 * v 0 * v 2 < 0

/-- `IsConicHyperbola`, Conic.h l.629-633. -/
def isHyperbola (v : Vec ℝ 6) : Prop := v 1 * v 1 - 4 * v 0 * v 2 > 0

/-- `IsConicParabola`, Conic.h l.672-677. -/
def isParabola (epsilon : ℝ) (v : Vec ℝ 6) : Prop := |v 1 * v 1 - 4 * v 0 * v 2| < epsilon

/-- `( x1 < x2 ) ? ( x1, x2 ) : ( x2, x1 )`. -/
noncomputable def ordered (x1 x2 : ℝ) : Vec ℝ 2 := if x1 < x2 then ![x1, x2] else ![x2, x1]

/-- `ConicUpperLowerLimit`, Conic.h l.971-993. -/
noncomputable def upperLowerLimit (v : Vec ℝ 6) : Option (Vec ℝ 2) :=
  let a := v 0; let b := v 1 / 2; let c := v 2; let d := v 3 / 2; let e := v 4 / 2; let f := v 5
  let lower := 4 * (b * b - a * c)
  let upper1 := 8 * (b * d - a * e)
  let temp := 4 * (d * d - a * f)
  if upper1 * upper1 - 4 * lower * temp < 0 then none else
  let upper2 := Real.sqrt (upper1 * upper1 - 4 * lower * temp)
  let lower := lower * 2
  if lower = 0 then none else
  some (ordered (-(upper1 / lower + upper2 / lower)) (-(upper1 / lower - upper2 / lower)))

/-- `ConicLeftRightLimit`, Conic.h l.1019-1032. -/
noncomputable def leftRightLimit (v : Vec ℝ 6) : Option (Vec ℝ 2) :=
  let a := v 0; let b := v 1 / 2; let c := v 2; let d := v 3 / 2; let e := v 4 / 2; let f := v 5
  if c = 0 ∨ a * c - b * b = 0 then none else
  let radicand := (a * (e * e) + c * (d * d) + (b * b) * f - a * c * f - b * d * e * 2) / c
  if radicand < 0 then none else
  some (ordered ((b * e - c * d + c * Real.sqrt radicand) / (a * c - b * b)) (-(-b * e + c * d + c * Real.sqrt radicand) / (a * c - b * b)))

/-- `ConicHorizontalIntersection`, Conic.h l.1057-1065. -/
noncomputable def horizontalIntersection (v : Vec ℝ 6) (y : ℝ) : Option (Vec ℝ 2) :=
  let b := v 1 * 0.5 * y + v 3 * 0.5
  let c := (v 2 * y + v 4) * y + v 5
  if v 0 = 0 ∨ b * b - v 0 * c < 0 then none else
  let d := Real.sqrt (b * b - v 0 * c)
  some (ordered ((-b + d) / v 0) ((-b - d) / v 0))

end Conic

/-! ## Quadrics -/

namespace Quadric

variable {K : Type*} [Field K]

/-- The symmetric 4x4 matrix of the ten numbers, in the order described in QuadricFunctors.h l.75-88, 213-216. -/
def toMatrix (w : Vec K 10) : Mat K 4 4 :=
  !![w 0, w 3, w 4, w 6;
     w 3, w 1, w 5, w 7;
     w 4, w 5, w 2, w 8;
     w 6, w 7, w 8, w 9]

/-- The line conic of `ProjectQuadric`, QuadricFunctors.h l.119-150. -/
def lineConic (P : Mat K 3 4) (w : Vec K 10) : Vec K 6 :=
  let a := w 0; let b := w 1; let c := w 2; let d := w 9; let f := w 3; let g := w 4; let h := w 5
  let p := w 6; let q := w 7; let r := w 8
  let p11 := P 0 0; let p12 := P 0 1; let p13 := P 0 2; let p14 := P 0 3
  let p21 := P 1 0; let p22 := P 1 1; let p23 := P 1 2; let p24 := P 1 3
  let p31 := P 2 0; let p32 := P 2 1; let p33 := P 2 2; let p34 := P 2 3
  ![p11*(p11*a+f*p12+g*p13+p*p14)+p12*(f*p11+p12*b+h*p13+q*p14)+p13*(g*p11+h*p12+p13*c+r*p14)+p14*(p11*p+p12*q+p13*r+d*p14),
    2*(p11*(p21*a+f*p22+g*p23+p*p24)+p12*(f*p21+p22*b+h*p23+q*p24)+p13*(g*p21+h*p22+p23*c+r*p24)+p14*(p21*p+p22*q+p23*r+d*p24)),
    p21*(p21*a+f*p22+g*p23+p*p24)+p22*(f*p21+p22*b+h*p23+q*p24)+p23*(g*p21+h*p22+p23*c+r*p24)+p24*(p21*p+p22*q+p23*r+d*p24),
    2*(p11*(p31*a+f*p32+g*p33+p*p34)+p12*(f*p31+p32*b+h*p33+q*p34)+p13*(g*p31+h*p32+p33*c+r*p34)+p14*(p31*p+p32*q+p33*r+d*p34)),
    2*(p21*(p31*a+f*p32+g*p33+p*p34)+p22*(f*p31+p32*b+h*p33+q*p34)+p23*(g*p31+h*p32+p33*c+r*p34)+p24*(p31*p+p32*q+p33*r+d*p34)),
    p31*(p31*a+f*p32+g*p33+p*p34)+p32*(f*p31+p32*b+h*p33+q*p34)+p33*(g*p31+h*p32+p33*c+r*p34)+p34*(p31*p+p32*q+p33*r+d*p34)]

/-- `ProjectQuadric`, QuadricFunctors.h l.117-173. The lines 153-161 are those of `ConicInverse`. -/
def project [DecidableEq K] (P : Mat K 3 4) (w : Vec K 10) : Option (Vec K 6) := Conic.inverse (lineConic P w)

/-- `Ellipsoid2Quadric`, QuadricFunctors.h l.197-234. -/
def ofEllipsoid (s : Vec K 6) : Vec K 10 :=
  let a := s 0; let b := s 1; let c := s 2; let d : K := 1; let p := s 3; let q := s 4; let r := s 5
  ![a * a - p * p, b * b - q * q, c * c - r * r, -(p * q), -(p * r), -(q * r), -(d * p), -(d * q), -(d * r), -(d * d)]

/-- The line conic of `ProjectEllipsoid`, QuadricFunctors.h l.261-289. -/
def ellipsoidLineConic (P : Mat K 3 4) (s : Vec K 6) : Vec K 6 :=
  let a := s 0; let b := s 1; let c := s 2; let p := s 3; let q := s 4; let r := s 5
  let p11 := P 0 0; let p12 := P 0 1; let p13 := P 0 2; let p14 := P 0 3
  let p21 := P 1 0; let p22 := P 1 1; let p23 := P 1 2; let p24 := P 1 3
  let p31 := P 2 0; let p32 := P 2 1; let p33 := P 2 2; let p34 := P 2 3
  ![p11*p11*a*a+p12*p12*b*b+p13*p13*c*c+(-p11*p-p12*q-p13*r-p14)*(p11*p+p12*q+p13*r+p14),
    2*(p11*a*a*p21+p12*b*b*p22+p13*c*c*p23+(-p11*p-p12*q-p13*r-p14)*(p21*p+p22*q+p23*r+p24)),
    p21*p21*a*a+p22*p22*b*b+p23*p23*c*c+(-p21*p-p22*q-p23*r-p24)*(p21*p+p22*q+p23*r+p24),
    2*(p11*a*a*p31+p12*b*b*p32+p13*c*c*p33+(-p11*p-p12*q-p13*r-p14)*(p31*p+p32*q+p33*r+p34)),
    2*(p21*a*a*p31+p22*b*b*p32+p23*c*c*p33+(-p21*p-p22*q-p23*r-p24)*(p31*p+p32*q+p33*r+p34)),
    p31*p31*a*a+p32*p32*b*b+p33*p33*c*c+(-p31*p-p32*q-p33*r-p34)*(p31*p+p32*q+p33*r+p34)]

/-- `ProjectEllipsoid`, QuadricFunctors.h l.259-314. The lines 293-301 are those of `ConicInverse`. -/
def projectEllipsoid [DecidableEq K] (P : Mat K 3 4) (s : Vec K 6) : Option (Vec K 6) := Conic.inverse (ellipsoidLineConic P s)

/-- `ProjectSpheroid`, QuadricFunctors.h l.348-358: the third semi-axis is also the z-position. -/
def projectSpheroid [DecidableEq K] (P : Mat K 3 4) (s : Vec K 4) : Option (Vec K 6) :=
  projectEllipsoid P ![s 0, s 0, s 1, s 2, s 3, s 1]

end Quadric

end Ubitrack
