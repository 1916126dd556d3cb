import Mathlib.Data.Matrix.Basic
import Mathlib.LinearAlgebra.Matrix.Notation
import Mathlib.Analysis.SpecialFunctions.Trigonometric.Inverse

/-!
# Model of `utMath/Quaternion.h` and `utMath/Quaternion.cpp`

`double` is idealised: the algebraic part is over an arbitrary commutative ring `K`, the part
using `sqrt`, `sin`, `acos` is over the reals. Vectors are functions `Fin n → K`
(`v 0` models `v( 0 )`), matrices are Mathlib matrices (`m i j` models `m( i, j )`).
-/

namespace Ubitrack

/-- src/utMath/Vector.h l.60-220: a fixed-size vector, indexed from 0. -/
abbrev Vec (K : Type*) (n : ℕ) := Fin n → K

/-- src/utMath/Matrix.h l.77-261: a fixed-size matrix, indexed from 0. -/
abbrev Mat (K : Type*) (m n : ℕ) := Matrix (Fin m) (Fin n) K

/-- src/utMath/Quaternion.h l.59-141: wrapper of `boost::math::quaternion<double>`;
`x() = b`, `y() = c`, `z() = d` are the imaginary parts, `w() = a` is the real part.
The field order is that of the value constructor l.115 `Quaternion( x, y, z, w )`. -/
@[ext] structure Quat (K : Type*) where
  x : K
  y : K
  z : K
  w : K

namespace Quat

section Alg
variable {K : Type*} [CommRing K]

/-- src/utMath/Quaternion.h l.72-74: the default constructor, `( a, b, c, d ) = ( 1, 0, 0, 0 )`. -/
def one : Quat K := ⟨0, 0, 0, 1⟩

/-- The product inherited from `boost::math::quaternion<double>` (Hamilton product), used by
src/utMath/Pose.cpp l.49 and everywhere two quaternions are multiplied. Modelled from the
Boost documentation; Boost itself is not part of /repo. -/
def mul (p q : Quat K) : Quat K :=
  ⟨p.w * q.x + p.x * q.w + p.y * q.z - p.z * q.y,
   p.w * q.y - p.x * q.z + p.y * q.w + p.z * q.x,
   p.w * q.z + p.x * q.y - p.y * q.x + p.z * q.w,
   p.w * q.w - p.x * q.x - p.y * q.y - p.z * q.z⟩

/-- src/utMath/Quaternion.h l.165-167 `operator~` and l.156-159 `invert()`: both are
`boost::math::conj`. -/
def conj (q : Quat K) : Quat K := ⟨-q.x, -q.y, -q.z, q.w⟩

/-- `boost::math::norm`: the *squared* length (Boost calls this the Cayley norm). Used in
src/utMath/Quaternion.cpp l.283. -/
def normSq (q : Quat K) : K := q.w * q.w + q.x * q.x + q.y * q.y + q.z * q.z

/-- The four-dimensional dot product written out in src/utMath/Quaternion.h l.215 and
src/utMath/Quaternion.cpp l.293. -/
def dot (p q : Quat K) : K := p.x * q.x + p.y * q.y + p.z * q.z + p.w * q.w

/-- Negation of all four components, src/utMath/Quaternion.h l.219. -/
def neg (q : Quat K) : Quat K := ⟨-q.x, -q.y, -q.z, -q.w⟩

/-- src/utMath/Quaternion.cpp l.207-226: rotate a vector by a quaternion. -/
def rotate (q : Quat K) (vec : Vec K 3) : Vec K 3 :=
  let xy := q.x * q.y
  let xz := q.x * q.z
  let yz := q.y * q.z
  let ww := q.w * q.w
  let wx := q.w * q.x
  let wy := q.w * q.y
  let wz := q.w * q.z
  ![vec 0 * (2 * (q.x * q.x + ww) - 1) + vec 1 * 2 * (xy - wz) + vec 2 * 2 * (wy + xz),
    vec 0 * 2 * (xy + wz) + vec 1 * (2 * (q.y * q.y + ww) - 1) + vec 2 * 2 * (yz - wx),
    vec 0 * 2 * (xz - wy) + vec 1 * 2 * (wx + yz) + vec 2 * (2 * (q.z * q.z + ww) - 1)]

/-- src/utMath/Quaternion.h l.289-318: `toMatrix`, the upper-left 3x3 block it writes. -/
def toMatrix (q : Quat K) : Mat K 3 3 :=
  let X := q.x
  let Y := q.y
  let Z := q.z
  let W := q.w
  let xx := X * X
  let xy := X * Y
  let xz := X * Z
  let xw := X * W
  let yy := Y * Y
  let yz := Y * Z
  let yw := Y * W
  let zz := Z * Z
  let zw := Z * W
  !![1 - 2 * (yy + zz), 2 * (xy - zw), 2 * (xz + yw);
     2 * (xy + zw), 1 - 2 * (xx + zz), 2 * (yz - xw);
     2 * (xz - yw), 2 * (yz + xw), 1 - 2 * (xx + yy)]

/-- src/utMath/Quaternion.h l.253-261: `toVector`, order x, y, z, w. -/
def toVector (q : Quat K) : Vec K 4 := ![q.x, q.y, q.z, q.w]

/-- src/utMath/Quaternion.h l.267-269: `fromVector`, order x, y, z, w. -/
def fromVector (v : Vec K 4) : Quat K := ⟨v 0, v 1, v 2, v 3⟩

end Alg

/-- src/utMath/Quaternion.h l.213-220: `negateIfCloser`. -/
def negateIfCloser {K : Type*} [CommRing K] [LinearOrder K] (q ref : Quat K) : Quat K :=
  let prod := q.x * ref.x + q.y * ref.y + q.z * ref.z + q.w * ref.w
  if prod ≥ 0 then q else ⟨-q.x, -q.y, -q.z, -q.w⟩

noncomputable section

/-- `boost::math::abs` of a quaternion: the Euclidean length. -/
def abs (q : Quat ℝ) : ℝ := Real.sqrt q.normSq

/-- src/utMath/Quaternion.h l.147-150: `normalize()`. Division by zero length (which yields NaN
in C++) is excluded by the hypotheses of the theorems that use it. -/
def normalize (q : Quat ℝ) : Quat ℝ := ⟨q.x / q.abs, q.y / q.abs, q.z / q.abs, q.w / q.abs⟩

/-- `ublas::norm_2` of a 3-vector, used in src/utMath/Quaternion.h l.99 and
src/utMath/Quaternion.cpp l.252. -/
def norm3 (v : Vec ℝ 3) : ℝ := Real.sqrt (v 0 * v 0 + v 1 * v 1 + v 2 * v 2)

/-- src/utMath/Quaternion.h l.97-106: the axis-angle constructor. A zero axis (division by zero
in C++) is excluded by the hypotheses of the theorems. -/
def ofAxisAngle (axis : Vec ℝ 3) (angle : ℝ) : Quat ℝ :=
  let length := norm3 axis
  let s := Real.sin (angle / 2) / length
  ⟨axis 0 * s, axis 1 * s, axis 2 * s, Real.cos (angle / 2)⟩

/-- src/utMath/Quaternion.h l.76-90: the three-angle constructor. -/
def ofEuler (x y z : ℝ) : Quat ℝ :=
  let c1 := Real.cos (y / 2)
  let s1 := Real.sin (y / 2)
  let c2 := Real.cos (x / 2)
  let s2 := Real.sin (x / 2)
  let c3 := Real.cos (z / 2)
  let s3 := Real.sin (z / 2)
  let c1c2 := c1 * c2
  let s1s2 := s1 * s2
  { w := c1c2 * c3 - s1s2 * s3
    x := c1c2 * s3 + s1s2 * c3
    y := s1 * c2 * c3 + c1 * s2 * s3
    z := c1 * s2 * c3 - s1 * c2 * s3 }

/-- src/utMath/Quaternion.h l.179-180: `angle()`. -/
def angle (q : Quat ℝ) : ℝ := 2 * Real.arccos (if q.w > 0 then q.w else -q.w)

/-- src/utMath/Quaternion.h l.322-340: `toAxisAngle`, returning `( axis, angle )`. -/
def toAxisAngle (q : Quat ℝ) : Vec ℝ 3 × ℝ :=
  let angle := 2 * Real.arccos q.w
  let s := Real.sqrt (1 - q.w * q.w)
  if s < 0.001 then (![q.x, q.y, q.z], angle)
  else (![q.x / s, q.y / s, q.z / s], angle)

/-- src/utMath/Quaternion.cpp l.37-71: the four branches of the matrix constructor, before the
final `normalize()`. -/
def ofMatrixRaw (mat : Mat ℝ 3 3) : Quat ℝ :=
  let T := 1 + mat 0 0 + mat 1 1 + mat 2 2
  if T > 0 then
    let S := Real.sqrt T * 2
    { x := (mat 1 2 - mat 2 1) / S
      y := (mat 2 0 - mat 0 2) / S
      z := (mat 0 1 - mat 1 0) / S
      w := -(0.25 * S) }
  else if mat 0 0 > mat 1 1 ∧ mat 0 0 > mat 2 2 then
    let S := Real.sqrt (1 + mat 0 0 - mat 1 1 - mat 2 2) * 2
    { x := 0.25 * S
      y := (mat 0 1 + mat 1 0) / S
      z := (mat 2 0 + mat 0 2) / S
      w := -((mat 1 2 - mat 2 1) / S) }
  else if mat 1 1 > mat 2 2 then
    let S := Real.sqrt (1 + mat 1 1 - mat 0 0 - mat 2 2) * 2
    { x := (mat 0 1 + mat 1 0) / S
      y := 0.25 * S
      z := (mat 1 2 + mat 2 1) / S
      w := -((mat 2 0 - mat 0 2) / S) }
  else
    let S := Real.sqrt (1 + mat 2 2 - mat 0 0 - mat 1 1) * 2
    { x := (mat 2 0 + mat 0 2) / S
      y := (mat 1 2 + mat 2 1) / S
      z := 0.25 * S
      w := -((mat 0 1 - mat 1 0) / S) }

/-- src/utMath/Quaternion.cpp l.35-74: the rotation matrix constructor. Only the upper-left 3x3
block of the argument is read. -/
def ofMatrix (mat : Mat ℝ 3 3) : Quat ℝ := (ofMatrixRaw mat).normalize

/-- src/utMath/Quaternion.cpp l.229-247: `toLogarithm`. -/
def toLogarithm (q : Quat ℝ) : Vec ℝ 3 :=
  let s : ℝ := if q.w ≥ 0 then 1 else -1
  let omega := if q.w * s < 1 then 2 * Real.arccos (q.w * s) else 0
  let imagLen := Real.sqrt (q.x * q.x + q.y * q.y + q.z * q.z)
  if imagLen > 1e-12 then
    let s' := s * omega / imagLen
    ![q.x * s', q.y * s', q.z * s']
  else ![0, 0, 0]

/-- src/utMath/Quaternion.cpp l.250-260: `fromLogarithm`. -/
def fromLogarithm (v : Vec ℝ 3) : Quat ℝ :=
  let omega := norm3 v
  if omega > 1e-12 then
    let s := Real.sin (omega / 2) / omega
    ⟨s * v 0, s * v 1, s * v 2, Real.cos (omega / 2)⟩
  else ⟨0, 0, 0, 1⟩

/-- src/utMath/Quaternion.cpp l.277-315: the (possibly negated) first operand and the two
weights of `slerp`. -/
def slerpWeights (a b : Quat ℝ) (t : ℝ) : Quat ℝ × ℝ × ℝ :=
  let difference : Quat ℝ := ⟨a.x - b.x, a.y - b.y, a.z - b.z, a.w - b.w⟩
  let diffNorm := difference.normSq
  let x := if diffNorm > 2 then ⟨-a.x, -a.y, -a.z, -a.w⟩ else a
  let dotProduct := x.x * b.x + x.y * b.y + x.z * b.z + x.w * b.w
  if dotProduct > 0.9999 then (x, 1 - t, t)
  else
    let omega := Real.arccos dotProduct
    let sinOmega := Real.sin omega
    (x, Real.sin ((1 - t) * omega) / sinOmega, Real.sin (t * omega) / sinOmega)

/-- src/utMath/Quaternion.cpp l.275-325: `slerp` (also `linearInterpolate`, l.328-331). -/
def slerp (a b : Quat ℝ) (t : ℝ) : Quat ℝ :=
  let (x, w1, w2) := slerpWeights a b t
  let result : Quat ℝ := ⟨w1 * x.x + w2 * b.x, w1 * x.y + w2 * b.y,
    w1 * x.z + w2 * b.z, w1 * x.w + w2 * b.w⟩
  result.normalize

end

end Quat
end Ubitrack
