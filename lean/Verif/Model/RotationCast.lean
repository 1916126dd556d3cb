import Verif.Model.Quaternion
import Mathlib.Analysis.SpecialFunctions.Complex.Arg

/-!
# Conversions between representations of rotations

src/utMath/Util/RotationCast.h and the Euler angles of src/utMath/Quaternion.cpp, with real numbers. `none` stands for a result
with components that are not numbers or infinite. Where the code tests for such a value (`angle != angle`), the model tests
for the condition under which it arises.
-/

namespace Ubitrack.RotationCast

/-- `RotationCast< Quaternion >` from a matrix, RotationCast.h l.96-111. -/
noncomputable def matrixToQuat (matrix : Mat ℝ 3 3) : Quat ℝ :=
  let m00div4 := matrix 0 0 / 4
  let m11div4 := matrix 1 1 / 4
  let m22div4 := matrix 2 2 / 4
  let qw := Real.sqrt (max 0 (0.25 + m00div4 + m11div4 + m22div4))
  let qxt := Real.sqrt (max 0 (0.25 + m00div4 - m11div4 - m22div4))
  let qyt := Real.sqrt (max 0 (0.25 - m00div4 + m11div4 - m22div4))
  let qzt := Real.sqrt (max 0 (0.25 - m00div4 - m11div4 + m22div4))
  let qx := if matrix 2 1 - matrix 1 2 < 0 then -qxt else qxt
  let qy := if matrix 0 2 - matrix 2 0 < 0 then -qyt else qyt
  let qz := if matrix 1 0 - matrix 0 1 < 0 then -qzt else qzt
  ⟨qx, qy, qz, qw⟩

/-- `RotationCast< Quaternion >` from axis and angle, RotationCast.h l.113-125. -/
noncomputable def axisAngleToQuat (axisAngle : Vec ℝ 4) : Quat ℝ :=
  let angle := axisAngle 3
  let halfAngle := angle / 2
  let sinHalfAngle := Real.sin halfAngle
  ⟨axisAngle 0 * sinHalfAngle, axisAngle 1 * sinHalfAngle, axisAngle 2 * sinHalfAngle, Real.cos halfAngle⟩

/-- `RotationCast< Quaternion >` from a rotation vector, RotationCast.h l.127-142. -/
noncomputable def vectorToQuat (axisAngle : Vec ℝ 3) : Quat ℝ :=
  let x := axisAngle 0
  let y := axisAngle 1
  let z := axisAngle 2
  let angle := Real.sqrt (x * x + y * y + z * z)
  if angle < 1e-10 then ⟨0, 0, 0, 1⟩
  else axisAngleToQuat ![axisAngle 0 / angle, axisAngle 1 / angle, axisAngle 2 / angle, angle]

/-- `RotationCast< Vector< T, 4 > >` from a quaternion, RotationCast.h l.166-174; `none`: the arc cosine of a number beyond one,
or a division by zero. -/
noncomputable def quatToAxisAngle (quat : Quat ℝ) : Option (Vec ℝ 4) :=
  let angle := 2 * Real.arccos quat.w
  let divisor := Real.sqrt (1 - quat.w * quat.w)
  if 1 - quat.w * quat.w ≤ 0 then none
  else some ![quat.x / divisor, quat.y / divisor, quat.z / divisor, angle]

/-- `RotationCast< Vector< T, 4 > >` from a rotation vector, RotationCast.h l.176-186. -/
noncomputable def vectorToAxisAngle (rotAxis : Vec ℝ 3) : Vec ℝ 4 :=
  let x := rotAxis 0
  let y := rotAxis 1
  let z := rotAxis 2
  let angle := Real.sqrt (x * x + y * y + z * z)
  if angle < 1e-10 then ![0, 0, 0, 0] else ![x / angle, y / angle, z / angle, angle]

/-- `RotationCast< Vector< T, 4 > >` from a matrix, RotationCast.h l.190-214; `none`: a division by zero. -/
noncomputable def matrixToAxisAngle (matrix : Mat ℝ 3 3) : Option (Vec ℝ 4) :=
  let c := (matrix 0 0 + matrix 1 1 + matrix 2 2 - 1) / 2
  let angle := Real.arccos c
  if c < -1 ∨ 1 < c ∨ angle < 1e-10 then some ![0, 0, 0, 0]
  else
    let m2112 := matrix 2 1 - matrix 1 2
    let m0220 := matrix 0 2 - matrix 2 0
    let m1001 := matrix 1 0 - matrix 0 1
    let divisor := Real.sqrt (m2112 * m2112 + m0220 * m0220 + m1001 * m1001)
    if divisor = 0 then none else some ![m2112 / divisor, m0220 / divisor, m1001 / divisor, angle]

/-- `RotationCast< Vector< T, 3 > >` from axis and angle, RotationCast.h l.248-259. -/
noncomputable def axisAngleToVector (axisAngle : Vec ℝ 4) : Vec ℝ 3 :=
  let x := axisAngle 0
  let y := axisAngle 1
  let z := axisAngle 2
  let a := axisAngle 3
  let dst := Real.sqrt (x * x + y * y + z * z)
  if dst < 1e-10 then ![0, 0, 0] else ![a * x / dst, a * y / dst, a * z / dst]

/-- `RotationCast< Vector< T, 3 > >` from a quaternion, RotationCast.h l.261-265. If the axis and angle are not numbers, the
length is not a number and the zero vector is returned; with three infinite components (`none`) the length is infinite. -/
noncomputable def quatToVector (quat : Quat ℝ) : Option (Vec ℝ 3) :=
  match quatToAxisAngle quat with
  | some axisAngle => some (axisAngleToVector axisAngle)
  | none => if quat.w * quat.w = 1 ∧ quat.x ≠ 0 ∧ quat.y ≠ 0 ∧ quat.z ≠ 0 then none else some ![0, 0, 0]

/-- `RotationCast< Vector< T, 3 > >` from a matrix, RotationCast.h l.267-272. The division by zero in the cast to axis and angle
is zero by zero, so that the length is not a number and the zero vector is returned. -/
noncomputable def matrixToVector (matrix : Mat ℝ 3 3) : Vec ℝ 3 :=
  match matrixToAxisAngle matrix with
  | some axisAngle => axisAngleToVector axisAngle
  | none => ![0, 0, 0]

/-- `RotationCast< Matrix >` from a quaternion, the upper left 3x3 block, RotationCast.h l.300-326. -/
def quatToMatrix (other : Quat ℝ) : Mat ℝ 3 3 :=
  let ww := other.w * other.w
  let xx := other.x * other.x
  let yy := other.y * other.y
  let zz := other.z * other.z
  let xy := other.x * other.y
  let yz := other.y * other.z
  let zx := other.z * other.x
  let wx := other.w * other.x
  let wy := other.w * other.y
  let wz := other.w * other.z
  !![ww + xx - yy - zz, 2 * (xy - wz), 2 * (zx + wy);
     2 * (xy + wz), ww - xx + yy - zz, 2 * (yz - wx);
     2 * (zx - wy), 2 * (yz + wx), ww - xx - yy + zz]

/-- `RotationCast< Matrix >` from axis and angle, the upper left 3x3 block, RotationCast.h l.343-374. -/
noncomputable def axisAngleToMatrix (axisAngle : Vec ℝ 4) : Mat ℝ 3 3 :=
  let rx := axisAngle 0
  let ry := axisAngle 1
  let rz := axisAngle 2
  let c := Real.cos (axisAngle 3)
  let s := Real.sin (axisAngle 3)
  let t := 1 - c
  let tmp1 := rx * ry * t
  let tmp2 := rz * s
  let tmp3 := rz * rx * t
  let tmp4 := ry * s
  let tmp5 := ry * rz * t
  let tmp6 := rx * s
  !![c + rx * rx * t, tmp1 - tmp2, tmp3 + tmp4;
     tmp1 + tmp2, c + ry * ry * t, tmp5 - tmp6;
     tmp3 - tmp4, tmp5 + tmp6, c + rz * rz * t]

/-- `RotationCast< Matrix >` from a rotation vector, RotationCast.h l.376-380. -/
noncomputable def vectorToMatrix (rotAxis : Vec ℝ 3) : Mat ℝ 3 3 := axisAngleToMatrix (vectorToAxisAngle rotAxis)

/-! ## Euler angles -/

/-- `atan2` of the standard library. -/
noncomputable def atan2 (y x : ℝ) : ℝ := Complex.arg ⟨x, y⟩

/-- `Quaternion::getEulerAngles()`, src/utMath/Quaternion.cpp l.85-129. -/
noncomputable def getEulerAnglesKuka (q : Quat ℝ) : Vec ℝ 3 :=
  let m := q.toMatrix
  let sy := -m 2 0
  let sy := if sy > 1 then 1 else sy
  let sy := if sy < -1 then -1 else sy
  let ry := Real.arcsin sy
  let cy := Real.cos ry
  if |cy| > 10e-6 then
    let rx := atan2 (m 2 1 / cy) (m 2 2 / cy)
    let rz := atan2 (m 1 0 / cy) (m 0 0 / cy)
    ![rx, ry, rz]
  else ![0, ry, atan2 (-m 0 1) (m 1 1)]

/-- `Quaternion::t_EulerSequence`, src/utMath/Quaternion.h. -/
inductive Sequence
  | xyz | yzx | zxy | zyx | xzy | yxz

/-- The assignment of the variables `x_`, `y_`, `z_` and `sign`, src/utMath/Quaternion.cpp l.145-174. -/
def select (q : Quat ℝ) : Sequence → ℝ × ℝ × ℝ × ℝ
  | .xyz => (q.x, q.y, q.z, -1)
  | .yzx => (q.y, q.z, q.x, -1)
  | .zxy => (q.z, q.x, q.y, -1)
  | .zyx => (q.z, q.y, q.x, 1)
  | .xzy => (q.x, q.z, q.y, 1)
  | .yxz => (q.y, q.x, q.z, 1)

/-- `Quaternion::getEulerAngles( seq )`, src/utMath/Quaternion.cpp l.138-203. -/
noncomputable def getEulerAngles (q : Quat ℝ) (seq : Sequence) : Vec ℝ 3 :=
  let (x_, y_, z_, sign) := select q seq
  let w_ := q.w
  let beta := 2 * (w_ * y_ + sign * x_ * z_)
  if beta > 0.998 then ![2 * atan2 x_ w_, Real.pi / 2, 0]
  else if beta < -0.998 then ![-2 * atan2 x_ w_, -Real.pi / 2, 0]
  else
    ![atan2 (2 * (w_ * x_ - sign * y_ * z_)) (1 - 2 * (x_ * x_ + y_ * y_)), Real.arcsin beta,
      atan2 (2 * (w_ * z_ - sign * x_ * y_)) (1 - 2 * (y_ * y_ + z_ * z_))]

end Ubitrack.RotationCast
