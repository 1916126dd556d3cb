import Verif.Model.Quaternion

/-!
# Functions with Jacobians: rotation of a vector

src/utAlgorithm/Function/QuaternionRotation.h, src/utAlgorithm/Function/QuaternionRotationError.h,
src/utMath/Optimization/Function/QuaternionVectorRotation.h, src/utTracking/Function/InvertRotationVelocity.h,
src/utAlgorithm/Function/LieRotation.h, src/utAlgorithm/Function/RotHecFunction.h,
src/utMath/Optimization/Function/RotationVelocityIntegration.h. The numbered temporaries of the code are kept.
-/

namespace Ubitrack

namespace RotationFunction

variable {K : Type*} [CommRing K]

/-- `QuaternionRotation::evaluate`, QuaternionRotation.h l.66-70. -/
def quaternionRotation (m_v : Vec K 3) (input : Vec K 4) : Vec K 3 := (Quat.fromVector input).rotate m_v

/-- `QuaternionRotation::jacobian`, QuaternionRotation.h l.89-136. -/
def quaternionRotationJacobian (m_v : Vec K 3) (input : Vec K 4) : Mat K 3 4 :=
  let qx := input 0
  let qy := input 1
  let qz := input 2
  let qw := input 3
  let x := m_v 0
  let y := m_v 1
  let z := m_v 2
  let t2 := qx * y * 2
  let t3 := qw * z * 2
  let t4 := qx * x * 2
  let t5 := qy * y * 2
  let t6 := qz * z * 2
  let t7 := t4 + t5 + t6
  let t8 := qw * x * 2
  let t9 := qy * z * 2
  let t15 := qz * y * 2
  let t10 := t8 + t9 - t15
  let t11 := qx * z * 2
  let t12 := qz * x * 2
  let t13 := qw * y * 2
  let t14 := -t11 + t12 + t13
  let t16 := qy * x * 2
  !![t7, t2 + t3 - qy * x * 2, t11 - qz * x * 2 - qw * y * 2, t10;
     -t2 - t3 + t16, t7, t10, t14;
     t14, -t8 - t9 + t15, t7, t2 + t3 - t16]

/-- `QuaternionVectorRotation::evaluate`, QuaternionVectorRotation.h l.51-66. -/
def quaternionVectorRotation (q : Vec K 4) (vec : Vec K 3) : Vec K 3 :=
  let xy := q 0 * q 1
  let xz := q 0 * q 2
  let yz := q 1 * q 2
  let ww := q 3 * q 3
  let wx := q 3 * q 0
  let wy := q 3 * q 1
  let wz := q 3 * q 2
  ![vec 0 * (2 * (q 0 * q 0 + ww) - 1) + vec 1 * 2 * (xy - wz) + vec 2 * 2 * (wy + xz),
    vec 0 * 2 * (xy + wz) + vec 1 * (2 * (q 1 * q 1 + ww) - 1) + vec 2 * 2 * (yz - wx),
    vec 0 * 2 * (xz - wy) + vec 1 * 2 * (wx + yz) + vec 2 * (2 * (q 2 * q 2 + ww) - 1)]

/-- `QuaternionVectorRotation::jacobian`, QuaternionVectorRotation.h l.86-126, first result. -/
def quaternionVectorRotationJacQ (q : Vec K 4) (vec : Vec K 3) : Mat K 3 4 :=
  let t257190 := q 1
  let t257188 := vec 0
  let t257187 := q 0
  let t257191 := vec 1
  let t257194 := vec 2
  let t257193 := q 2
  let t257199 := q 3
  let t257189 := 2 * t257187 * t257188
  let t257192 := 2 * t257190 * t257191
  let t257195 := 2 * t257193 * t257194
  let t257196 := t257189 + t257192 + t257195
  let t257206 := 2 * t257188 * t257199
  let t257207 := -2 * t257191 * t257193
  let t257208 := 2 * t257190 * t257194
  let t257209 := t257206 + t257207 + t257208
  let t257214 := 2 * t257188 * t257193
  let t257215 := 2 * t257191 * t257199
  let t257216 := -2 * t257187 * t257194
  let t257217 := t257214 + t257215 + t257216
  let t257197 := -2 * t257188 * t257190
  let t257198 := 2 * t257187 * t257191
  let t257200 := 2 * t257194 * t257199
  let t257201 := t257197 + t257198 + t257200
  !![t257196,
       t257201,
       -2 * t257188 * t257193 + 2 * t257187 * t257194 - 2 * t257191 * t257199,
       t257209;
     2 * t257188 * t257190 - 2 * t257187 * t257191 - 2 * t257194 * t257199,
       t257196,
       t257209,
       t257217;
     t257217,
       2 * t257191 * t257193 - 2 * t257190 * t257194 - 2 * t257188 * t257199,
       t257196,
       t257201]

/-- `QuaternionVectorRotation::jacobian`, QuaternionVectorRotation.h l.128-150, second result (does not depend on `vec`). -/
def quaternionVectorRotationJacVec (q : Vec K 4) : Mat K 3 3 :=
  let t257336 := q 1
  let t257339 := q 2
  let t257345 := q 3
  let t257343 := q 0
  let t257340 := t257339 * t257339
  let t257341 := -2 * t257340
  let t257356 := t257343 * t257343
  let t257357 := -2 * t257356
  let t257337 := t257336 * t257336
  let t257338 := -2 * t257337
  !![1 + t257338 + t257341,
       2 * t257336 * t257343 - 2 * t257339 * t257345,
       2 * (t257339 * t257343 + t257336 * t257345);
     2 * (t257336 * t257343 + t257339 * t257345),
       1 + t257341 + t257357,
       2 * t257336 * t257339 - 2 * t257343 * t257345;
     2 * t257339 * t257343 - 2 * t257336 * t257345,
       2 * (t257336 * t257339 + t257343 * t257345),
       1 + t257338 + t257357]

/-- `QuaternionRotationError::jacobian`, QuaternionRotationError.h l.66-96. -/
def quaternionRotationErrorJacobian (m_v : Vec K 3) (input : Vec K 4) : Mat K 3 3 :=
  let t203 := input 1
  let t201 := m_v 1
  let t200 := input 2
  let t204 := m_v 2
  let t208 := input 3
  let t199 := input 0
  let t215 := m_v 0
  let t218 := t203 * t203
  let t219 := 2 * t218
  let t220 := t200 * t200
  let t221 := 2 * t220
  let t222 := -1 + t219 + t221
  let t210 := t200 * t204
  let t232 := t199 * t199
  let t233 := 2 * t232
  let t234 := -1 + t221 + t233
  let t241 := t199 * t215
  let t209 := t201 * t203
  !![4 * (t199 * (t200 * t201 - t203 * t204) + t208 * (t209 + t210)),
       -2 * (2 * t199 * t200 * t215 + 2 * t203 * t208 * t215 + t204 * t222),
       4 * t199 * t203 * t215 - 4 * t200 * t208 * t215 + 2 * t201 * t222;
     4 * t200 * t201 * t203 - 4 * t199 * t201 * t208 + 2 * t204 * t234,
       4 * (t203 * (t199 * t204 - t200 * t215) + t208 * (t210 + t241)),
       -2 * (2 * t201 * (t199 * t203 + t200 * t208) + t215 * t234);
     -2 * (2 * t204 * (t200 * t203 + t199 * t208) + t201 * (-1 + t219 + t233)),
       4 * t204 * (t199 * t200 - t203 * t208) + t215 * (-2 + 4 * t218 + 4 * t232),
       4 * (t200 * (-(t199 * t201) + t203 * t215) + t208 * (t209 + t241))]

/-- `InvertRotationVelocity::evaluateWithJacobian`, InvertRotationVelocity.h l.59-76: the result. -/
def invertRotationVelocity (input : Vec K 7) : Vec K 3 :=
  quaternionVectorRotation ![input 0, input 1, input 2, input 3] ![-input 4, -input 5, -input 6]

/-- `InvertRotationVelocity::evaluateWithJacobian`, InvertRotationVelocity.h l.59-76: the Jacobian. -/
def invertRotationVelocityJacobian (input : Vec K 7) : Mat K 3 7 :=
  let q : Vec K 4 := ![input 0, input 1, input 2, input 3]
  let jRot := quaternionVectorRotationJacQ q ![-input 4, -input 5, -input 6]
  let jVel := quaternionVectorRotationJacVec q
  Matrix.of fun i j => if h : j.val < 4 then jRot i ⟨j, h⟩ else jVel i ⟨j.val - 4, by omega⟩ * -1

/-- `RotHecMeasurement::evaluateWithJacobian`, RotHecFunction.h l.56-62: the result `a x - x b`. -/
def rotHecMeasurement (m_a m_b : Quat K) (input : Vec K 4) : Vec K 4 :=
  let x := Quat.fromVector input
  let l := m_a.mul x
  let r := x.mul m_b
  ![l.x - r.x, l.y - r.y, l.z - r.z, l.w - r.w]

/-- `RotHecMeasurement::evaluateWithJacobian`, RotHecFunction.h l.64-83: the Jacobian. -/
def rotHecMeasurementJacobian (a b : Quat K) : Mat K 4 4 :=
  !![a.w - b.w, -a.z - b.z, a.y + b.y, a.x - b.x;
     a.z + b.z, a.w - b.w, -a.x - b.x, a.y - b.y;
     -a.y - b.y, a.x + b.x, a.w - b.w, a.z - b.z;
     -a.x + b.x, -a.y + b.y, -a.z + b.z, a.w - b.w]

/-- `RotHecCombine::jacobian`, RotHecFunction.h l.109-132: Jacobians of `a x - x b` with respect to `a` and `b`. -/
def rotHecCombineJacobians (x : Quat K) : Mat K 4 4 × Mat K 4 4 :=
  let jacobian1 : Mat K 4 4 :=
    !![x.w, x.z, -x.y, x.x;
       -x.z, x.w, x.x, x.y;
       x.y, -x.x, x.w, x.z;
       -x.x, -x.y, -x.z, x.w]
  (jacobian1, -jacobian1)

/-- `LieRotation::evaluate`, LieRotation.h l.64-68. -/
noncomputable def lieRotation (m_v : Vec ℝ 3) (input : Vec ℝ 3) : Vec ℝ 3 := (Quat.fromLogarithm input).rotate m_v

/-- `LieRotation::jacobian`, LieRotation.h l.98-110, the branch for small angles. -/
def lieRotationJacobianSmall (m_v : Vec ℝ 3) : Mat ℝ 3 3 :=
  !![0, m_v 2, -m_v 1;
     -m_v 2, 0, m_v 0;
     m_v 1, -m_v 0, 0]

/-- `LieRotation::jacobian`, LieRotation.h l.89-97, 111-207, the branch for other angles. The same code is in
src/utMath/Optimization/NewFunction/LieRotation.h l.61-179. -/
noncomputable def lieRotationJacobianLarge (m_v : Vec ℝ 3) (input : Vec ℝ 3) : Mat ℝ 3 3 :=
  let t51944 := input 0
  let t51945 := t51944 * t51944
  let t51946 := input 1
  let t51947 := t51946 * t51946
  let t51948 := input 2
  let t51949 := t51948 * t51948
  let t51950 := t51945 + t51947 + t51949
  let t51952 := Real.sqrt (t51950)
  let t51953 := Real.cos (t51952)
  let t51955 := m_v 1
  let t51957 := m_v 2
  let t51963 := t51946 * t51955
  let t51964 := t51948 * t51957
  let t51965 := t51963 + t51964
  let t51962 := t51947 + t51949
  let t51967 := Real.sin (t51952)
  let t51971 := m_v 0
  let t51956 := -(t51948 * t51955)
  let t51958 := t51946 * t51957
  let t51951 := 1 / (t51950 * t51950)
  let t51954 := t51944 * t51944 * t51944
  let t51959 := t51956 + t51958
  let t52004 := -t51949
  let t52001 := 2 * t51971
  let t52002 := t51956 + t51958 + t52001
  let t51961 := -1 + t51953
  let t52058 := -(t51946 * t51971)
  let t52015 := t51948 * t51948 * t51948
  let t51984 := t51946 * t51946 * t51946
  let t52022 := t51944 * t51971
  let t52023 := t51963 + t52022
  let t52024 := -2 * t51948 * t52023
  let t52025 := t51945 + t51947 + t52004
  let t52026 := t51957 * t52025
  let t52027 := t52024 + t52026
  let t52045 := (t51944 * t51944) * (t51944 * t51944)
  let t52042 := -(t51952 * t51955 * t51967)
  let t52083 := -(t51948 * t51971)
  let t52090 := t51948 * t51971
  let t52048 := t51952 * t51957 * t51967
  let t52059 := t51946 * t51952 * t51967 * t51971
  let t51988 := t51946 * t51948 * t51952 * t51955 * t51967
  let t52110 := t51944 * t51946 * t51948 * t51952 * t51967 * t51971
  let t51974 := -(t51949 * t51952 * t51967 * t51971)
  let t51992 := -2 * t51944 * t51946 * t51971
  let t51993 := t51945 * t51955
  let t51994 := -(t51947 * t51955)
  let t51995 := t51949 * t51955
  let t51996 := -2 * t51946 * t51948 * t51957
  let t51997 := t51992 + t51993 + t51994 + t51995 + t51996
  let t52139 := t51955 * t51962
  let t52067 := t51954 * t51971
  let t52191 := t51956 + t51971
  let t52167 := t51948 * t51955
  let t52198 := t51955 + t52090
  let t52007 := 2 * t51946 * t51948 * t51957
  !![t51951 * (t51953 * t51954 * t51959 - t51961 * t51962 * t51965 + t51945 * t51965 * (-1 + t51953 + t51952 * t51967) + t51944 * (t51948 * t51952 * t51955 * t51967 - t51946 * t51952 * t51957 * t51967 + t51953 * t51962 * (t51956 + t51958 - 2 * t51971) + 2 * t51962 * t51971 - t51947 * t51952 * t51967 * t51971 + t51974)),
       t51951 * (t51944 * t51947 * t51952 * t51955 * t51967 + t51945 * t51952 * t51957 * t51967 + t51944 * t51946 * t51948 * t51952 * t51957 * t51967 + t51949 * t51952 * t51957 * t51967 - t51946 * t51949 * t51952 * t51967 * t51971 - t51952 * t51967 * t51971 * t51984 + t51988 + t51944 * t51997 + t51953 * (-(t51954 * t51955) + t51946 * t51959 * t51962 + t51945 * t51946 * t52002 + t51944 * (t51955 * (t51947 + t52004) + t52007))),
       t51951 * (-(t51945 * t51952 * t51955 * t51967) - t51947 * t51952 * t51955 * t51967 + t51944 * t51946 * t51948 * t51952 * t51955 * t51967 - t51946 * t51948 * t51952 * t51957 * t51967 + t51944 * t51949 * t51952 * t51957 * t51967 - t51947 * t51948 * t51952 * t51967 * t51971 + t51953 * (-(t51954 * t51957) + t51944 * (2 * t51946 * t51948 * t51955 - t51947 * t51957 + t51949 * t51957) + t51948 * t51959 * t51962 + t51945 * t51948 * t52002) - t51952 * t51967 * t51971 * t52015 + t51944 * t52027);
     t51951 * (t51944 * (2 * t51946 * t51961 * t51965 - t51949 * t51952 * t51955 * t51967 + t51946 * t51948 * t51952 * t51957 * t51967 + t51948 * t51953 * t51962 * t51971 - t51948 * t51952 * t51967 * t51971) + t51954 * (t51948 * t51953 * t51971 + t52042) - t51953 * t51957 * t52045 - t51962 * (t51946 * t51961 * t51971 + t52048) + t51945 * (t52058 - t51953 * (t51957 * t51962 + t52058) + t52059)),
       t51951 * (2 * t51945 * t51946 * t51955 + 2 * t51946 * t51949 * t51955 + t51945 * t51948 * t51957 - t51947 * t51948 * t51957 - t51945 * t51946 * t51952 * t51955 * t51967 - t51946 * t51949 * t51952 * t51955 * t51967 + t51944 * t51946 * t51952 * t51957 * t51967 + t51947 * t51948 * t51952 * t51957 * t51967 - t51944 * t51947 * t51971 + t51944 * t51949 * t51971 + t51944 * t51947 * t51952 * t51967 * t51971 - t51946 * t51948 * t51952 * t51967 * t51971 + t51957 * t52015 + t52067 - t51953 * (t51954 * (t51958 + t51971) + t51944 * (t51946 * t51957 * t51962 + (-t51947 + t51949) * t51971) + t51945 * (t51964 + t51946 * (2 * t51955 + t52083)) - t51948 * (t51947 * t51957 - t51949 * t51957 + t51971 * t51984 + t51946 * t51948 * (-2 * t51955 + t52090)))),
       t51951 * (-(t51945 * t51948 * t51952 * t51955 * t51967) + t51944 * t51948 * t51952 * t51957 * t51967 + t51946 * t51949 * t51952 * t51957 * t51967 + t51945 * t51952 * t51967 * t51971 + t51947 * t51952 * t51967 * t51971 - t51952 * t51955 * t51967 * t52015 + t51953 * (-(t51957 * (t51945 * t51946 - t51946 * t51949 + t51948 * t51954 + t51944 * t51948 * t51962 + t51984)) + t51948 * (2 * t51947 * t51955 + t51971 * (2 * t51944 * t51946 + (t51945 + t51947) * t51948 + t52015))) + t51946 * t52027 + t52110);
     t51951 * (-(t51962 * (t51948 * t51961 * t51971 + t52042)) + t51953 * t51955 * t52045 - t51954 * (t51946 * t51953 * t51971 + t52048) + t51944 * (2 * t51948 * t51961 * t51965 - t51947 * t51952 * t51957 * t51967 - t51946 * t51953 * t51962 * t51971 + t51988 + t52059) + t51945 * (t51948 * t51952 * t51967 * t51971 + t52083 + t51953 * (t52090 + t52139))),
       t51951 * (-(t51944 * t51946 * t51952 * t51955 * t51967) + t51947 * t51948 * t51952 * t51955 * t51967 - t51945 * t51946 * t51952 * t51957 * t51967 - t51945 * t51952 * t51967 * t51971 + t51974 - t51952 * t51957 * t51967 * t51984 + t51948 * t51997 + t52110 + t51953 * (t51946 * t51954 * t51955 + 2 * t51946 * t51949 * t51957 - t51955 * t52015 + t51947 * t51948 * (t51955 + t52083) + t51944 * t51946 * (2 * t51948 * t51971 + t52139) - t51945 * (t51947 * t51971 + t52167) - t51971 * (t51946 * t51946) * (t51946 * t51946))),
       t51951 * (t51945 * t51946 * t51955 - t51946 * t51949 * t51955 + 2 * t51945 * t51948 * t51957 + 2 * t51947 * t51948 * t51957 - t51944 * t51948 * t51952 * t51955 * t51967 + t51946 * t51949 * t51952 * t51955 * t51967 - t51945 * t51948 * t51952 * t51957 * t51967 - t51947 * t51948 * t51952 * t51957 * t51967 + t51944 * t51947 * t51971 - t51944 * t51949 * t51971 + t51946 * t51948 * t51952 * t51967 * t51971 + t51944 * t51949 * t51952 * t51967 * t51971 + t51955 * t51984 + t52067 - t51953 * (t51954 * t52191 + t51944 * (-(t51949 * (t51971 + t52167)) + t51947 * t52191) + t51945 * (2 * t51948 * t51957 + t51946 * t52198) + t51946 * (t52007 + t51949 * (-t51955 + t52090) + t51947 * t52198)))]

open Classical in
/-- `LieRotation::jacobian`, LieRotation.h l.87-208. -/
noncomputable def lieRotationJacobian (m_v : Vec ℝ 3) (input : Vec ℝ 3) : Mat ℝ 3 3 :=
  if Real.sqrt (input 0 * input 0 + input 1 * input 1 + input 2 * input 2) < 1e-6 then lieRotationJacobianSmall m_v
  else lieRotationJacobianLarge m_v input

open Classical in
/-- `RotationVelocityIntegration::evaluate`, RotationVelocityIntegration.h l.69-81. -/
noncomputable def rotationVelocityIntegration (m_dt : ℝ) (q : Vec ℝ 3) : Vec ℝ 4 :=
  let fNorm := Real.sqrt (q 0 * q 0 + q 1 * q 1 + q 2 * q 2)
  let s := if |fNorm * m_dt| > 1e12 then Real.sin (fNorm * m_dt * 0.5) / fNorm else m_dt * 0.5
  ![q 0 * s, q 1 * s, q 2 * s, Real.cos (fNorm * m_dt * 0.5)]

/-- `RotationVelocityIntegration::jacobian`, RotationVelocityIntegration.h l.100-106. -/
noncomputable def rotationVelocityIntegrationJacobian (m_dt : ℝ) (v : Vec ℝ 3) : Mat ℝ 4 3 :=
  !![m_dt * 0.5, 0, 0;
     0, m_dt * 0.5, 0;
     0, 0, m_dt * 0.5;
     m_dt * -0.25 * v 0, m_dt * -0.25 * v 1, m_dt * -0.25 * v 2]

end RotationFunction

end Ubitrack
