import Verif.Model.Tracking

/-!
# The Kalman filters of utTracking as state machines

src/utTracking/PoseKalmanFilter.cpp, RotationOnlyKf.cpp. Numbers are exact. An operation returns `none` where the code
divides by zero (normalising a zero quaternion, inverting a singular innovation covariance, src/utMath/Stochastic/Kalman.h
l.103-118, where the status of the general inversion is not checked) or throws.
-/

namespace Ubitrack

namespace Tracking

open RotationFunction FunctionComposition Stochastic
open scoped Matrix

variable {n m k : ℕ}

/-- `kalmanMeasurementUpdate` with the singular case apart. -/
noncomputable def checkedUpdate (f : Functor ℝ m k) (state : ErrorVector ℝ n) (meas : ErrorVector ℝ m) (ib : ℕ) (hi : ib + k ≤ n) :
    Option (ErrorVector ℝ n) :=
  let jacobian := (f fun i => state.value (sub ib hi i)).2
  if (jacobian * state.covariance.submatrix (sub ib hi) (sub ib hi) * jacobianᵀ + meas.covariance).det = 0 then none
  else some (kalmanUpdate f state meas ib hi)

/-- `kalmanMeasurementUpdateIdentity` with the singular case apart. -/
noncomputable def checkedUpdateIdentity (state : ErrorVector ℝ n) (meas : ErrorVector ℝ m) (ib : ℕ) (hi : ib + m ≤ n) :
    Option (ErrorVector ℝ n) :=
  if (state.covariance.submatrix (sub ib hi) (sub ib hi) + meas.covariance).det = 0 then none
  else some (kalmanUpdateIdentity state meas ib hi)

/-- `transformRangeInternalWithCovariance( VectorNormalize( 4 ), state, ib, ib + 4, ib, ib + 4 )`, PoseKalmanFilter.cpp l.242,
RotationOnlyKf.cpp l.80, 98. -/
noncomputable def normalizeQuat (state : ErrorVector ℝ n) (ib : ℕ) (hi : ib + 4 ≤ n) : Option (ErrorVector ℝ n) :=
  if ∀ i : Fin 4, state.value (sub ib hi i) = 0 then none
  else some (transformRange (fun x : Vec ℝ 4 => (vectorNormalize x, vectorNormalizeJacobian x)) state ib ib hi)

/-- `ublas::subrange( v, b, b + k ) = w`. -/
def setSub (v : Vec ℝ n) (b : ℕ) (w : Vec ℝ k) : Vec ℝ n := fun i => match loc b k i with
  | some a => w a
  | none => v i

/-! ## RotationOnlyKF -/

/-- The members of `RotationOnlyKF`: quaternion and angular velocity with covariance, and the time of the last measurement. -/
structure RotationFilter where
  state : ErrorVector ℝ 7
  time : BitVec 64

namespace RotationFilter

/-- `RotationOnlyKF::RotationOnlyKF`, RotationOnlyKf.cpp l.51-59. -/
noncomputable def init : RotationFilter := ⟨⟨![0, 0, 0, 1, 0, 0, 0], 1⟩, 0⟩

/-- `Function::QuaternionTimeUpdate( dt )` as a function object. -/
noncomputable def quaternionFunctor (dt : ℝ) : Functor ℝ 4 7 := fun x =>
  (fun i => quaternionTimeUpdate dt 1 (fun _ => vecBuf x) 0 (fun _ => 0) i,
   Matrix.of fun i j => quaternionTimeUpdateJac dt 1 0 (vecBuf x) (fun _ _ => 0) i j)

/-- `RotationOnlyKF::timeUpdate`, RotationOnlyKf.cpp l.102-123. -/
noncomputable def timeUpdate (f : RotationFilter) (t : BitVec 64) : RotationFilter :=
  if f.time = 0 then ⟨f.state, t⟩ else
  let dt := signedSeconds t f.time
  let s := transformRange (quaternionFunctor dt) f.state 0 0 (by omega)
  let fAbsNoise := 0.001 * (dt * dt)
  let fVelNoise := 4 * (dt * dt)
  ⟨⟨s.value, Matrix.of fun i j => s.covariance i j +
    if i = j then (if i.val < 4 then fAbsNoise else fVelNoise) else 0⟩, t⟩

/-- The quaternion of the state. -/
def quat (f : RotationFilter) : Quat ℝ := Quat.fromVector fun i => f.state.value (sub 0 (by omega) i)

/-- `RotationOnlyKF::addRotationMeasurement`, RotationOnlyKf.cpp l.62-81. -/
noncomputable def addRotation (f : RotationFilter) (q : Quat ℝ) (t : BitVec 64) : Option RotationFilter :=
  let f := if f.time = 0 then ⟨⟨setSub f.state.value 0 q.toVector, f.state.covariance⟩, f.time⟩ else f
  let f := f.timeUpdate t
  let v : ErrorVector ℝ 4 := ⟨(q.negateIfCloser f.quat).toVector, (0.004 : ℝ) • 1⟩
  do
    let s ← checkedUpdateIdentity f.state v 0 (by omega)
    let s ← normalizeQuat s 0 (by omega)
    pure ⟨s, f.time⟩

/-- `RotationOnlyKF::addVelocityMeasurement`, RotationOnlyKf.cpp l.84-99. -/
noncomputable def addVelocity (f : RotationFilter) (w : Vec ℝ 3) (t : BitVec 64) : Option RotationFilter :=
  let f := f.timeUpdate t
  let v : ErrorVector ℝ 3 := ⟨w, (0.00001 : ℝ) • 1⟩
  do
    let s ← checkedUpdateIdentity f.state v 4 (by omega)
    let s ← normalizeQuat s 0 (by omega)
    pure ⟨s, f.time⟩

/-- `RotationOnlyKF::predict`, RotationOnlyKf.cpp l.126-133. -/
noncomputable def predict (f : RotationFilter) (t : BitVec 64) : Quat ℝ :=
  let dt := unsignedSeconds t f.time
  (Quat.fromVector (transformWithCovariance (quaternionFunctor dt) f.state).value).normalize

end RotationFilter

/-! ## PoseKalmanFilter -/

/-- The members of `PoseKalmanFilter`; `pn` are the process noise variances of the motion model. -/
structure PoseFilter (np nr : ℕ) where
  insideOut : Bool
  pn : ℕ → ℝ
  state : ErrorVector ℝ (stateSize np nr)
  time : BitVec 64

theorem stateSize_quat {np nr : ℕ} (h : 0 < nr) : 3 * np + 4 ≤ stateSize np nr := by
  unfold stateSize
  rw [if_pos h]
  omega

theorem stateSize_velocity {np nr : ℕ} (h : 1 < nr) : 3 * np + 7 ≤ stateSize np nr := by
  unfold stateSize
  rw [if_pos (by omega)]
  omega

namespace PoseFilter

variable {np nr : ℕ}

/-- `PoseKalmanFilter::PoseKalmanFilter`, PoseKalmanFilter.cpp l.79-92. `posOrder() > 1` is `np > 2`, `oriOrder() != 1` is `nr ≠ 2`. -/
noncomputable def init (np nr : ℕ) (insideOut : Bool) (pn : ℕ → ℝ) : Option (PoseFilter np nr) :=
  if insideOut ∧ (np > 2 ∨ nr ≠ 2) then none
  else some ⟨insideOut, pn, ⟨fun i => if 0 < nr ∧ i.val = 3 + 3 * np then 1 else 0, 1⟩, 0⟩

/-- `PoseKalmanFilter::timeUpdate`, PoseKalmanFilter.cpp l.208-233. -/
noncomputable def timeUpdate (f : PoseFilter np nr) (t : BitVec 64) : PoseFilter np nr :=
  if f.time = 0 ∨ f.time = t then { f with time := t } else
  let dt := signedSeconds t f.time
  let s := transformWithCovariance (poseFunctor f.insideOut dt np nr) f.state
  { f with state := ⟨s.value, addNoise f.pn s.covariance dt⟩, time := t }

/-- `PoseMeasurement`, PoseKalmanFilter.cpp l.55-73. -/
def poseMeasurement (np : ℕ) : Functor ℝ 7 (3 * np + 4) := fun input =>
  (fun i => vecBuf input (if i.val < 3 then i.val else 3 * np + (i.val - 3)),
   Matrix.of fun i j =>
    if i.val < 3 then (if j.val < 3 ∧ i.val = j.val then 1 else 0)
    else if j.val < 3 * np then 0 else if i.val - 3 = j.val - 3 * np then 1 else 0)

/-- `PoseKalmanFilter::normalize`, PoseKalmanFilter.cpp l.236-266. -/
noncomputable def normalize (f : PoseFilter np nr) : Option (PoseFilter np nr) := do
  let s ← if h : 0 < nr then normalizeQuat f.state (3 * np) (stateSize_quat h) else some f.state
  let value : Vec ℝ (stateSize np nr) := if h : 1 < nr then
      if Quat.norm3 (fun k => s.value (sub (3 * np + 4) (stateSize_velocity h) k)) > 10 then
        fun i => if 3 * np + 4 ≤ i.val then 0 else s.value i
      else s.value
    else s.value
  some { f with state := ⟨value, s.covariance⟩ }

/-- `rotSubState`. -/
def quat (f : PoseFilter np nr) (h : 0 < nr) : Quat ℝ := Quat.fromVector fun i => f.state.value (sub (3 * np) (stateSize_quat h) i)

/-- The sign change of a measured quaternion, PoseKalmanFilter.cpp l.119-120, 149-150. -/
noncomputable def hemisphere (s z : Vec ℝ 4) : Vec ℝ 4 :=
  if s 0 * z 0 + s 1 * z 1 + s 2 * z 2 + s 3 * z 3 < 0 then fun i => z i * -1 else z

/-- `PoseKalmanFilter::addPoseMeasurement`, PoseKalmanFilter.cpp l.95-127. The condition of the assertion is a parameter. -/
noncomputable def addPose (_hp : 0 < np) (hr : 0 < nr) (f : PoseFilter np nr) (p : ErrorPose ℝ) (t : BitVec 64) : Option (PoseFilter np nr) :=
  let f := if f.time = 0 then
      { f with state := ⟨setSub (setSub f.state.value 0 p.toPose.translation) (3 * np) p.toPose.rotation.toVector, f.state.covariance⟩ }
    else f
  let f := f.timeUpdate t
  let v := p.toAdditive
  let z := hemisphere (f.quat hr).toVector ![v.value 3, v.value 4, v.value 5, v.value 6]
  let v : ErrorVector ℝ 7 := ⟨![v.value 0, v.value 1, v.value 2, z 0, z 1, z 2, z 3], v.covariance⟩
  do
    let s ← checkedUpdate (poseMeasurement np) f.state v 0 (by have := stateSize_quat (np := np) hr; omega)
    normalize { f with state := s }

/-- `PoseKalmanFilter::addRotationMeasurement`, PoseKalmanFilter.cpp l.130-157. -/
noncomputable def addRotation (hr : 0 < nr) (f : PoseFilter np nr) (q : Quat ℝ) (t : BitVec 64) : Option (PoseFilter np nr) :=
  let f := if f.time = 0 then { f with state := ⟨setSub f.state.value (3 * np) q.toVector, f.state.covariance⟩ } else f
  let f := f.timeUpdate t
  let v : ErrorVector ℝ 4 := ⟨hemisphere (f.quat hr).toVector q.toVector, (0.004 : ℝ) • 1⟩
  do
    let s ← checkedUpdateIdentity f.state v (3 * np) (stateSize_quat hr)
    normalize { f with state := s }

/-- `PoseKalmanFilter::addRotationVelocityMeasurement`, PoseKalmanFilter.cpp l.160-181. -/
noncomputable def addRotationVelocity (hr : 1 < nr) (f : PoseFilter np nr) (w : Vec ℝ 3) (t : BitVec 64) : Option (PoseFilter np nr) :=
  if f.time = 0 then some f else
  let f := f.timeUpdate t
  let v : ErrorVector ℝ 3 := ⟨w, (1e-11 : ℝ) • 1⟩
  do
    let s ← checkedUpdateIdentity f.state v (3 * np + 4) (stateSize_velocity hr)
    normalize { f with state := s }

/-- `PoseKalmanFilter::addInverseRotationVelocityMeasurement`, PoseKalmanFilter.cpp l.184-205. -/
noncomputable def addInverseRotationVelocity (hr : 1 < nr) (f : PoseFilter np nr) (w : Vec ℝ 3) (t : BitVec 64) : Option (PoseFilter np nr) :=
  if f.time = 0 then some f else
  let f := f.timeUpdate t
  let v : ErrorVector ℝ 3 := ⟨w, (1e-11 : ℝ) • 1⟩
  do
    let s ← checkedUpdate (fun x : Vec ℝ 7 => (invertRotationVelocity x, invertRotationVelocityJacobian x)) f.state v (3 * np) (stateSize_velocity hr)
    normalize { f with state := s }

/-- `PoseKalmanFilter::predictPose`, PoseKalmanFilter.cpp l.269-308. -/
noncomputable def predictPose (_hp : 0 < np) (_hr : 0 < nr) (f : PoseFilter np nr) (t : BitVec 64) : Option (ErrorPose ℝ) :=
  if f.time = 0 then none else
  let dt := signedSeconds t f.time
  let s := transformWithCovariance (poseFunctor f.insideOut dt np nr) f.state
  let newCovariance := addNoise f.pn s.covariance dt
  let pos : Fin 7 → ℕ := fun i => if i.val < 3 then i.val else 3 * np + (i.val - 3)
  let newPose : ErrorVector ℝ 7 := ⟨fun i => vecBuf s.value (pos i), Matrix.of fun i j => matBuf newCovariance (pos i) (pos j)⟩
  some (ErrorPose.fromAdditive newPose)

/-- The measurements a filter can be given. -/
inductive Event (np nr : ℕ) where
  | pose (hp : 0 < np) (hr : 0 < nr) (p : ErrorPose ℝ) (t : BitVec 64)
  | rotation (hr : 0 < nr) (q : Quat ℝ) (t : BitVec 64)
  | velocity (hr : 1 < nr) (w : Vec ℝ 3) (t : BitVec 64)
  | inverseVelocity (hr : 1 < nr) (w : Vec ℝ 3) (t : BitVec 64)

/-- One call. -/
noncomputable def step (f : PoseFilter np nr) : Event np nr → Option (PoseFilter np nr)
  | .pose hp hr p t => f.addPose hp hr p t
  | .rotation hr q t => f.addRotation hr q t
  | .velocity hr w t => f.addRotationVelocity hr w t
  | .inverseVelocity hr w t => f.addInverseRotationVelocity hr w t

/-- A history of calls. -/
noncomputable def run (f : PoseFilter np nr) : List (Event np nr) → Option (PoseFilter np nr)
  | [] => some f
  | e :: es => do (← f.step e).run es

end PoseFilter

namespace RotationFilter

/-- The measurements a rotation filter can be given. -/
inductive Event where
  | rotation (q : Quat ℝ) (t : BitVec 64)
  | velocity (w : Vec ℝ 3) (t : BitVec 64)

/-- One call. -/
noncomputable def step (f : RotationFilter) : Event → Option RotationFilter
  | .rotation q t => f.addRotation q t
  | .velocity w t => f.addVelocity w t

/-- A history of calls. -/
noncomputable def run (f : RotationFilter) : List Event → Option RotationFilter
  | [] => some f
  | e :: es => do (← f.step e).run es

end RotationFilter

end Tracking

end Ubitrack
