import Verif.Model.Kalman
import Verif.Model.ErrorPose
import Verif.Model.RotationFunction
import Verif.Model.FunctionComposition

/-!
# Tracking: motion models and the pose and rotation Kalman filters

src/utTracking/Function/LinearTimeUpdate.h, QuaternionTimeUpdate.h, PoseTimeUpdate.h, InsideOutPoseTimeUpdate.h,
src/utTracking/LinearPoseMotionModel.h, PoseKalmanFilter.cpp, RotationOnlyKf.cpp.

State vectors have a length that depends on the model orders. Inside the time updates they are buffers `ℕ → K` read and
written at computed positions. The filter calls the update with the same vector as input and result; the functions take a
parameter `rd` that says what is read: `fun _ => x` for a separate input `x`, `id` for the buffer itself.
The orders `posOrder` and `rotOrder` of the code may be -1; the model uses the numbers of 3-vectors
`np = posOrder + 1` and `nr = rotOrder + 1`.
-/

namespace Ubitrack

namespace Tracking

open RotationFunction FunctionComposition Stochastic

section Buffers

variable {K : Type*} [Zero K]

/-- `subrange( b, s, s + a ) = w`. -/
def bset (b : ℕ → K) (s a : ℕ) (w : ℕ → K) : ℕ → K := fun i => if s ≤ i ∧ i < s + a then w (i - s) else b i

/-- `subrange( J, r0, r0 + a, c0, c0 + b ) = B`. -/
def mset (J : ℕ → ℕ → K) (r0 a c0 b : ℕ) (B : ℕ → ℕ → K) : ℕ → ℕ → K := fun r c =>
  if (r0 ≤ r ∧ r < r0 + a) ∧ c0 ≤ c ∧ c < c0 + b then B (r - r0) (c - c0) else J r c

/-- A vector as a buffer. -/
def vecBuf {n : ℕ} (x : Vec K n) : ℕ → K := fun i => if h : i < n then x ⟨i, h⟩ else 0

/-- A matrix as a buffer. -/
def matBuf {m n : ℕ} (x : Mat K m n) : ℕ → ℕ → K := fun i j => if h : i < m ∧ j < n then x ⟨i, h.1⟩ ⟨j, h.2⟩ else 0

end Buffers

section Linear

variable {K : Type*} [Field K]

/-- `LinearTimeUpdate::evaluateWithJacobian`, LinearTimeUpdate.h l.66-84: the result, written at position `s` of the buffer;
the input starts at position `s` of what is read. -/
def linearTimeUpdate (dt : K) (size order : ℕ) (rd : (ℕ → K) → ℕ → K) (s : ℕ) (b : ℕ → K) : ℕ → K :=
  let b := bset b s size (fun k => rd b (s + k))
  ((List.range order).foldl (fun (st : K × (ℕ → K)) i =>
    let t := st.1 * (dt / ((i + 1 : ℕ) : K))
    (t, bset st.2 s size (fun k => st.2 (s + k) + t * rd st.2 (s + (size * (i + 1) + k))))) (1, b)).2

/-- `LinearTimeUpdate::evaluateWithJacobian`, LinearTimeUpdate.h l.66-84: the Jacobian, written at row and column `s`. -/
def linearTimeUpdateJac (dt : K) (size order s : ℕ) (J : ℕ → ℕ → K) : ℕ → ℕ → K :=
  let J := mset J s size s size (fun a b => if a = b then 1 else 0)
  ((List.range order).foldl (fun (st : K × (ℕ → ℕ → K)) i =>
    let t := st.1 * (dt / ((i + 1 : ℕ) : K))
    (t, mset st.2 s size (s + size * (i + 1)) size (fun a b => t * if a = b then 1 else 0))) (1, J)).2

end Linear

/-- `RotationVelocity::integrate`, src/utMath/RotationVelocity.h l.84-87. -/
noncomputable def integrate (v : Vec ℝ 3) (interval : ℝ) : Quat ℝ := Quat.fromLogarithm fun i => v i * interval

/-- `RotationVelocity( a, b, interval )`, src/utMath/RotationVelocity.h l.74-78. -/
noncomputable def velocityBetween (a b : Quat ℝ) (interval : ℝ) : Vec ℝ 3 :=
  let delta := (a.negateIfCloser b).conj.mul b
  fun i => delta.toLogarithm i / interval

/-- The quaternion at position `s`. -/
def quatAt (b : ℕ → ℝ) (s : ℕ) : Quat ℝ := ⟨b s, b (s + 1), b (s + 2), b (s + 3)⟩

/-- `QuaternionTimeUpdate::evaluateWithJacobian`, QuaternionTimeUpdate.h l.66-100: the result. -/
noncomputable def quaternionTimeUpdate (dt : ℝ) (order : ℕ) (rd : (ℕ → ℝ) → ℕ → ℝ) (s : ℕ) (b : ℕ → ℝ) : ℕ → ℝ :=
  let q := quatAt (rd b) s
  let r := ((List.range order).foldl (fun (st : Quat ℝ × ℝ) i =>
    let v : Vec ℝ 3 := fun k => rd b (s + (4 + 3 * i + k.val))
    (st.1.mul (integrate v st.2), st.2 * dt)) (q, dt)).1
  bset b s 4 (vecBuf r.toVector)

/-- The block of the Jacobian for one derivative, QuaternionTimeUpdate.h l.80-94. -/
noncomputable def quatBlock (t : ℝ) (q : Quat ℝ) : Mat ℝ 4 3 :=
  !![t * q.w / 2, -t * q.z / 2, t * q.y / 2;
     t * q.z / 2, t * q.w / 2, -t * q.x / 2;
     -t * q.y / 2, t * q.x / 2, t * q.w / 2;
     -t * q.x / 2, -t * q.y / 2, -t * q.z / 2]

/-- `QuaternionTimeUpdate::evaluateWithJacobian`, QuaternionTimeUpdate.h l.66-100: the Jacobian; `x` is the input. -/
noncomputable def quaternionTimeUpdateJac (dt : ℝ) (order : ℕ) (s : ℕ) (x : ℕ → ℝ) (J : ℕ → ℕ → ℝ) : ℕ → ℕ → ℝ :=
  let q := quatAt x s
  let J := ((List.range order).foldl (fun (st : (ℕ → ℕ → ℝ) × ℝ) i =>
    let t := st.2 * dt
    (mset st.1 s 4 (s + (4 + i * 3)) 3 (matBuf (quatBlock t q)), t)) (J, dt)).1
  mset J s 4 s 4 (fun a b => if a = b then 1 else 0)

/-- `PoseTimeUpdate::size`, PoseTimeUpdate.h l.63-64, and `LinearPoseMotionModel::stateSize`, LinearPoseMotionModel.h l.51-60. -/
def stateSize (np nr : ℕ) : ℕ := 3 * np + if 0 < nr then 1 + 3 * nr else 0

/-- `PoseTimeUpdate::evaluateWithJacobian`, PoseTimeUpdate.h l.74-118: the result. -/
noncomputable def poseTimeUpdate (dt : ℝ) (np nr : ℕ) (rd : (ℕ → ℝ) → ℕ → ℝ) (b : ℕ → ℝ) : ℕ → ℝ :=
  let rs := 3 * np
  let b := (List.range np).foldl (fun b i => linearTimeUpdate dt 3 (np - 1 - i) rd (3 * i) b) b
  let b := if 0 < nr then quaternionTimeUpdate dt (nr - 1) rd rs b else b
  (List.range (nr - 1)).foldl (fun b i => linearTimeUpdate dt 3 (nr - 1 - (i + 1)) rd (rs + 1 + 3 * (i + 1)) b) b

/-- `PoseTimeUpdate::evaluateWithJacobian`, PoseTimeUpdate.h l.74-118: the Jacobian. `x` is the input as it is when the
rotation is updated (its rotation part has not been overwritten at that point). -/
noncomputable def poseTimeUpdateJac (dt : ℝ) (np nr : ℕ) (x : ℕ → ℝ) (J : ℕ → ℕ → ℝ) : ℕ → ℕ → ℝ :=
  let rs := 3 * np
  let ts := stateSize np nr
  let J := (List.range np).foldl (fun J i =>
    let J := linearTimeUpdateJac dt 3 (np - 1 - i) (3 * i) J
    let J := mset J (3 * i) 3 0 (3 * i) (fun _ _ => 0)
    mset J (3 * i) 3 rs (ts - rs) (fun _ _ => 0)) J
  let J := if 0 < nr then mset (quaternionTimeUpdateJac dt (nr - 1) rs x J) rs 4 0 rs (fun _ _ => 0) else J
  (List.range (nr - 1)).foldl (fun J i =>
    let s := rs + 1 + 3 * (i + 1)
    mset (linearTimeUpdateJac dt 3 (nr - 1 - (i + 1)) s J) s 3 0 s (fun _ _ => 0)) J

/-- The 3-vector at position `s`. -/
def vecAt (b : ℕ → ℝ) (s : ℕ) : Vec ℝ 3 := fun k => b (s + k.val)

/-- `InsideOutPoseTimeUpdate::evaluateWithJacobian`, InsideOutPoseTimeUpdate.h l.84-183: the result; `np` is 1 or 2 and the
rotation has one derivative. -/
noncomputable def insideOutTimeUpdate (dt : ℝ) (np : ℕ) (rd : (ℕ → ℝ) → ℕ → ℝ) (b : ℕ → ℝ) : ℕ → ℝ :=
  let rs := 3 * np
  let angVelRotated := quaternionVectorRotation (quatAt (rd b) rs).toVector (vecAt (rd b) (rs + 4))
  let transUpdateRotation := rotationVelocityIntegration dt angVelRotated
  let newTranslation := quaternionVectorRotation transUpdateRotation (vecAt (rd b) 0)
  let newTranslation := if np = 2 then fun k => newTranslation k + dt * vecAt (rd b) 3 k else newTranslation
  let b := bset b 0 3 (vecBuf newTranslation)
  let b := if np = 2 then bset b 3 3 (vecBuf (quaternionVectorRotation transUpdateRotation (vecAt (rd b) 3))) else b
  let b := quaternionTimeUpdate dt 1 rd rs b
  linearTimeUpdate dt 3 0 rd (rs + 4) b

/-- `InsideOutPoseTimeUpdate::evaluateWithJacobian`, InsideOutPoseTimeUpdate.h l.84-183: the Jacobian; `x` is the input. -/
noncomputable def insideOutTimeUpdateJac (dt : ℝ) (np : ℕ) (x : ℕ → ℝ) (J : ℕ → ℕ → ℝ) : ℕ → ℕ → ℝ :=
  let rs := 3 * np
  let q := (quatAt x rs).toVector
  let w := vecAt x (rs + 4)
  let angVelRotated := quaternionVectorRotation q w
  let jAngVelRotatedQ := quaternionVectorRotationJacQ q w
  let jAngVelRotatedV := quaternionVectorRotationJacVec q
  let transUpdateRotation := rotationVelocityIntegration dt angVelRotated
  let jTransRotIntegrate := rotationVelocityIntegrationJacobian dt angVelRotated
  let block := fun (J : ℕ → ℕ → ℝ) (r : ℕ) (v : Vec ℝ 3) =>
    let jAcc := quaternionVectorRotationJacQ transUpdateRotation v * jTransRotIntegrate
    mset (mset J r 3 rs 4 (matBuf (jAcc * jAngVelRotatedQ))) r 3 (rs + 4) 3 (matBuf (jAcc * jAngVelRotatedV))
  let J := mset J 0 3 0 3 (matBuf (quaternionVectorRotationJacVec transUpdateRotation))
  let J := if np = 2 then mset J 0 3 3 3 (fun a b => (if a = b then 1 else 0) * dt) else J
  let J := block J 0 (vecAt x 0)
  let J := if np = 2 then
      block (mset (mset J 3 3 0 3 (fun _ _ => 0)) 3 3 3 3 (matBuf (quaternionVectorRotationJacVec transUpdateRotation))) 3 (vecAt x 3)
    else J
  let J := mset (quaternionTimeUpdateJac dt 1 rs x J) rs 4 0 rs (fun _ _ => 0)
  mset (linearTimeUpdateJac dt 3 0 (rs + 4) J) (rs + 4) 3 0 (rs + 4) (fun _ _ => 0)

/-! ## Process noise, LinearPoseMotionModel.h -/

/-- `setPosPN`, LinearPoseMotionModel.h l.75-79. -/
def setPosPN {K : Type*} [CommRing K] (pn : ℕ → K) (order : ℕ) (value : K) : ℕ → K := fun i =>
  if 3 * order ≤ i ∧ i < 3 + 3 * order then value * value else pn i

/-- `setOriPN`, LinearPoseMotionModel.h l.86-94. `3 + 3 * m_posOrder` is `3 * np`. -/
def setOriPN {K : Type*} [CommRing K] (np : ℕ) (pn : ℕ → K) (order : ℕ) (value : K) : ℕ → K := fun i =>
  if order = 0 then if 3 * np ≤ i ∧ i < 4 + 3 * np then value * value else pn i
  else if 1 + 3 * (np + order) ≤ i ∧ i < 4 + 3 * (np + order) then value * value else pn i

/-- `addNoise`, LinearPoseMotionModel.h l.101-107. -/
noncomputable def addNoise {n : ℕ} (pn : ℕ → ℝ) (cov : Mat ℝ n n) (deltaTime : ℝ) : Mat ℝ n n :=
  let dt := |deltaTime|
  Matrix.of fun i j => if i = j then cov i j + dt * pn i else cov i j

/-! ## The filters -/

/-- The Jacobian buffer of `transformWithCovariance` is not initialised; every entry is written, see the theorems. -/
noncomputable def poseFunctor (insideOut : Bool) (dt : ℝ) (np nr : ℕ) : Functor ℝ (stateSize np nr) (stateSize np nr) := fun x =>
  if insideOut then
    (fun i => insideOutTimeUpdate dt np id (vecBuf x) i, Matrix.of fun i j => insideOutTimeUpdateJac dt np (vecBuf x) (fun _ _ => 0) i j)
  else
    (fun i => poseTimeUpdate dt np nr id (vecBuf x) i, Matrix.of fun i j => poseTimeUpdateJac dt np nr (vecBuf x) (fun _ _ => 0) i j)

/-- `( (long long int)( t - m_time ) ) * 1e-9`, PoseKalmanFilter.cpp l.218, 278, RotationOnlyKf.cpp l.112. -/
noncomputable def signedSeconds (t m_time : BitVec 64) : ℝ := ((t - m_time).toInt : ℝ) * 1e-9

/-- `( t - m_time ) * 1e-9`, RotationOnlyKf.cpp l.129: the difference is an unsigned number. -/
noncomputable def unsignedSeconds (t m_time : BitVec 64) : ℝ := ((t - m_time).toNat : ℝ) * 1e-9

end Tracking

end Ubitrack
