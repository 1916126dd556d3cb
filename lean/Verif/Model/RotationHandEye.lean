import Verif.Model.Kalman
import Verif.Model.RotationFunction
import Verif.Model.FunctionComposition

/-!
# Online hand-eye calibration of the rotation

src/utAlgorithm/OnlineRotHec.cpp and src/utAlgorithm/RotationHecKalmanFilter.cpp, with real numbers.
-/

namespace Ubitrack.RotationHandEye
open Stochastic RotationFunction FunctionComposition

/-- `LinearFunction::evaluateWithJacobian`, utMath/Optimization/Function/LinearFunction.h l.79-83. -/
def linearFunction {m n : ℕ} (A : Mat ℝ m n) : Functor ℝ m n := fun x => (A.mulVec x, A)

/-! ### OnlineRotHec -/

/-- `skewMatrix`, OnlineRotHec.cpp l.47-58. -/
def skewMatrix (v : Vec ℝ 3) : Mat ℝ 3 3 :=
  !![0, -v 2, v 1;
     v 2, 0, -v 0;
     -v 1, v 0, 0]

/-- The constructor, OnlineRotHec.cpp l.61-65: the member `m_state`. -/
noncomputable def onlineInit : ErrorVector ℝ 3 := ⟨![0, 0, 0], (1e6 : ℝ) • 1⟩

open Classical in
/-- `addMeasurement`, OnlineRotHec.cpp l.68-85. -/
noncomputable def onlineAdd (state : ErrorVector ℝ 3) (q r : Quat ℝ) : ErrorVector ℝ 3 :=
  let nq : ℝ := if q.w < 0 then -1 else 1
  let nr : ℝ := if r.w < 0 then -1 else 1
  let measurement : ErrorVector ℝ 3 := ⟨![r.x * nr - q.x * nq, r.y * nr - q.y * nq, r.z * nr - q.z * nq], 1⟩
  let h := skewMatrix ![q.x * nq + r.x * nr, q.y * nq + r.y * nr, q.z * nq + r.z * nr]
  kalmanUpdate (linearFunction h) state measurement 0 (by omega)

/-- `addMeasurement` for each of a list of pairs. -/
noncomputable def onlineRun (pairs : List (Quat ℝ × Quat ℝ)) : ErrorVector ℝ 3 :=
  pairs.foldl (fun s p => onlineAdd s p.1 p.2) onlineInit

/-- `computeResult`, OnlineRotHec.cpp l.88-94. -/
noncomputable def onlineResult (state : ErrorVector ℝ 3) : Quat ℝ :=
  let n := norm2 state.value
  let s := 1.0 / Real.sqrt (1.0 + n * n)
  let c := Real.sqrt (1.0 - (n * s) * (n * s))
  ⟨state.value 0 * s, state.value 1 * s, state.value 2 * s, c⟩

/-! ### RotationHecKalmanFilter -/

/-- The constructor, RotationHecKalmanFilter.cpp l.46-50. -/
noncomputable def filterInit : ErrorVector ℝ 4 := ⟨![0, 0, 0, 1], (1e2 : ℝ) • 1⟩

/-- `addMeasurement`, RotationHecKalmanFilter.cpp l.52-67; `none`: division by zero in the normalisation. -/
noncomputable def filterAdd (state : ErrorVector ℝ 4) (a b : Quat ℝ) : Option (ErrorVector ℝ 4) :=
  let measurement : ErrorVector ℝ 4 := ⟨0, (1e-2 : ℝ) • 1⟩
  let b' := b.negateIfCloser a
  let updated := kalmanUpdate (fun x => (rotHecMeasurement a b' x, rotHecMeasurementJacobian a b')) state measurement 0 (by omega)
  if updated.value = 0 then none
  else
    let normalized := transformWithCovariance (fun x => (vectorNormalize x, vectorNormalizeJacobian x)) updated
    some ⟨normalized.value, normalized.covariance + (1e-12 : ℝ) • 1⟩

/-- `addMeasurement` for each of a list of pairs. -/
noncomputable def filterRun (pairs : List (Quat ℝ × Quat ℝ)) : Option (ErrorVector ℝ 4) :=
  pairs.foldlM (fun s p => filterAdd s p.1 p.2) filterInit

/-- `getResult`, RotationHecKalmanFilter.h l.66-67. -/
def filterResult (state : ErrorVector ℝ 4) : Quat ℝ := Quat.fromVector state.value

end Ubitrack.RotationHandEye
