import Mathlib.Data.Real.Basic
import Mathlib.Algebra.Order.Floor.Defs
import Mathlib.Algebra.Order.Archimedean.Real.Basic

/-!
# Model of `utMeasurement/TimestampSync.h` and `utMeasurement/TimestampSync.cpp`

`double` is idealised to the reals. `Timestamp` is `unsigned long long`, modelled by 64-bit
bit vectors with wrap-around; `m_events` is `unsigned`, modelled by 32-bit bit vectors.
`static_cast< long long >( double )` truncates towards zero; its result is reduced modulo 2^64
where C++ leaves a value outside the range of `long long` undefined.
-/

namespace Ubitrack.TSync

/-- `static_cast< long long >( x )`: truncation towards zero. -/
noncomputable def trunc (x : ℝ) : ℤ := if 0 ≤ x then ⌊x⌋ else ⌈x⌉

/-- src/utMeasurement/TimestampSync.h l.97-123: the members. -/
structure St where
  events : BitVec 32
  lastNative : ℝ
  localNoise : ℝ
  gainNoise : ℝ
  measurementNoise : ℝ
  estLocal : BitVec 64
  estGain : ℝ
  p1 : ℝ
  p2 : ℝ
  p3 : ℝ
  outlierBudget : ℤ
  avgDeviationSquare : ℝ

/-- src/utMeasurement/TimestampSync.cpp l.63-78: `setFrequency`. Constants from l.49-58. -/
noncomputable def setFrequency (s : St) (approxNativeFreq approxLocalFreq : ℝ) : St :=
  let estGain := approxLocalFreq / approxNativeFreq
  { s with
    estGain := estGain
    localNoise := (1e-3 * approxLocalFreq) ^ 2
    gainNoise := (1e-4 * estGain) ^ 2
    measurementNoise := (3e-2 * approxLocalFreq) ^ 2
    p1 := approxLocalFreq ^ 2
    p2 := 0
    p3 := (1e1 * estGain) ^ 2
    avgDeviationSquare := (0.001 * approxLocalFreq) ^ 2 }

/-- src/utMeasurement/TimestampSync.h l.61-66: the constructor. Members it does not initialise keep
the arbitrary content `garbage` of the storage. -/
noncomputable def construct (garbage : St) (approxNativeFreq approxLocalFreq : ℝ) : St :=
  setFrequency { garbage with events := 0, outlierBudget := -100 } approxNativeFreq approxLocalFreq

/-- src/utMeasurement/TimestampSync.cpp l.83-95: initialisation on the first event and time update. -/
noncomputable def predict (s : St) (native : ℝ) (loc : BitVec 64) : St :=
  let s := if s.events = 0 then { s with lastNative := native, estLocal := loc } else s
  let deltaN := native - s.lastNative
  { s with
    estLocal := s.estLocal + BitVec.ofInt 64 (trunc (deltaN * s.estGain))
    p1 := s.p1 + (2 * deltaN * s.p2 + deltaN * deltaN * s.p3 + s.localNoise)
    p2 := s.p2 + deltaN * s.p3
    p3 := s.p3 + s.gainNoise }

/-- src/utMeasurement/TimestampSync.cpp l.98: `deltaL`, the signed difference between the given
local time and the prediction. -/
def deltaL (s : St) (loc : BitVec 64) : ℤ := (loc - s.estLocal).toInt

/-- src/utMeasurement/TimestampSync.cpp l.99-102: the outlier test on the predicted state. -/
def accepts (s : St) (loc : BitVec 64) : Prop :=
  ((deltaL s loc : ℝ) * (deltaL s loc : ℝ) < s.avgDeviationSquare * 9) ∨ s.outlierBudget < 0

/-- src/utMeasurement/TimestampSync.cpp l.104-118: the measurement update. -/
noncomputable def correct (s : St) (loc : BitVec 64) : St :=
  let dL : ℝ := (deltaL s loc : ℝ)
  let deviationSquare := dL * dL
  let k1 := s.p1 / (s.measurementNoise + s.p1)
  let k2 := s.p2 / (s.measurementNoise + s.p1)
  { s with
    estGain := s.estGain + k2 * dL
    estLocal := s.estLocal + BitVec.ofInt 64 (trunc (k1 * dL))
    p1 := s.measurementNoise * k1
    p3 := s.p3 - s.p2 * k2
    p2 := s.measurementNoise * k2
    avgDeviationSquare := if s.events > 50 then
        s.avgDeviationSquare + (deviationSquare - s.avgDeviationSquare) * 0.01
      else s.avgDeviationSquare
    outlierBudget := min 40 (s.outlierBudget + 1) }

open Classical in
/-- src/utMeasurement/TimestampSync.cpp l.81-135: `convertNativeToLocal`, returning the new state
and the result. -/
noncomputable def convert (s : St) (native : ℝ) (loc : BitVec 64) : St × BitVec 64 :=
  let s := predict s native loc
  let s := if accepts s loc then correct s loc
    else { s with outlierBudget := s.outlierBudget - 2 }
  let s := { s with lastNative := native, events := s.events + 1 }
  (s, s.estLocal)

/-- Whether the event is used to correct the estimate (as opposed to treated as an outlier). -/
def accepted (s : St) (native : ℝ) (loc : BitVec 64) : Prop := accepts (predict s native loc) loc

end Ubitrack.TSync
