import Verif.Model.TimestampSync

/-!
# Model of `utMeasurement/TimestampSyncLS.h`

Same conventions as for `TimestampSync`: `double` is idealised to the reals, `Timestamp` is a
64-bit vector, `unsigned m_events` a 32-bit vector. The debug output (l.127-133) is dropped.
Members without initialiser (`m_firstLocal`) hold arbitrary content.
-/

namespace Ubitrack.TSyncLS

open Ubitrack.TSync (trunc)

/-- src/utMeasurement/TimestampSyncLS.h l.146-157: the members. -/
structure St where
  events : BitVec 32
  firstLocal : BitVec 64
  avgNative : ℝ
  avgNativeSquare : ℝ
  avgLocal : ℝ
  avgLocalNative : ℝ
  outlierBudget : ℤ
  avgDeviationSquare : ℝ

/-- src/utMeasurement/TimestampSyncLS.h l.65-73: the constructor. -/
noncomputable def construct (garbageFirstLocal : BitVec 64) : St :=
  ⟨0, garbageFirstLocal, 0, 0, 0, 0, 0, 1e6 * 1e6⟩

/-- src/utMeasurement/TimestampSyncLS.h l.82-83: the first event sets the origin. -/
def start (s : St) (loc : BitVec 64) : St :=
  if s.events = 0 then { s with firstLocal := loc } else s

/-- src/utMeasurement/TimestampSyncLS.h l.85: local time since the first event, as a `double`. -/
def fLocal (s : St) (loc : BitVec 64) : ℝ := ((loc - s.firstLocal).toNat : ℝ)

/-- src/utMeasurement/TimestampSyncLS.h l.89-108: extrapolation. Division by zero is undefined
behaviour-prone in the code (NaN converted to an integer); the theorems that use this branch assume
a positive variance. -/
noncomputable def extrapolate (s : St) (native fLocal : ℝ) : ℝ :=
  if s.events > 10 then
    let var := s.avgNativeSquare - s.avgNative * s.avgNative
    let fOffset := s.avgNativeSquare * s.avgLocal - s.avgNative * s.avgLocalNative
    let fGain := s.avgLocalNative - s.avgLocal * s.avgNative
    (native * fGain + fOffset) / var
  else fLocal

/-- src/utMeasurement/TimestampSyncLS.h l.98-100, 111: the acceptance test. -/
def accepts (s : St) (fExtrapolated fLocal : ℝ) : Prop :=
  s.events < 100 ∨ (fExtrapolated - fLocal) * (fExtrapolated - fLocal) < s.avgDeviationSquare * 9 ∨
    s.outlierBudget < 0

/-- src/utMeasurement/TimestampSyncLS.h l.113: the weight of a new event. -/
noncomputable def weight (s : St) : ℝ :=
  if s.events < 100 then 1 / ((s.events.toNat : ℝ) + 1) else 0.001

/-- src/utMeasurement/TimestampSyncLS.h l.113-122: averaging. -/
noncomputable def average (s : St) (native fExtrapolated fLocal : ℝ) : St :=
  let fWeight := weight s
  let deviationSquare := (fExtrapolated - fLocal) * (fExtrapolated - fLocal)
  { s with
    avgNative := s.avgNative + (native - s.avgNative) * fWeight
    avgLocal := s.avgLocal + (fLocal - s.avgLocal) * fWeight
    avgNativeSquare := s.avgNativeSquare + (native * native - s.avgNativeSquare) * fWeight
    avgLocalNative := s.avgLocalNative + (fLocal * native - s.avgLocalNative) * fWeight
    avgDeviationSquare := if s.events > 10 then
        s.avgDeviationSquare + (deviationSquare - s.avgDeviationSquare) * 0.01
      else s.avgDeviationSquare
    outlierBudget := min 40 (s.outlierBudget + 1) }

open Classical in
/-- src/utMeasurement/TimestampSyncLS.h l.80-139: `convertNativeToLocal`. -/
noncomputable def convert (s : St) (native : ℝ) (loc : BitVec 64) : St × BitVec 64 :=
  let s := start s loc
  let fLoc := fLocal s loc
  let fExtrapolated := extrapolate s native fLoc
  let s' := if accepts s fExtrapolated fLoc then average s native fExtrapolated fLoc
    else { s with outlierBudget := s.outlierBudget - 2 }
  ({ s' with events := s'.events + 1 }, s'.firstLocal + BitVec.ofInt 64 (trunc fExtrapolated))

/-- Whether the event is used for averaging. -/
def accepted (s : St) (native : ℝ) (loc : BitVec 64) : Prop :=
  accepts (start s loc) (extrapolate (start s loc) native (fLocal (start s loc) loc))
    (fLocal (start s loc) loc)

end Ubitrack.TSyncLS
