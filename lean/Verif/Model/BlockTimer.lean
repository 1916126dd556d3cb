import Mathlib.Data.Real.Basic

/-!
# Block timers

Source: src/utUtil/BlockTimer.h, BlockTimer.cpp. Counters are 64 bit and wrap around. The readings of
`getHighPerformanceCounter()` are inputs. The log output of the destructor and the stream operator is not modelled.
-/

namespace Ubitrack.BlockTimer

/-- The members of `BlockTimer` that change, BlockTimer.h l.170-180. `location` is `m_sCodeFile`, `m_nCodeLine`
(`none` before `initializeStart`; the line number is uninitialised then). -/
structure Timer where
  initialized : Bool
  runs : BitVec 64
  ticks : BitVec 64
  location : Option (String × ℕ)

/-- The constructors, BlockTimer.h l.111-132. -/
def Timer.fresh : Timer := ⟨false, 0, 0, none⟩

/-- `addMeasurement`, BlockTimer.h l.138-139. -/
def Timer.addMeasurement (t : Timer) (ticks : BitVec 64) : Timer := { t with runs := t.runs + 1, ticks := t.ticks + ticks }

/-- `initializeStart`, BlockTimer.cpp l.51-55. -/
def Timer.initializeStart (t : Timer) (location : String × ℕ) : Timer := { t with location := some location }

/-- `initializeEnd`, BlockTimer.cpp l.58-62. -/
def Timer.initializeEnd (t : Timer) : Timer := { t with initialized := true }

/-- What happens to a timer when a `Time` object is constructed, BlockTimer.h l.70-73 (no location) and l.82-88. -/
def Timer.start (t : Timer) : Option (String × ℕ) → Timer
  | none => t
  | some location => if t.initialized then t else t.initializeStart location

/-- What happens to a timer when a `Time` object is destroyed, BlockTimer.h l.93-99. -/
def Timer.stop (t : Timer) (startTime now : BitVec 64) : Timer :=
  let t := t.addMeasurement (now - startTime)
  if t.initialized then t else t.initializeEnd

/-- `getTotalTime`, BlockTimer.h l.145-146, with real arithmetic. -/
noncomputable def Timer.totalTime (t : Timer) (frequency : ℝ) : ℝ := t.ticks.toNat / frequency * 1000

/-- `getAvgTime`, BlockTimer.h l.149-150, with real arithmetic; `none` is the division zero by zero. -/
noncomputable def Timer.avgTime (t : Timer) (frequency : ℝ) : Option ℝ :=
  if t.runs = 0 then none else some (t.ticks.toNat / (frequency * t.runs.toNat) * 1000)

/-- A `Time` object comes into scope, or the innermost one leaves its scope. -/
inductive Event
  | enter (timer : ℕ) (location : Option (String × ℕ)) (now : BitVec 64)
  | leave (now : BitVec 64)

/-- All timers of a program, and the `Time` objects in scope with their start times, innermost first. -/
structure State where
  timers : ℕ → Timer
  scopes : List (ℕ × BitVec 64)

/-- One event; `none` if no `Time` object is in scope. -/
def step (s : State) : Event → Option State
  | .enter t location now =>
    some ⟨Function.update s.timers t ((s.timers t).start location), (t, now) :: s.scopes⟩
  | .leave now =>
    match s.scopes with
    | [] => none
    | (t, startTime) :: scopes => some ⟨Function.update s.timers t ((s.timers t).stop startTime now), scopes⟩

/-- A sequence of events. -/
def exec (s : State) : List Event → Option State
  | [] => some s
  | e :: es => (step s e).bind fun s => exec s es

end Ubitrack.BlockTimer
