import Verif.Model.Logging

/-!
# Model: chains of filters

3rd/log4cpp/src/Filter.cpp and the filter of an appender, AppenderSkeleton.cpp. Filters are objects in memory that point to the next one.
-/

namespace Ubitrack.Filters

open Logging (Decision)

/-- The filters in memory: which exist, the member `_chainedFilter` of each, and what `_decide` of each answers for an event (`ε`). -/
structure Mem (ε : Type) where
  alive : ℕ → Bool
  next : ℕ → Option ℕ
  own : ℕ → ε → Decision

/-- Outcome of a function that follows pointers: a result, undefined behaviour (an object that does not exist is used), or not finished within the given number
of steps. -/
inductive Res (α : Type) where
  | ok (a : α)
  | ub
  | more

/-- The rest of a function. -/
def Res.bind {α β : Type} (r : Res α) (f : α → Res β) : Res β :=
  match r with
  | .ok a => f a
  | .ub => .ub
  | .more => .more

/-- 3rd/log4cpp/src/Filter.cpp l.50-58: `decide`. The first argument bounds the number of calls. -/
def decide {ε : Type} : ℕ → Mem ε → ℕ → ε → Res Decision
  | 0, _, _, _ => .more
  | fuel + 1, s, f, e =>
    if s.alive f then
      match s.own f e, s.next f with
      | .neutral, some g => decide fuel s g e
      | d, _ => .ok d
    else .ub

/-- 3rd/log4cpp/src/Filter.cpp l.37-43: `getEndOfChain`. -/
def getEndOfChain {ε : Type} : ℕ → Mem ε → ℕ → Res ℕ
  | 0, _, _ => .more
  | fuel + 1, s, f =>
    if s.alive f then
      match s.next f with
      | some g => getEndOfChain fuel s g
      | none => .ok f
    else .ub

/-- 3rd/log4cpp/src/Filter.cpp l.19-22: `delete` of a filter. The object does not exist any more when its destructor has begun. -/
def destroy {ε : Type} : ℕ → Mem ε → ℕ → Res (Mem ε)
  | 0, _, _ => .more
  | fuel + 1, s, f =>
    if s.alive f then
      let s1 := { s with alive := Function.update s.alive f false }
      match s.next f with
      | some g => destroy fuel s1 g
      | none => .ok s1
    else .ub

/-- 3rd/log4cpp/src/Filter.cpp l.24-31: `setChainedFilter`. -/
def setChainedFilter {ε : Type} (fuel : ℕ) (s : Mem ε) (f : ℕ) (filter : Option ℕ) : Res (Mem ε) :=
  if s.alive f then
    if filter ≠ s.next f then
      (match s.next f with
        | some g => destroy fuel s g
        | none => .ok s).bind fun s1 => if s1.alive f then .ok { s1 with next := Function.update s1.next f filter } else .ub
    else .ok s
  else .ub

/-- 3rd/log4cpp/src/Filter.cpp l.45-48: `appendChainedFilter`. -/
def appendChainedFilter {ε : Type} (fuel : ℕ) (s : Mem ε) (f : ℕ) (filter : Option ℕ) : Res (Mem ε) :=
  (getEndOfChain fuel s f).bind fun e => setChainedFilter fuel s e filter

/-- 3rd/log4cpp/src/AppenderSkeleton.cpp l.46-53: `setFilter` of an appender whose member `_filter` is `current`; the new value of the member. -/
def setFilter {ε : Type} (fuel : ℕ) (s : Mem ε) (current filter : Option ℕ) : Res (Mem ε × Option ℕ) :=
  if current ≠ filter then
    (match current with
      | some g => destroy fuel s g
      | none => .ok s).bind fun s1 => .ok (s1, filter)
  else .ok (s, current)

/-- 3rd/log4cpp/src/AppenderSkeleton.cpp l.30-36: whether `doAppend` writes an event of this priority. -/
def doAppend {ε : Type} (fuel : ℕ) (s : Mem ε) (threshold : ℤ) (filter : Option ℕ) (priority : ℤ) (e : ε) : Res Bool :=
  if Logging.NOTSET = threshold ∨ priority ≤ threshold then
    match filter with
    | none => .ok true
    | some f => (decide fuel s f e).bind fun d => .ok (Decidable.decide (d ≠ .deny))
  else .ok false

/-- 3rd/log4cpp/src/AppenderSkeleton.cpp l.21-24: the destructor of an appender. -/
def destroyAppender {ε : Type} (fuel : ℕ) (s : Mem ε) (filter : Option ℕ) : Res (Mem ε) :=
  match filter with
  | some g => destroy fuel s g
  | none => .ok s

end Ubitrack.Filters
