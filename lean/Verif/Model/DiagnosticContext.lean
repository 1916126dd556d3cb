import Verif.Model.LogLayout

/-!
# Model: nested diagnostic contexts

3rd/log4cpp/src/NDC.cpp. Every thread has its own object (`ThreadLocalDataHolder`, l.63-72); the operations of the threads are interleaved in any
order. A stack is the `std::vector`, the last element is on top.
-/

namespace Ubitrack.DiagnosticContext

open LogLayout (Text)

/-- 3rd/log4cpp/include/log4cpp/NDC.hh: `NDC::DiagnosticContext`. -/
structure Context where
  message : Text
  fullMessage : Text
deriving DecidableEq

/-- The vector of contexts. -/
abbrev Stack := List Context

/-- 3rd/log4cpp/src/NDC.cpp l.105-111 and l.15-24: `_push`. -/
def push (s : Stack) (message : Text) : Stack :=
  match s.getLast? with
  | none => s ++ [⟨message, message⟩]
  | some parent => s ++ [⟨message, parent.fullMessage ++ " ".toList ++ message⟩]

/-- 3rd/log4cpp/src/NDC.cpp l.99-103: `_pop`. `back()` of an empty vector is undefined behaviour: `none`. -/
def pop (s : Stack) : Option (Text × Stack) :=
  match s.getLast? with
  | none => none
  | some c => some (c.message, s.dropLast)

/-- 3rd/log4cpp/src/NDC.cpp l.85-89: `_get`. -/
def get (s : Stack) : Text :=
  match s.getLast? with
  | none => []
  | some c => c.fullMessage

/-- 3rd/log4cpp/src/NDC.cpp l.91-93: `_getDepth`. -/
def getDepth (s : Stack) : ℕ := s.length

/-- The threads' objects and the stacks that have been made by `cloneStack`. -/
structure State where
  threads : ℕ → Stack
  clones : List Stack

/-- Operations, with the number of the thread. `inherit` is given the number of a cloned stack. -/
inductive Op where
  | push (t : ℕ) (message : Text)
  | pop (t : ℕ)
  | clear (t : ℕ)
  | cloneStack (t : ℕ)
  | inherit (t : ℕ) (clone : ℕ)

/-- 3rd/log4cpp/src/NDC.cpp l.30-61 and l.77-111. A pointer to a stack that does not exist is undefined behaviour. -/
def step (s : State) : Op → Option State
  | .push t m => some { s with threads := Function.update s.threads t (push (s.threads t) m) }
  | .pop t => (pop (s.threads t)).map fun r => { s with threads := Function.update s.threads t r.2 }
  | .clear t => some { s with threads := Function.update s.threads t [] }
  | .cloneStack t => some { s with clones := s.clones ++ [s.threads t] }
  | .inherit t c => (s.clones[c]?).map fun st => { s with threads := Function.update s.threads t st }

/-- Operations one after the other. -/
def exec (s : State) : List Op → Option State
  | [] => some s
  | o :: os => (step s o).bind fun s' => exec s' os

/-- The program starts without contexts: l.75. -/
def start : State := ⟨fun _ => [], []⟩

end Ubitrack.DiagnosticContext
