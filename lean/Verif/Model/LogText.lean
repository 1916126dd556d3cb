import Verif.Model.LogLayout
import Verif.Model.Logging

/-!
# Model: basic and simple layouts, formatted messages, queues of messages

3rd/log4cpp/src/BasicLayout.cpp, SimpleLayout.cpp, StringUtil.cpp `vform` and StringQueueAppender.cpp.
-/

namespace Ubitrack.LogText

open LogLayout (Event Text priorityName)

/-- 3rd/log4cpp/src/BasicLayout.cpp l.25-34: `format`. -/
def basicFormat (e : Event) : Text :=
  e.seconds ++ [' '] ++ priorityName e.priority ++ [' '] ++ e.categoryName ++ [' '] ++ e.ndc ++ [':', ' '] ++ e.message ++ ['\n']

/-- 3rd/log4cpp/src/SimpleLayout.cpp l.27-34: `format`; `Priority::MESSAGE_SIZE` is 8, and the width holds for the first output only. -/
def simpleFormat (e : Event) : Text :=
  let name := priorityName e.priority
  name ++ List.replicate (8 - name.length) ' ' ++ [':', ' '] ++ e.message ++ ['\n']

/-- 3rd/log4cpp/src/OstreamAppender.cpp l.34-39: what is in the stream after some events, for a layout. -/
def written (format : Event → Text) (events : List Event) : Text := events.foldl (fun stream e => stream ++ format e) []

/-! ## Formatted messages -/

/-- Outcome: a text, undefined behaviour, or not finished within the given number of rounds. -/
inductive Formatted where
  | text (t : Text)
  | ub
  | more

/-- `vsnprintf` into `size` characters. `expansion` is the text that format and arguments stand for, `none` if they cannot be converted. The arguments can be
gone through only once: `none` if they have been used (C99 7.15: the value of the list is indeterminate). The result is the returned number and the characters before the
null character at the end. -/
def vsnprintf (expansion : Option Text) (used : Bool) (size : ℕ) : Option (ℤ × Text) :=
  if used then none else
  match expansion with
  | none => some (-1, [])
  | some t => some (t.length, t.take (size - 1))

/-- 3rd/log4cpp/src/StringUtil.cpp l.41-58: the loop of `vform`. `std::string s(buffer)` ends at the first null character. -/
def vformLoop (expansion : Option Text) : ℕ → Bool → ℕ → Formatted
  | 0, _, _ => .more
  | rounds + 1, used, size =>
    match vsnprintf expansion used size with
    | none => .ub
    | some (n, buffer) =>
      if n > -1 ∧ n < size then .text (buffer.takeWhile (· ≠ Char.ofNat 0))
      else vformLoop expansion rounds true (if n > -1 then n.toNat + 1 else size * 2)

/-- 3rd/log4cpp/src/StringUtil.cpp l.37-59: `vform`. -/
def vform (expansion : Option Text) (rounds : ℕ) : Formatted := vformLoop expansion rounds false 1024

/-! ## Queues -/

/-- Calls of a `StringQueueAppender`: an event (its priority and the text the layout makes of it), or `popMessage`, or `setThreshold`. -/
inductive QueueOp where
  | append (priority : ℤ) (text : Text)
  | pop
  | threshold (v : ℤ)

/-- The queue, the threshold, and what the calls of `popMessage` have returned. -/
structure QueueState where
  queue : List Text
  threshold : ℤ
  returned : List Text

/-- 3rd/log4cpp/src/StringQueueAppender.cpp l.15-17 and AppenderSkeleton.cpp l.15-19: the constructors. -/
def newQueue : QueueState := ⟨[], Logging.NOTSET, []⟩

/-- 3rd/log4cpp/src/StringQueueAppender.cpp l.27-29 with AppenderSkeleton.cpp l.30-36 (`doAppend` without filter), l.47-56, and AppenderSkeleton.cpp l.38-40. -/
def queueStep (s : QueueState) : QueueOp → QueueState
  | .append priority text => if Logging.doAppend s.threshold [] priority then { s with queue := s.queue ++ [text] } else s
  | .pop =>
    match s.queue with
    | [] => { s with returned := s.returned ++ [[]] }
    | m :: rest => { s with queue := rest, returned := s.returned ++ [m] }
  | .threshold v => { s with threshold := v }

end Ubitrack.LogText
