import Verif.Model.Logging

/-!
# Model: streams of a category, formatted messages, queues of messages

3rd/log4cpp/src/CategoryStream.cpp and include/log4cpp/CategoryStream.hh, the string part of Category.cpp, StringUtil.cpp `vform` and StringQueueAppender.cpp.
The buffers live in a memory of their own, because the streams hold pointers to them.
-/

namespace Ubitrack.LogStream

open Logging

/-- The part of `std::ostringstream` that is used: what has been written, the width for the next output, and whether output is adjusted to the left. -/
structure Buffer where
  text : List Char
  width : ℕ
  left : Bool

/-- A new `std::ostringstream`. -/
def Buffer.empty : Buffer := ⟨[], 0, false⟩

/-- `operator<<` of `std::ostringstream` for strings and characters; other values are taken as the characters they are printed as. -/
def Buffer.insert (b : Buffer) (t : List Char) : Buffer :=
  let pad := List.replicate (b.width - t.length) ' '
  { b with text := b.text ++ (if b.left then t ++ pad else pad ++ t), width := 0 }

/-- Categories, buffers (allocated and not deleted yet), and what the appenders have been called with: appender, priority and message. -/
structure World where
  heap : Heap
  buffers : ℕ → Option Buffer
  next : ℕ
  out : List (ℕ × ℤ × List Char)

/-- 3rd/log4cpp/include/log4cpp/CategoryStream.hh l.129-134: the members. `_wbuffer` is not modelled: the template that uses it cannot be called by `<<`, as its
parameter cannot be deduced. -/
structure Stream where
  category : ℕ
  priority : ℤ
  buffer : Option ℕ

/-- 3rd/log4cpp/src/Category.cpp l.431-434 and CategoryStream.cpp l.21-25: `getStream` and the constructor. -/
def getStream (h : Heap) (i : ℕ) (priority : ℤ) : Stream := ⟨i, if isPriorityEnabled h i priority then priority else NOTSET, none⟩

/-- 3rd/log4cpp/src/CategoryStream.cpp l.44-50 and CategoryStream.hh l.89-94: a buffer, unless the priority is `NOTSET`. -/
def ensure (w : World) (s : Stream) : World × Stream :=
  if s.priority ≠ NOTSET then
    match s.buffer with
    | some _ => (w, s)
    | none => ({ w with buffers := Function.update w.buffers w.next (some Buffer.empty), next := w.next + 1 }, { s with buffer := some w.next })
  else (w, s)

/-- An access through the pointer `_buffer`: `none` for undefined behaviour, when it is null or the buffer has been deleted. -/
def access (w : World) (s : Stream) : Option (ℕ × Buffer) :=
  match s.buffer with
  | none => none
  | some k => (w.buffers k).map fun b => (k, b)

/-- 3rd/log4cpp/include/log4cpp/CategoryStream.hh l.88-98: `operator<<`. -/
def insert (w : World) (s : Stream) (t : List Char) : Option (World × Stream) :=
  if s.priority ≠ NOTSET then
    let r := ensure w s
    (access r.1 r.2).map fun kb => ({ r.1 with buffers := Function.update r.1.buffers kb.1 (some (kb.2.insert t)) }, r.2)
  else some (w, s)

/-- 3rd/log4cpp/src/CategoryStream.cpp l.36-42: `flush`. -/
def flush (w : World) (s : Stream) : Option (World × Stream) :=
  match s.buffer with
  | none => some (w, s)
  | some _ => (access w s).map fun kb =>
      ({ w with
          out := w.out ++ (log w.heap s.category s.priority).map fun a => (a, s.priority, kb.2.text)
          buffers := Function.update w.buffers kb.1 none }, { s with buffer := none })

/-- 3rd/log4cpp/src/CategoryStream.cpp l.43-52: `width`. -/
def width (w : World) (s : Stream) (n : ℕ) : Option (World × Stream) :=
  let r := ensure w s
  (access r.1 r.2).map fun kb => ({ r.1 with buffers := Function.update r.1.buffers kb.1 (some { kb.2 with width := n }) }, r.2)

/-- 3rd/log4cpp/src/CategoryStream.cpp l.56-61: `eol`. Buffers are always `good()`. -/
def eol (w : World) (s : Stream) : Option (World × Stream) :=
  match access w s with
  | none => none
  | some _ => flush w s

/-- 3rd/log4cpp/src/CategoryStream.cpp l.62-67: `left`. -/
def left (w : World) (s : Stream) : Option (World × Stream) :=
  (access w s).map fun kb => ({ w with buffers := Function.update w.buffers kb.1 (some { kb.2 with left := true }) }, s)

/-- What a program does with a stream, and meanwhile with the categories. -/
inductive Step where
  | insert (t : List Char)
  | endline
  | flush
  | eol
  | left
  | width (n : ℕ)
  | category (op : Op)

/-- One step. 3rd/log4cpp/src/CategoryStream.cpp l.31-34: `ENDLINE` flushes. -/
def step (ws : World × Stream) : Step → Option (World × Stream)
  | .insert t => insert ws.1 ws.2 t
  | .endline => flush ws.1 ws.2
  | .flush => flush ws.1 ws.2
  | .eol => eol ws.1 ws.2
  | .left => left ws.1 ws.2
  | .width n => width ws.1 ws.2 n
  | .category op => some ({ ws.1 with heap := run ws.1.heap op }, ws.2)

/-- All steps. -/
def steps : World × Stream → List Step → Option (World × Stream)
  | ws, [] => some ws
  | ws, x :: xs => (step ws x).bind fun ws' => steps ws' xs

/-- `Category::getInstance( name ).getStream( priority )` after some calls on categories, then the steps, then the destructor of the stream
(3rd/log4cpp/src/CategoryStream.cpp l.27-29). -/
def logStream (before : List Op) (name : Name) (priority : ℤ) (xs : List Step) : Option World :=
  let r := getInstance (before.foldl run Heap.empty) name
  ((steps (⟨r.1, fun _ => none, 0, []⟩, getStream r.1 r.2 priority) xs).bind fun ws => flush ws.1 ws.2).map fun ws => ws.1

/-- Two streams are in use: the steps of a program, each with the stream it is for (`false` for the first one). -/
def stepsTwo : World × Stream × Stream → List (Bool × Step) → Option (World × Stream × Stream)
  | ws, [] => some ws
  | (w, a, b), (false, x) :: xs => (step (w, a) x).bind fun r => stepsTwo (r.1, r.2, b) xs
  | (w, a, b), (true, x) :: xs => (step (w, b) x).bind fun r => stepsTwo (r.1, a, r.2) xs

/-- As `logStream` with two streams, the second one obtained after the first and destroyed before it. -/
def logStreams (before : List Op) (name : Name) (priority : ℤ) (name' : Name) (priority' : ℤ) (xs : List (Bool × Step)) : Option World :=
  let r := getInstance (before.foldl run Heap.empty) name
  let a := getStream r.1 r.2 priority
  let r' := getInstance r.1 name'
  let b := getStream r'.1 r'.2 priority'
  ((stepsTwo (⟨r'.1, fun _ => none, 0, []⟩, a, b) xs).bind fun ws => (flush ws.1 ws.2.2).bind fun q => flush q.1 ws.2.1).map fun ws => ws.1

end Ubitrack.LogStream
