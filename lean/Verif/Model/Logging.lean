import Mathlib.Data.List.Sort
import Mathlib.Logic.Function.Basic

/-!
# Model of the logging framework: 3rd/log4cpp (categories, priorities, appenders) and utUtil/Logging.cpp, Exception.cpp

Category objects are numbered in the order of their creation; a pointer to a category is its number. An appender is the
number `ℕ` of its address, so that a set of appenders is a strictly increasing list. Priorities are integers, as in the code.
Mutexes are not modelled, except in the section on interleaved calls.
-/

namespace Ubitrack.Logging

/-- Names of categories, `std::string`. -/
abbrev Name := List Char

/-- 3rd/log4cpp/include/log4cpp/Priority.hh l.74-93. -/
abbrev EMERG : ℤ := 0
/-- 3rd/log4cpp/include/log4cpp/Priority.hh l.84. -/
abbrev NOTICE : ℤ := 500
/-- 3rd/log4cpp/include/log4cpp/Priority.hh l.86. -/
abbrev INFO : ℤ := 600
/-- 3rd/log4cpp/include/log4cpp/Priority.hh l.88. -/
abbrev DEBUG : ℤ := 700
/-- 3rd/log4cpp/include/log4cpp/Priority.hh l.92. -/
abbrev NOTSET : ℤ := 800

/-- 3rd/log4cpp/include/log4cpp/Category.hh l.700-746: the members of a category. The map of owned appenders is not modelled. -/
structure Cat where
  name : Name
  parent : Option ℕ
  priority : ℤ
  chained : ℤ
  additive : Bool
  appenders : List ℕ
  children : List ℕ

instance : Inhabited Cat := ⟨⟨[], none, 0, 0, true, [], []⟩⟩

/-- The category objects and `_categoryMap` of the hierarchy maintainer. -/
structure Heap where
  size : ℕ
  cat : ℕ → Cat
  map : Name → Option ℕ

/-- 3rd/log4cpp/src/HierarchyMaintainer.cpp l.31: no categories. -/
def Heap.empty : Heap := ⟨0, fun _ => default, fun _ => none⟩

/-- Assignment to the object number `i`. -/
def Heap.modify (h : Heap) (i : ℕ) (f : Cat → Cat) : Heap := { h with cat := Function.update h.cat i (f (h.cat i)) }

/-- 3rd/log4cpp/src/HierarchyMaintainer.cpp l.69-75: the part of the name before the last dot, empty without a dot. -/
def parentName (name : Name) : Name := ((name.reverse.dropWhile fun c => c ≠ '.').drop 1).reverse

lemma parentName_length (name : Name) (h : name ≠ []) : (parentName name).length < name.length := by
  unfold parentName
  have h1 : (name.reverse.dropWhile fun c => c ≠ '.').length ≤ name.reverse.length := (List.dropWhile_sublist _).length_le
  have h2 := List.length_pos_iff.mpr h
  rw [List.length_reverse] at h1 ⊢
  rw [List.length_drop]
  omega

/-- 3rd/log4cpp/src/Category.cpp l.52-63, 248-251 (constructor, `_addChild`) and HierarchyMaintainer.cpp l.79. -/
def create (h : Heap) (name : Name) (parent : Option ℕ) (priority : ℤ) : Heap × ℕ :=
  let chained := match parent with
    | some p => if priority = NOTSET then (h.cat p).chained else priority
    | none => priority
  let h1 := match parent with
    | some p => h.modify p fun c => { c with children := c.children ++ [h.size] }
    | none => h
  ({ size := h.size + 1
     cat := Function.update h1.cat h.size ⟨name, parent, priority, chained, true, [], []⟩
     map := Function.update h1.map name (some h.size) }, h.size)

/-- 3rd/log4cpp/src/HierarchyMaintainer.cpp l.61-82: `_getInstance`. -/
def getInstance (h : Heap) (name : Name) : Heap × ℕ :=
  match h.map name with
  | some i => (h, i)
  | none =>
    if _hn : name = [] then create h name none INFO
    else
      let r := getInstance h (parentName name)
      create r.1 name (some r.2) NOTSET
termination_by name.length
decreasing_by exact parentName_length name _hn

/-- 3rd/log4cpp/src/Category.cpp l.89-97: `_updateChainedPriority`. The recursion goes from a category to its children, which
are younger; the first argument bounds its depth, and the number of categories is enough. -/
def updateChained : ℕ → ℤ → Heap → ℕ → Heap
  | 0, _, h, _ => h
  | fuel + 1, priority, h, i =>
    if (h.cat i).priority = NOTSET then
      (h.cat i).children.foldl (updateChained fuel priority) (h.modify i fun c => { c with chained := priority })
    else h

/-- 3rd/log4cpp/src/Category.cpp l.84-86: the loop over the children in `setPriority`. -/
def propagate (h : Heap) (i : ℕ) : Heap :=
  (h.cat i).children.foldl (updateChained h.size (h.cat i).chained) h

/-- 3rd/log4cpp/src/Category.cpp l.69-82: the assignments in `setPriority`; `none`: an exception is thrown. -/
def assignPriority (h : Heap) (i : ℕ) (priority : ℤ) : Option Heap :=
  if priority < NOTSET then some (h.modify i fun c => { c with priority := priority, chained := priority })
  else match (h.cat i).parent with
    | some p => some (h.modify i fun c => { c with priority := priority, chained := (h.cat p).chained })
    | none => none

/-- 3rd/log4cpp/src/Category.cpp l.69-87: `setPriority`. -/
def setPriority (h : Heap) (i : ℕ) (priority : ℤ) : Option Heap :=
  (assignPriority h i priority).map fun h => propagate h i

/-- 3rd/log4cpp/src/Category.cpp l.99-125: `addAppender`; a `NULL` pointer is not modelled. -/
def addAppender (h : Heap) (i a : ℕ) : Heap :=
  h.modify i fun c => if a ∈ c.appenders then c else { c with appenders := c.appenders.orderedInsert (· ≤ ·) a }

/-- 3rd/log4cpp/src/Category.cpp l.173-188: `removeAppender`. -/
def removeAppender (h : Heap) (i a : ℕ) : Heap := h.modify i fun c => { c with appenders := c.appenders.erase a }

/-- 3rd/log4cpp/src/Category.cpp l.156-171: `removeAllAppenders`. -/
def removeAllAppenders (h : Heap) (i : ℕ) : Heap := h.modify i fun c => { c with appenders := [] }

/-- 3rd/log4cpp/src/Category.cpp l.240-242. -/
def setAdditivity (h : Heap) (i : ℕ) (b : Bool) : Heap := h.modify i fun c => { c with additive := b }

/-- 3rd/log4cpp/src/Category.cpp l.225-238: the appenders called by `callAppenders`, in order. The recursion goes to older
categories; the first argument bounds its depth, and the number of categories is enough. -/
def callAppenders : ℕ → Heap → ℕ → List ℕ
  | 0, _, _ => []
  | fuel + 1, h, i =>
    (h.cat i).appenders ++ match (h.cat i).additive, (h.cat i).parent with
      | true, some p => callAppenders fuel h p
      | _, _ => []

/-- 3rd/log4cpp/include/log4cpp/Category.hh l.151-153: `isPriorityEnabled`. -/
def isPriorityEnabled (h : Heap) (i : ℕ) (priority : ℤ) : Bool := decide ((h.cat i).chained ≥ priority)

/-- 3rd/log4cpp/src/Category.cpp l.277-281: `log`; the appenders that are called. -/
def log (h : Heap) (i : ℕ) (priority : ℤ) : List ℕ :=
  if isPriorityEnabled h i priority then callAppenders h.size h i else []

/-- Calls of the interface, each on the category of a name (`Category::getInstance( name ).f( .. )`). -/
inductive Op where
  | get (name : Name)
  | setPriority (name : Name) (priority : ℤ)
  | setAdditivity (name : Name) (b : Bool)
  | addAppender (name : Name) (a : ℕ)
  | removeAppender (name : Name) (a : ℕ)
  | removeAllAppenders (name : Name)

/-- One call. A call that throws leaves the objects as they are. -/
def run (h : Heap) : Op → Heap
  | .get name => (getInstance h name).1
  | .setPriority name priority =>
    let r := getInstance h name
    (setPriority r.1 r.2 priority).getD r.1
  | .setAdditivity name b => let r := getInstance h name; setAdditivity r.1 r.2 b
  | .addAppender name a => let r := getInstance h name; addAppender r.1 r.2 a
  | .removeAppender name a => let r := getInstance h name; removeAppender r.1 r.2 a
  | .removeAllAppenders name => let r := getInstance h name; removeAllAppenders r.1 r.2

/-- The appenders called by `Category::getInstance( name ).log( priority, .. )`. -/
def logTo (h : Heap) (name : Name) (priority : ℤ) : List ℕ :=
  let r := getInstance h name
  log r.1 r.2 priority

/-! ## The default configuration -/

/-- src/utUtil/Logging.cpp l.85-94: `initLogging` when no configuration file can be read; `app` is the address of the new
appender for the standard error stream. -/
def initLogging (app : ℕ) : List Op :=
  [.setAdditivity "".toList false, .addAppender "".toList app, .setPriority "".toList INFO,
   .setPriority "Ubitrack.Events".toList NOTICE]

/-! ## Appenders -/

/-- 3rd/log4cpp/include/log4cpp/Filter.hh: decisions of a filter. -/
inductive Decision where
  | deny
  | neutral
  | accept
  deriving DecidableEq

/-- 3rd/log4cpp/src/Filter.cpp l.50-58: `decide`; the filter and its chain as a list of their own decisions. -/
def decideChain : Decision → List Decision → Decision
  | d, [] => d
  | .neutral, d :: rest => decideChain d rest
  | d, _ :: _ => d

/-- 3rd/log4cpp/src/AppenderSkeleton.cpp l.30-36: `doAppend` writes the event. `filters` are the decisions of the chain of
filters on this event, empty without a filter. -/
def doAppend (threshold : ℤ) (filters : List Decision) (priority : ℤ) : Bool :=
  if NOTSET = threshold ∨ priority ≤ threshold then
    match filters with
    | [] => true
    | d :: rest => decide (decideChain d rest ≠ .deny)
  else false

/-! ## Exceptions -/

/-- src/utUtil/Exception.cpp l.42-48: the message that the constructor of `Exception` logs, when the category of the
exceptions is enabled for `DEBUG`. `none`: a null pointer is written to a stream. -/
def exceptionLog (enabled : Bool) (message : String) (line : ℕ) (file : Option String) : Option (Option String) :=
  if enabled then
    match file with
    | some f => some (some ("Exception thrown in " ++ f ++ ":" ++ toString line ++ ", message: " ++ message))
    | none => none
  else some none

/-! ## Interleaved calls

Creating a category and setting the priority of its parent in two threads. Creation holds the lock of the hierarchy
maintainer; setting a priority does not take this lock. -/

/-- The steps of the two threads: reading the priority of the parent and entering the new category into the list of its
children (Category.cpp l.59-61), assignment and loop over the children (Category.cpp l.71-86). -/
inductive Step where
  | read
  | link
  | assign
  | loop

/-- State of the two threads: the objects and the value read by the creating thread. -/
structure Two where
  heap : Heap
  seen : ℤ

/-- One step; `name` is created below the category `p`, whose priority is set to `v`. -/
def twoStep (name : Name) (p : ℕ) (v : ℤ) (s : Two) : Step → Two
  | .read => { s with seen := (s.heap.cat p).chained }
  | .link => { s with heap := ((create s.heap name (some p) NOTSET).1).modify s.heap.size fun c => { c with chained := s.seen } }
  | .assign => { s with heap := (assignPriority s.heap p v).getD s.heap }
  | .loop => { s with heap := propagate s.heap p }

end Ubitrack.Logging
