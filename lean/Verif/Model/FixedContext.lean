import Verif.Model.Logging

/-!
# Model: categories with a fixed context

3rd/log4cpp/src/FixedContextCategory.cpp on top of the categories in `Verif.Model.Logging`. An object of this class is a category object as well,
but it is not known to the hierarchy maintainer.
-/

namespace Ubitrack.FixedContext

open Logging

/-- 3rd/log4cpp/include/log4cpp/FixedContextCategory.hh l.150-166: the members; `index` is the object itself, as a category. -/
structure Fixed where
  index : ℕ
  delegate : ℕ
  context : List Char

/-- 3rd/log4cpp/src/FixedContextCategory.cpp l.15-20: the constructor: a category with the parent of the category of this name, without a priority. -/
def newFixed (h : Heap) (name : Name) (context : List Char) : Heap × Fixed :=
  let r := getInstance h name
  let c := create r.1 name (r.1.cat r.2).parent NOTSET
  ({ c.1 with map := r.1.map }, ⟨c.2, r.2, context⟩)

/-- 3rd/log4cpp/src/FixedContextCategory.cpp l.66-69, 79-85 and Category.cpp l.277-281: `log`; the appenders that are called, each with the context of
the event. -/
def fixedLog (h : Heap) (f : Fixed) (priority : ℤ) : List (ℕ × List Char) :=
  if isPriorityEnabled h f.index priority then (callAppenders h.size h f.delegate).map fun a => (a, f.context) else []

/-- Calls after the construction: on categories, and on the object. -/
inductive Event where
  | category (op : Op)
  | setContext (context : List Char)
  | setPriority (priority : ℤ)
  | addAppender (a : ℕ)
  | removeAllAppenders
  | setAdditivity (b : Bool)

/-- One call. 3rd/log4cpp/src/FixedContextCategory.cpp l.25-27: `setContext`; l.33-39, 54-56, 71-73: `addAppender`, `removeAllAppenders`, `setAdditivity`
do nothing. `setPriority` is that of Category.cpp l.69-87. -/
def runEvent (s : Heap × Fixed) : Event → Heap × Fixed
  | .category op => (run s.1 op, s.2)
  | .setContext context => (s.1, { s.2 with context := context })
  | .setPriority priority => ((Logging.setPriority s.1 s.2.index priority).getD s.1, s.2)
  | .addAppender _ => s
  | .removeAllAppenders => s
  | .setAdditivity _ => s

/-- 3rd/log4cpp/src/FixedContextCategory.cpp l.22-23 and Category.cpp l.65-67: the destructor. The object cannot be used afterwards. -/
def destroyFixed (s : Heap × Fixed) : Heap := Logging.removeAllAppenders s.1 s.2.index

/-- 3rd/log4cpp/src/Category.cpp l.84-96: the objects that `setPriority` of the object `i` calls, from its list of children downwards. The first argument bounds
the depth. -/
def visited : ℕ → Heap → ℕ → List ℕ
  | 0, _, _ => []
  | fuel + 1, h, i =>
    (h.cat i).children.flatMap fun c => c :: (if (h.cat c).priority = NOTSET then visited fuel h c else [])

end Ubitrack.FixedContext
