import Verif.Spec.Logging
import Verif.Model.FixedContext

/-!
# Specification: categories with a fixed context

Only the type `Event` of the calls is taken from the model.
-/

namespace Ubitrack.Spec.FixedCategory

open FixedContext (Event)

/-- The calls on categories among some calls. -/
def categoryCalls (events : List Event) : List Logging.Op := events.filterMap fun e => match e with
  | .category op => some op
  | _ => none

/-- The priority that was set last, if any; `NOTSET` (800) removes it. -/
def ownPriority (events : List Event) : Option ℤ := events.foldl (fun p e => match e with
  | .setPriority v => if v < 800 then some v else none
  | _ => p) none

/-- The context that was set last. -/
def lastContext (context : List Char) (events : List Event) : List Char := events.foldl (fun c e => match e with
  | .setContext d => d
  | _ => c) context

/-- The priority in force: the own one, or that of the category above the name. -/
def InForceFixed (c : LogConfig) (name : List Char) (events : List Event) (v : ℤ) : Prop :=
  ownPriority events = some v ∨ (ownPriority events = none ∧ ∃ p, IsAbove p name ∧ InForce c p v)

/-- No priority beyond `NOTSET` is set. -/
def Ordinary (events : List Event) : Prop := OrdinaryPriorities (categoryCalls events) ∧ ∀ v, Event.setPriority v ∈ events → v ≤ 800

end Ubitrack.Spec.FixedCategory
