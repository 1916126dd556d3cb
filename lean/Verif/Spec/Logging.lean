import Verif.Model.Logging
import Mathlib.Data.Finset.Insert
import Mathlib.Data.Finset.Basic

/-!
# Specification: hierarchical logging

Names with dots form a hierarchy: `a.b` is below `a`, and everything is below the root, whose name is empty. A category
without a priority of its own has the priority of the category above it. A message reaches the appenders of its category
and of the categories above it, up to the first category that is not additive. Only the type `Op` of the calls is taken from
the model.
-/

namespace Ubitrack.Spec

/-- `above name` is the name of the category directly above. -/
def IsAbove (p name : List Char) : Prop :=
  (∃ last, name = p ++ '.' :: last ∧ '.' ∉ last) ∨ (p = [] ∧ '.' ∉ name ∧ name ≠ [])

/-- What has been set for each name. -/
structure LogConfig where
  priority : List Char → Option ℤ
  additive : List Char → Bool
  appenders : List Char → Finset ℕ

/-- Initially the root has priority `INFO` (600), all are additive, and there are no appenders. -/
def LogConfig.init : LogConfig := ⟨fun n => if n = [] then some 600 else none, fun _ => true, fun _ => ∅⟩

/-- What a call sets. Asking for a category sets nothing; a priority of `NOTSET` (800) removes the priority of a category, but
the root keeps its priority. -/
def LogConfig.after (c : LogConfig) : Logging.Op → LogConfig
  | .get _ => c
  | .setPriority name v => { c with priority := fun n => if n = name then
      (if v < 800 then some v else if name = [] then c.priority n else none) else c.priority n }
  | .setAdditivity name b => { c with additive := fun n => if n = name then b else c.additive n }
  | .addAppender name a => { c with appenders := fun n => if n = name then insert a (c.appenders n) else c.appenders n }
  | .removeAppender name a => { c with appenders := fun n => if n = name then (c.appenders n).erase a else c.appenders n }
  | .removeAllAppenders name => { c with appenders := fun n => if n = name then ∅ else c.appenders n }

/-- What is set after some calls, from the start of the program. -/
def configAfter (ops : List Logging.Op) : LogConfig := ops.foldl LogConfig.after .init

/-- The calls set no priority beyond `NOTSET`. -/
def OrdinaryPriorities (ops : List Logging.Op) : Prop := ∀ name v, Logging.Op.setPriority name v ∈ ops → v ≤ 800

/-- The priority that is in force for a name: its own, or that in force for the name above. -/
inductive InForce (c : LogConfig) : List Char → ℤ → Prop
  | own (name : List Char) (v : ℤ) : c.priority name = some v → InForce c name v
  | above (name p : List Char) (v : ℤ) : c.priority name = none → IsAbove p name → InForce c p v → InForce c name v

/-- The names whose appenders get a message to `name`, from `name` upwards. -/
inductive Path (c : LogConfig) : List Char → List (List Char) → Prop
  | root : Path c [] [[]]
  | stop (name : List Char) : c.additive name = false → Path c name [name]
  | up (name p : List Char) (rest : List (List Char)) : c.additive name = true → IsAbove p name → Path c p rest →
      Path c name (name :: rest)

end Ubitrack.Spec
