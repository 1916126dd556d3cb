import Verif.Model.LogText

/-!
# Specification: basic and simple layouts, queues of messages

Only the types `Event` and `QueueOp` are taken from the model.
-/

namespace Ubitrack.Spec.LogText

open LogLayout (Event)
open Ubitrack.LogText (QueueOp)

/-- The named priorities. -/
def levels : List ℤ := [0, 100, 200, 300, 400, 500, 600, 700, 750, 800]

/-- The fields of an event do not contain what separates them. -/
structure Separable (e : Event) : Prop where
  seconds : ' ' ∉ e.seconds
  category : ' ' ∉ e.categoryName
  ndc : ':' ∉ e.ndc

/-- No field of an event that is written contains a line break. -/
structure OneLine (e : Event) : Prop where
  seconds : '\n' ∉ e.seconds
  category : '\n' ∉ e.categoryName
  ndc : '\n' ∉ e.ndc
  message : '\n' ∉ e.message

/-- The texts of the events within the threshold at their time; 800 is no threshold. -/
def accepted : ℤ → List QueueOp → List (List Char)
  | _, [] => []
  | t, .append priority text :: ops => if t = 800 ∨ priority ≤ t then text :: accepted t ops else accepted t ops
  | _, .threshold v :: ops => accepted v ops
  | t, .pop :: ops => accepted t ops

/-- How many messages have been asked for. -/
def asked (ops : List QueueOp) : ℕ := ops.countP fun o => match o with
  | .pop => true
  | _ => false

end Ubitrack.Spec.LogText
