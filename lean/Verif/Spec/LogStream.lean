import Verif.Spec.Logging
import Verif.Model.LogStream

/-!
# Specification: streams of a category

Only the type `Step` of the steps of a program is taken from the model.
-/

namespace Ubitrack.Spec.LogStream

open Ubitrack.LogStream (Step)

/-- Steps that end a message. -/
def isEnd : Step → Bool
  | .endline => true
  | .flush => true
  | .eol => true
  | _ => false

/-- Steps that begin a message. -/
def begins : Step → Bool
  | .insert _ => true
  | .width _ => true
  | _ => false

/-- Steps that may only be used within a message. -/
def needsMessage : Step → Bool
  | .eol => true
  | .left => true
  | _ => false

/-- Each `eol` and `left` comes after something that belongs to the same message. -/
def Safe (xs : List Step) : Prop := ∀ a x b, xs = a ++ x :: b → needsMessage x = true →
  ∃ c y d, a = c ++ y :: d ∧ begins y = true ∧ ∀ z ∈ d, isEnd z = false

/-- The calls on categories among some steps. -/
def calls (xs : List Step) : List Logging.Op := xs.filterMap fun x => match x with
  | .category op => some op
  | _ => none

/-- The text of the steps of one message: each piece is filled up with blanks to the width set before it, on the left, or on the right after `left`. -/
def text : ℕ → Bool → List Step → List Char
  | _, _, [] => []
  | width, toLeft, .insert t :: xs => (if toLeft then t.rightpad width ' ' else t.leftpad width ' ') ++ text 0 toLeft xs
  | _, toLeft, .width n :: xs => text n toLeft xs
  | width, _, .left :: xs => text width true xs
  | width, toLeft, _ :: xs => text width toLeft xs

/-- What is delivered for the messages of a program: nothing for one without a step that begins it, otherwise what is delivered for its text after
the calls on categories up to its end. -/
def delivered {α : Type} (deliver : List Logging.Op → List Char → List α) : List Logging.Op → List (List Step) → List α
  | _, [] => []
  | ops, m :: ms => (if m.any begins then deliver (ops ++ calls m) (text 0 false m) else []) ++ delivered deliver (ops ++ calls m) ms

/-- What one of two streams sees of a program: its own steps, and all calls on categories. -/
def view (which : Bool) (xs : List (Bool × Step)) : List Step := xs.filterMap fun x => match x with
  | (_, .category op) => some (.category op)
  | (b, y) => if b = which then some y else none

end Ubitrack.Spec.LogStream
