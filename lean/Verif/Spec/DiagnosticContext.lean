import Verif.Model.DiagnosticContext

/-!
# Specification: nested diagnostic contexts

Every thread has a stack of words. Only the type of operations is taken from the model.
-/

namespace Ubitrack.Spec.Contexts

open DiagnosticContext (Op)

/-- The words of every thread, the innermost last, and the copies that have been made. -/
structure Words where
  words : ℕ → List (List Char)
  copies : List (List (List Char))

/-- The meaning of an operation; there is none for leaving a context that was not entered, nor for a copy that does not exist. -/
def after (w : Words) : Op → Option Words
  | .push t m => some ⟨fun u => if u = t then w.words u ++ [m] else w.words u, w.copies⟩
  | .pop t => if w.words t = [] then none else some ⟨fun u => if u = t then (w.words u).dropLast else w.words u, w.copies⟩
  | .clear t => some ⟨fun u => if u = t then [] else w.words u, w.copies⟩
  | .cloneStack t => some ⟨w.words, w.copies ++ [w.words t]⟩
  | .inherit t c => if h : c < w.copies.length then some ⟨fun u => if u = t then w.copies[c] else w.words u, w.copies⟩ else none

/-- The meaning of a history. -/
def history (w : Words) : List Op → Option Words
  | [] => some w
  | o :: os => (after w o).bind fun w' => history w' os

/-- Words separated by single spaces. -/
def sentence (ws : List (List Char)) : List Char := List.intercalate [' '] ws

/-- The thread an operation belongs to. -/
def thread : Op → ℕ
  | .push t _ => t
  | .pop t => t
  | .clear t => t
  | .cloneStack t => t
  | .inherit t _ => t

/-- Operations in which thread `t` leaves exactly the contexts that it enters; other threads do anything. -/
inductive Balanced (t : ℕ) : List Op → Prop
  | nil : Balanced t []
  | other (o : Op) (os : List Op) : thread o ≠ t → Balanced t os → Balanced t (o :: os)
  | copy (os : List Op) : Balanced t os → Balanced t (.cloneStack t :: os)
  | nest (m : List Char) (os os' : List Op) : Balanced t os → Balanced t os' → Balanced t (.push t m :: os ++ .pop t :: os')

end Ubitrack.Spec.Contexts
