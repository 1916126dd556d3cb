import Verif.Model.XmlAttribute

/-!
# Specification: attributes as a map

The value of an attribute is the one set last, if it has not been removed since; the names are in the order in which the attributes came into being.
-/

namespace Ubitrack.Spec.Attributes

open XmlAttribute (Op)

abbrev Text := List Char

/-- What a call does to the value of an attribute. -/
def valueStep (name : Text) (v : Option Text) : Op → Option Text
  | .set n x => if n = name then some x else v
  | .remove n => if n = name then none else v

/-- The value of an attribute after a history. -/
def current (ops : List Op) (name : Text) : Option Text := ops.foldl (valueStep name) none

/-- What a call does to the names. -/
def nameStep (l : List Text) : Op → List Text
  | .set n _ => if n ∈ l then l else l ++ [n]
  | .remove n => l.filter fun m => m ≠ n

/-- The names after a history. -/
def names (ops : List Op) : List Text := ops.foldl nameStep []

/-- A text that starts, after blanks, with an integer: blanks, an optional sign, all digits that follow, and the rest. -/
structure Starts (s : Text) (negative : Bool) (digits : Text) : Prop where
  text : ∃ blanks sign rest, s = blanks ++ sign ++ digits ++ rest ∧ (∀ c ∈ blanks, c ∈ [' ', '\t', '\n', '\x0b', '\x0c', '\r']) ∧
    sign ∈ (if negative then [['-']] else [[], ['+']]) ∧ ∀ c ∈ rest.head?, ¬ ('0' ≤ c ∧ c ≤ '9')
  some : digits ≠ []
  all : ∀ c ∈ digits, '0' ≤ c ∧ c ≤ '9'

/-- The number that digits stand for. -/
def number (digits : Text) : ℕ := digits.foldl (fun n c => 10 * n + (c.toNat - '0'.toNat)) 0

end Ubitrack.Spec.Attributes
