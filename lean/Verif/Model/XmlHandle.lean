import Verif.Model.XmlEdit
import Mathlib.Data.Int.Notation

/-!
# Model: handles of XML nodes

3rd/tinyxml/tinyxml.cpp l.1634-1755 and tinyxml.h l.1634-1710, on top of the nodes in memory of `Verif.Model.XmlEdit`. A handle is its member `node`, a pointer that may be
null. The searches for a value or an element are those of `XmlEdit`.
-/

namespace Ubitrack.XmlHandle

open XmlEdit

/-- The four kinds of functions: `FirstChild()`, `FirstChild( value )`, `FirstChildElement()`, `FirstChildElement( value )`, and the same for `Child` and
`ChildElement`. -/
inductive Nav where
  | any
  | value (v : Text)
  | element
  | elementValue (v : Text)

/-- From the first candidate on: the loops in tinyxml.cpp l.340-361, 392-413, 431-488 behind `FirstChild`, `NextSibling`, `FirstChildElement`, `NextSiblingElement`. -/
def From (h : Heap) (nav : Nav) (start r : Option ℕ) : Prop :=
  match nav with
  | .any => r = start
  | .value v => Search h Node.next (hasValue v) start r
  | .element => Search h Node.next toElement start r
  | .elementValue v => ∃ b, Search h Node.next (hasValue v) start b ∧ ElementSearch h v b r

/-- tinyxml.cpp l.1634-1679: `FirstChild` and `FirstChildElement` of a handle. -/
def FirstChild (h : Heap) (nav : Nav) (node r : Option ℕ) : Prop :=
  match node with
  | none => r = none
  | some p => ∃ n, h p = some n ∧ From h nav n.firstChild r

/-- tinyxml.cpp l.1687-1693, 1706-1712, 1725-1731, 1744-1750: the loops of `Child` and `ChildElement`; `k` is how often `i<count` still holds. -/
inductive Loop (h : Heap) (nav : Nav) : Option ℕ → ℕ → Option ℕ → Prop
  | stop (k : ℕ) : Loop h nav none k none
  | done (a : ℕ) : Loop h nav (some a) 0 (some a)
  | further (a : ℕ) (n : Node) (b : Option ℕ) (k : ℕ) (r : Option ℕ) : h a = some n → From h nav n.next b → Loop h nav b k r → Loop h nav (some a) (k + 1) r

/-- tinyxml.cpp l.1682-1755: `Child` and `ChildElement` of a handle. -/
def Child (h : Heap) (nav : Nav) (count : ℤ) (node r : Option ℕ) : Prop :=
  match node with
  | none => r = none
  | some p => ∃ n b, h p = some n ∧ From h nav n.firstChild b ∧ Loop h nav b count.toNat r

/-- A row of calls, as in `handle.FirstChild( "a" ).Child( "b", 1 )`; `none` for the first child. -/
inductive Calls (h : Heap) : List (Nav × Option ℤ) → Option ℕ → Option ℕ → Prop
  | nil (node : Option ℕ) : Calls h [] node node
  | first (nav : Nav) (rest : List (Nav × Option ℤ)) (node b r : Option ℕ) : FirstChild h nav node b → Calls h rest b r → Calls h ((nav, none) :: rest) node r
  | child (nav : Nav) (count : ℤ) (rest : List (Nav × Option ℤ)) (node b r : Option ℕ) : Child h nav count node b → Calls h rest b r →
      Calls h ((nav, some count) :: rest) node r

/-- tinyxml.h l.1684: `ToElement` of a handle. -/
def ToElement (h : Heap) (node r : Option ℕ) : Prop :=
  match node with
  | none => r = none
  | some p => ∃ n, h p = some n ∧ r = if toElement n then some p else none

end Ubitrack.XmlHandle
