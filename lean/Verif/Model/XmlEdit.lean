import Mathlib.Logic.Function.Basic
import Mathlib.Data.Nat.Notation
import Mathlib.Data.List.Basic

/-!
# Model: editing XML trees in memory

3rd/tinyxml/tinyxml.cpp and tinyxml.h: nodes with pointers. The heap maps addresses to the nodes that exist; reading or writing a node that does not exist is
undefined behaviour, which is modelled by having no result. `new` gives any unused address and does not fail. The asserts are those of a
release build, i.e. without effect. Error codes (`SetError`) and user data are left out. Values have no null characters.
-/

namespace Ubitrack.XmlEdit

abbrev Text := List Char

/-- The classes of nodes, with their own members: tinyxml.h `TiXmlText::cdata`, `TiXmlDeclaration`. -/
inductive Kind where
  | document
  | element
  | comment
  | unknown
  | text (cdata : Bool)
  | declaration (version encoding standalone : Text)
deriving DecidableEq

/-- What a node has besides pointers. Attributes in the order of the attribute list. -/
structure Data where
  kind : Kind
  value : Text
  attributes : List (Text × Text)
deriving DecidableEq

/-- tinyxml.h, `TiXmlNode`; null pointers are `none`. -/
structure Node where
  data : Data
  parent : Option ℕ
  firstChild : Option ℕ
  lastChild : Option ℕ
  prev : Option ℕ
  next : Option ℕ
deriving DecidableEq

abbrev Heap := ℕ → Option Node

/-! ## Attributes -/

/-- tinyxml.cpp l.1551-1583, `TiXmlAttributeSet::Find`, and l.555-561, `TiXmlElement::Attribute`: the value of the attribute found. The ring of attributes with its sentinel is
modelled by the list. -/
def attributeOf (as : List (Text × Text)) (name : Text) : Option Text := (as.find? fun a => a.1 = name).map Prod.snd

/-- tinyxml.cpp l.717-767, `TiXmlElement::SetAttribute`: the first attribute of the name gets the value, otherwise one is added at the end (l.1516-1529). -/
def setAttribute : List (Text × Text) → Text → Text → List (Text × Text)
  | [], name, value => [(name, value)]
  | a :: as, name, value => if a.1 = name then (name, value) :: as else a :: setAttribute as name value

/-- tinyxml.cpp l.416-429, `TiXmlElement::RemoveAttribute`. -/
def removeAttribute : List (Text × Text) → Text → List (Text × Text)
  | [], _ => []
  | a :: as, name => if a.1 = name then as else a :: removeAttribute as name

/-- Going through the attributes with `First` (tinyxml.h l.913) and `Next` (tinyxml.cpp l.1174-1181): an attribute behind the first whose name and value are empty is taken for the
sentinel. -/
def visited : List (Text × Text) → List (Text × Text)
  | [] => []
  | a :: as => a :: as.takeWhile fun b => ¬ (b.2 = [] ∧ b.1 = [])

/-- tinyxml.cpp l.831-837: the attributes of a copy. -/
def copyAttributes (as : List (Text × Text)) : List (Text × Text) :=
  (visited as).foldl (fun c a => setAttribute c a.1 a.2) []

/-! ## Pointers -/

/-- An assignment to members of the node at `a`. -/
def assign (h : Heap) (a : ℕ) (f : Node → Node) : Option Heap :=
  match h a with
  | none => none
  | some n => some (Function.update h a (some (f n)))

/-- tinyxml.cpp l.135-143: a new node. -/
def newNode (d : Data) : Node := ⟨d, none, none, none, none, none⟩

/-- tinyxml.cpp l.196-207: `LinkEndChild`, for a node that is not a document. -/
def linkEnd (h : Heap) (this node : ℕ) : Option Heap :=
  (assign h node fun n => { n with parent := some this }).bind fun h =>
  (h this).bind fun t =>
  (assign h node fun n => { n with prev := t.lastChild, next := none }).bind fun h =>
  (match t.lastChild with
    | some l => assign h l fun n => { n with next := some node }
    | none => assign h this fun n => { n with firstChild := some node }).bind fun h =>
  assign h this fun n => { n with lastChild := some node }

/-- tinyxml.cpp l.240-254: `InsertBeforeChild`, from the copy on. -/
def linkBefore (h : Heap) (this before node : ℕ) : Option Heap :=
  (assign h node fun n => { n with parent := some this }).bind fun h =>
  (assign h node fun n => { n with next := some before }).bind fun h =>
  (h before).bind fun b =>
  (assign h node fun n => { n with prev := b.prev }).bind fun h =>
  (match b.prev with
    | some p => assign h p fun n => { n with next := some node }
    | none => assign h this fun n => { n with firstChild := some node }).bind fun h =>
  assign h before fun n => { n with prev := some node }

/-- tinyxml.cpp l.272-286: `InsertAfterChild`, from the copy on. -/
def linkAfter (h : Heap) (this after node : ℕ) : Option Heap :=
  (assign h node fun n => { n with parent := some this }).bind fun h =>
  (assign h node fun n => { n with prev := some after }).bind fun h =>
  (h after).bind fun a =>
  (assign h node fun n => { n with next := a.next }).bind fun h =>
  (match a.next with
    | some x => assign h x fun n => { n with prev := some node }
    | none => assign h this fun n => { n with lastChild := some node }).bind fun h =>
  assign h after fun n => { n with next := some node }

/-- tinyxml.cpp l.299-310: `ReplaceChild`, from the copy to the destruction of the old node. -/
def linkInstead (h : Heap) (this old node : ℕ) : Option Heap :=
  (h old).bind fun o =>
  (assign h node fun n => { n with next := o.next }).bind fun h =>
  (assign h node fun n => { n with prev := o.prev }).bind fun h =>
  (match o.next with
    | some x => assign h x fun n => { n with prev := some node }
    | none => assign h this fun n => { n with lastChild := some node }).bind fun h =>
  (match o.prev with
    | some x => assign h x fun n => { n with next := some node }
    | none => assign h this fun n => { n with firstChild := some node })

/-- tinyxml.cpp l.326-334: `RemoveChild`, up to the destruction of the node. -/
def unlink (h : Heap) (this old : ℕ) : Option Heap :=
  (h old).bind fun o =>
  (match o.next with
    | some x => assign h x fun n => { n with prev := o.prev }
    | none => assign h this fun n => { n with lastChild := o.prev }).bind fun h =>
  (match o.prev with
    | some x => assign h x fun n => { n with next := o.next }
    | none => assign h this fun n => { n with firstChild := o.next })

/-! ## Destruction and copies -/

/-- tinyxml.cpp l.146-157 and l.167-181: the loop of the destructor over a chain of children; the children of each are destroyed first (destructor of the child). -/
inductive FreeChain : Heap → Option ℕ → Heap → Prop
  | nil (h : Heap) : FreeChain h none h
  | cons (h h1 h2 : Heap) (c : ℕ) (n n1 : Node) : h c = some n → FreeChain h n.firstChild h1 → h1 c = some n1 →
      FreeChain (Function.update h1 c none) n.next h2 → FreeChain h (some c) h2

/-- `delete node`. -/
def Delete (h : Heap) (node : ℕ) (h' : Heap) : Prop :=
  ∃ n n1 h1, h node = some n ∧ FreeChain h n.firstChild h1 ∧ h1 node = some n1 ∧ h' = Function.update h1 node none

/-- The children that `Clone` goes through: those of documents and elements (tinyxml.cpp l.824-844, l.1119-1135); the others copy none (l.1310-1315, l.1356-1360, l.1442-1449, l.1478-1481). -/
def copied (n : Node) : Option ℕ :=
  match n.data.kind with
  | .document => n.firstChild
  | .element => n.firstChild
  | _ => none

/-- The members of a copy: `CopyTo` of the classes and of `TiXmlNode` (l.160-164). -/
def copyData (d : Data) : Data := { d with attributes := if d.kind = .element then copyAttributes d.attributes else [] }

/-- tinyxml.cpp l.839-843 and l.1130-1134: the loop over the children, each is copied and linked to `target`. A document in it would be destroyed at once (l.189-194). -/
inductive CloneChain : Heap → Option ℕ → ℕ → Heap → Prop
  | nil (h : Heap) (target : ℕ) : CloneChain h none target h
  | cons (h h1 h2 h3 : Heap) (c m target : ℕ) (n n2 : Node) : h c = some n → n.data.kind ≠ .document → h m = none →
      CloneChain (Function.update h m (some (newNode (copyData n.data)))) (copied n) m h1 → linkEnd h1 target m = some h2 →
      h2 c = some n2 → CloneChain h2 n2.next target h3 → CloneChain h (some c) target h3

/-- tinyxml.cpp l.860-868, l.1138-1146 and the other classes: `Clone`, with the address of the copy. -/
def Clone (h : Heap) (source : ℕ) (h' : Heap) (copy : ℕ) : Prop :=
  ∃ n, h source = some n ∧ h copy = none ∧ CloneChain (Function.update h copy (some (newNode (copyData n.data)))) (copied n) copy h'

/-! ## The functions -/

/-- tinyxml.cpp l.184-208: `LinkEndChild`, with the pointer returned. -/
def LinkEndChild (h : Heap) (this node : ℕ) (h' : Heap) (r : Option ℕ) : Prop :=
  ∃ n, h node = some n ∧
    if n.data.kind = .document then Delete h node h' ∧ r = none
    else linkEnd h this node = some h' ∧ r = some node

/-- tinyxml.cpp l.211-223: `InsertEndChild`. -/
def InsertEndChild (h : Heap) (this addThis : ℕ) (h' : Heap) (r : Option ℕ) : Prop :=
  ∃ a, h addThis = some a ∧
    if a.data.kind = .document then h' = h ∧ r = none
    else ∃ h1 n, Clone h addThis h1 n ∧ LinkEndChild h1 this n h' r

/-- tinyxml.cpp l.226-255: `InsertBeforeChild`. -/
def InsertBeforeChild (h : Heap) (this : ℕ) (beforeThis : Option ℕ) (addThis : ℕ) (h' : Heap) (r : Option ℕ) : Prop :=
  match beforeThis with
  | none => h' = h ∧ r = none
  | some b => ∃ bn, h b = some bn ∧
    if bn.parent ≠ some this then h' = h ∧ r = none
    else ∃ a, h addThis = some a ∧
      if a.data.kind = .document then h' = h ∧ r = none
      else ∃ h1 n, Clone h addThis h1 n ∧ linkBefore h1 this b n = some h' ∧ r = some n

/-- tinyxml.cpp l.258-287: `InsertAfterChild`. -/
def InsertAfterChild (h : Heap) (this : ℕ) (afterThis : Option ℕ) (addThis : ℕ) (h' : Heap) (r : Option ℕ) : Prop :=
  match afterThis with
  | none => h' = h ∧ r = none
  | some b => ∃ bn, h b = some bn ∧
    if bn.parent ≠ some this then h' = h ∧ r = none
    else ∃ a, h addThis = some a ∧
      if a.data.kind = .document then h' = h ∧ r = none
      else ∃ h1 n, Clone h addThis h1 n ∧ linkAfter h1 this b n = some h' ∧ r = some n

/-- tinyxml.cpp l.290-315: `ReplaceChild`. -/
def ReplaceChild (h : Heap) (this replaceThis withThis : ℕ) (h' : Heap) (r : Option ℕ) : Prop :=
  ∃ o, h replaceThis = some o ∧
    if o.parent ≠ some this then h' = h ∧ r = none
    else ∃ h1 n h2 h3, Clone h withThis h1 n ∧ linkInstead h1 this replaceThis n = some h2 ∧ Delete h2 replaceThis h3 ∧
      (assign h3 n fun x => { x with parent := some this }) = some h' ∧ r = some n

/-- tinyxml.cpp l.318-338: `RemoveChild`. -/
def RemoveChild (h : Heap) (this removeThis : ℕ) (h' : Heap) (r : Bool) : Prop :=
  ∃ o, h removeThis = some o ∧
    if o.parent ≠ some this then h' = h ∧ r = false
    else ∃ h1, unlink h this removeThis = some h1 ∧ Delete h1 removeThis h' ∧ r = true

/-- tinyxml.cpp l.340-361, l.392-413: the loops of `FirstChild`, `LastChild`, `NextSibling` and `PreviousSibling` for a value, from a node on; `step` is the pointer followed.
Also l.431-443 and l.461-473, the loops of `FirstChildElement` and `NextSiblingElement`, where the test is that of `ToElement`. -/
inductive Search (h : Heap) (step : Node → Option ℕ) (test : Node → Bool) : Option ℕ → Option ℕ → Prop
  | stop : Search h step test none none
  | found (a : ℕ) (n : Node) : h a = some n → test n = true → Search h step test (some a) (some a)
  | further (a : ℕ) (n : Node) (r : Option ℕ) : h a = some n → test n = false → Search h step test (step n) r → Search h step test (some a) r

/-- `strcmp( node->Value(), _value ) == 0`. -/
def hasValue (value : Text) (n : Node) : Bool := n.data.value = value

/-- `node->ToElement() != 0`. -/
def toElement (n : Node) : Bool := n.data.kind = .element

/-- tinyxml.cpp l.446-458 and l.476-488: the loops of `FirstChildElement` and `NextSiblingElement` for a value, from the first result of `FirstChild` or `NextSibling` on. -/
inductive ElementSearch (h : Heap) (value : Text) : Option ℕ → Option ℕ → Prop
  | stop : ElementSearch h value none none
  | found (a : ℕ) (n : Node) : h a = some n → toElement n = true → ElementSearch h value (some a) (some a)
  | further (a : ℕ) (n : Node) (b r : Option ℕ) : h a = some n → toElement n = false → Search h Node.next (hasValue value) n.next b → ElementSearch h value b r →
      ElementSearch h value (some a) r

end Ubitrack.XmlEdit
