import Verif.Model.XmlEdit
import Mathlib.Logic.Relation

/-!
# Specification: XML trees in memory

What the pointers of a tree have to be, and which tree a program sees. Only the types of nodes and heaps are taken from the model.
-/

namespace Ubitrack.Spec.Dom

open XmlEdit (Heap Node Data Kind)

/-- `cs` are the children of `p`, in order: the pointers of `p` lead to the first and the last; each child has `p` as its parent and points to its neighbours. -/
def Children (h : Heap) (p : ℕ) (cs : List ℕ) : Prop :=
  (∃ n, h p = some n ∧ n.firstChild = cs.head? ∧ n.lastChild = cs.getLast?) ∧ cs.Nodup ∧
  ∀ l c r, cs = l ++ c :: r → ∃ n, h c = some n ∧ n.parent = some p ∧ n.prev = l.getLast? ∧ n.next = r.head?

/-- `c` is a child of `p`. -/
def ChildOf (h : Heap) (c p : ℕ) : Prop := ∃ n, h c = some n ∧ n.parent = some p

/-- `a` is `b` or below it. -/
def Within (h : Heap) (a b : ℕ) : Prop := Relation.ReflTransGen (ChildOf h) a b

/-- All pointers fit together: finitely many nodes, each with a list of children; every node is in the list of its parent; roots have no neighbours; no node is
below itself. -/
structure Sound (h : Heap) : Prop where
  finite : ∃ bound, ∀ a, bound ≤ a → h a = none
  lists : ∀ p n, h p = some n → ∃ cs, Children h p cs
  parents : ∀ c p, ChildOf h c p → ∃ cs, Children h p cs ∧ c ∈ cs
  roots : ∀ c n, h c = some n → n.parent = none → n.prev = none ∧ n.next = none
  acyclic : WellFounded (ChildOf h)

/-- Trees as values. -/
inductive Tree where
  | node (data : Data) (children : List Tree)

/-- The trees seen when going from a child from sibling to sibling, and down to the children of each. -/
inductive ShowsChain (h : Heap) : Option ℕ → List Tree → Prop
  | nil : ShowsChain h none []
  | cons (a : ℕ) (n : Node) (kids rest : List Tree) : h a = some n → ShowsChain h n.firstChild kids → ShowsChain h n.next rest →
      ShowsChain h (some a) (.node n.data kids :: rest)

/-- The tree seen at a node. -/
def Shows (h : Heap) (a : ℕ) (t : Tree) : Prop := ∃ n kids, h a = some n ∧ ShowsChain h n.firstChild kids ∧ t = .node n.data kids

/-- Nodes as the parser makes them: documents only at the top, children and attributes where they belong, no two attributes of one name, and no attribute without
name. -/
inductive Plain : Tree → Prop
  | node (d : Data) (kids : List Tree) : d.kind ≠ .document → (d.kind ≠ .element → kids = [] ∧ d.attributes = []) →
      (d.attributes.map Prod.fst).Nodup → (∀ a ∈ d.attributes, a.1 ≠ []) → (∀ t ∈ kids, Plain t) → Plain (.node d kids)

/-- From `h` to `h'` the nodes that are not `gone` are still there, with their data and parents; all of them but `this` have the children they had. -/
def Untouched (h h' : Heap) (this : ℕ) (gone : ℕ → Prop) : Prop :=
  ∀ x n, h x = some n → ¬ gone x →
    (∃ n', h' x = some n' ∧ n'.data = n.data ∧ n'.parent = n.parent) ∧ (x ≠ this → ∀ cs, Children h x cs → Children h' x cs)

/-- A copy `m` of a tree `t` has been made: `m` is a new node that shows `t`, and what is new is in its tree. -/
def NewCopy (h h' : Heap) (m : ℕ) (t : Tree) : Prop :=
  h m = none ∧ Shows h' m t ∧ ∀ x, h x = none → h' x ≠ none → Within h' x m

/-- Whether a node has a value. -/
def valued (h : Heap) (v : List Char) (a : ℕ) : Bool := match h a with
  | some n => n.data.value = v
  | none => false

/-- Whether a node is an element. -/
def isElement (h : Heap) (a : ℕ) : Bool := match h a with
  | some n => n.data.kind = .element
  | none => false

/-- What a program may do, step by step: make nodes, change their data, copy trees to new places, take children out, link trees of their own, and destroy them. -/
inductive Step : Heap → Heap → Prop
  | create (h : Heap) (m : ℕ) (d : Data) : h m = none → Step h (Function.update h m (some (XmlEdit.newNode d)))
  | set (h : Heap) (a : ℕ) (n : Node) (d : Data) : h a = some n → Step h (Function.update h a (some { n with data := d }))
  | insertEnd (h h' : Heap) (this a : ℕ) (t : Tree) (r : Option ℕ) : h this ≠ none → Shows h a t → Plain t → XmlEdit.InsertEndChild h this a h' r → Step h h'
  | insertBefore (h h' : Heap) (this a : ℕ) (b : Option ℕ) (t : Tree) (r : Option ℕ) : h this ≠ none → Shows h a t → Plain t → XmlEdit.InsertBeforeChild h this b a h' r → Step h h'
  | insertAfter (h h' : Heap) (this a : ℕ) (b : Option ℕ) (t : Tree) (r : Option ℕ) : h this ≠ none → Shows h a t → Plain t → XmlEdit.InsertAfterChild h this b a h' r → Step h h'
  | replace (h h' : Heap) (this a b : ℕ) (t : Tree) (r : Option ℕ) : h this ≠ none → Shows h a t → Plain t → XmlEdit.ReplaceChild h this b a h' r → Step h h'
  | remove (h h' : Heap) (this b : ℕ) (ok : Bool) : h this ≠ none → XmlEdit.RemoveChild h this b h' ok → Step h h'
  | link (h h' : Heap) (this m : ℕ) (n : Node) (r : Option ℕ) : h this ≠ none → h m = some n → n.parent = none → ¬ Within h this m → XmlEdit.LinkEndChild h this m h' r → Step h h'
  | delete (h h' : Heap) (a : ℕ) (n : Node) : h a = some n → n.parent = none → XmlEdit.Delete h a h' → Step h h'

end Ubitrack.Spec.Dom
