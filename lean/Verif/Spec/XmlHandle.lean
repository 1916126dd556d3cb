import Verif.Spec.XmlEdit
import Verif.Model.XmlHandle

/-!
# Specification: handles of XML nodes

Only the type `Nav` is taken from the model of handles; `Children`, `valued` and `isElement` are those of `Verif.Spec.XmlEdit`.
-/

namespace Ubitrack.Spec.Handles

open XmlEdit (Heap) 
open XmlHandle (Nav)
open Dom

/-- Whether a function of this kind is about a child. -/
def about (h : Heap) : Nav → ℕ → Bool
  | .any, _ => true
  | .value v, c => valued h v c
  | .element, c => isElement h c
  | .elementValue v, c => valued h v c && isElement h c

/-- Where a row of calls leads, by the lists of children: to the child of the given index among those that it is about, or nowhere. -/
inductive Leads (h : Heap) : List (Nav × Option ℤ) → Option ℕ → Option ℕ → Prop
  | nil (node : Option ℕ) : Leads h [] node node
  | null (x : Nav × Option ℤ) (rest : List (Nav × Option ℤ)) : Leads h (x :: rest) none none
  | cons (nav : Nav) (index : Option ℤ) (rest : List (Nav × Option ℤ)) (p : ℕ) (cs : List ℕ) (r : Option ℕ) : Children h p cs →
      Leads h rest ((cs.filter (about h nav))[(index.getD 0).toNat]?) r → Leads h ((nav, index) :: rest) (some p) r

end Ubitrack.Spec.Handles
