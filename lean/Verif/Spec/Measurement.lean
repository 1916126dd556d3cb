import Verif.Model.Measurement

/-!
# Specification vocabulary for measurement histories

Which objects were derived from which by copying is read off the text of the program alone: no
heap, no addresses.
-/

namespace Ubitrack.Meas.Spec
variable {α : Type}

/-- How many objects an operation creates. -/
def creates : Op α → Nat
  | .assign _ _ | .setTime _ _ | .invalidate _ | .write _ _ | .reset _ => 0
  | _ => 1

/-- Objects derived by copying from a set `F` of objects, when there are `n` objects so far: a copy
of a member is a member, an object assigned from a member becomes a member, an object assigned
from a non-member or reset leaves the set, freshly constructed objects and clones are outside. -/
def family (n : Nat) (F : Nat → Bool) : Op α → (Nat → Bool)
  | .copy h | .mkShared h | .mkTimeShared _ h => fun i => if i = n then F h else F i
  | .assign h g => fun i => if i = h then F g else F i
  | .reset h => fun i => if i = h then false else F i
  | .setTime _ _ | .invalidate _ | .write _ _ => F
  | _ => fun i => if i = n then false else F i

/-- The object an operation writes the payload of. -/
def writesTo : Op α → Option Nat
  | .write h _ => some h
  | _ => none

/-- The object whose pointer an operation replaces. -/
def repoints : Op α → Option Nat
  | .assign h _ => some h
  | .reset h => some h
  | _ => none

/-- The object whose timestamp an operation sets. -/
def retimes : Op α → Option Nat
  | .assign h _ => some h
  | .setTime h _ => some h
  | .invalidate h => some h
  | _ => none

/-- No write in the program goes through a member of the family of `F`. -/
def NoWriteThrough (n : Nat) (F : Nat → Bool) : List (Op α) → Prop
  | [] => True
  | op :: ops => (∀ h, writesTo op = some h → F h = false) ∧
      NoWriteThrough (n + creates op) (family n F op) ops

/-- Every write in the program goes through a member of the family of `F`. -/
def OnlyWritesThrough (n : Nat) (F : Nat → Bool) : List (Op α) → Prop
  | [] => True
  | op :: ops => (∀ h, writesTo op = some h → F h = true) ∧
      OnlyWritesThrough (n + creates op) (family n F op) ops

end Ubitrack.Meas.Spec
