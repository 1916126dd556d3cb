import Verif.Model.Quaternion

/-!
# Specification: Jacobians of functions on a part of the state
-/

namespace Ubitrack.Spec

variable {K : Type*} [CommRing K] {k m n : ℕ}

/-- The Jacobian, with respect to the whole state of size `n`, of a function that reads only the entries
`ib, …, ib + k - 1`. -/
def readsRange (jac : Mat K m k) (ib : ℕ) : Mat K m n := fun i j =>
  if h : ib ≤ j.val ∧ j.val < ib + k then jac i ⟨j.val - ib, by omega⟩ else 0

/-- The Jacobian of the function on the whole state that replaces the entries `ob, …, ob + m - 1` by a function of
the entries `ib, …, ib + k - 1` and keeps all others. -/
def replacesRange (jac : Mat K m k) (ob ib : ℕ) : Mat K n n := fun i j =>
  if h : ob ≤ i.val ∧ i.val < ob + m then readsRange jac ib ⟨i.val - ob, by omega⟩ j
  else if i = j then 1 else 0

end Ubitrack.Spec
