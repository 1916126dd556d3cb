import Verif.Model.Filters

/-!
# Specification: chains of filters

`Mem` and `Decision` are taken from the model.
-/

namespace Ubitrack.Spec.FilterChain

open Filters Logging

/-- From the pointer `p` on, the filters of the list follow each other, all exist, and the last one points to nothing. -/
inductive Chain {ε : Type} (s : Mem ε) : Option ℕ → List ℕ → Prop where
  | nil : Chain s none []
  | cons (f : ℕ) (l : List ℕ) (h : s.alive f = true) (hl : Chain s (s.next f) l) : Chain s (some f) (f :: l)

/-- `ipchains`: the first filter that is not neutral decides; the event passes if there is none. -/
def Passes {ε : Type} (own : ℕ → ε → Decision) (l : List ℕ) (e : ε) : Prop :=
  (∀ f ∈ l, own f e = .neutral) ∨ ∃ a f b, l = a ++ f :: b ∧ (∀ g ∈ a, own g e = .neutral) ∧ own f e = .accept

end Ubitrack.Spec.FilterChain
