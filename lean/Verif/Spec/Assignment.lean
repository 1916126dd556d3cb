import Mathlib.Algebra.Order.Group.Defs
import Mathlib.Algebra.BigOperators.Group.Finset.Basic
import Mathlib.Data.Fintype.Perm

/-!
# Specification of the assignment problem
-/

namespace Ubitrack.Spec

/-- `col` assigns to every row below `m` a column below `m`, different rows different columns. -/
def IsMatching (m : ℕ) (col : ℕ → ℕ) : Prop :=
  (∀ r < m, col r < m) ∧ ∀ r < m, ∀ r' < m, col r = col r' → r = r'

variable {K : Type*}

/-- Total cost of a matching. -/
def cost [AddCommMonoid K] (C : ℕ → ℕ → K) (m : ℕ) (col : ℕ → ℕ) : K :=
  ∑ r ∈ Finset.range m, C r (col r)

/-- `col` is a matching of minimal total cost. -/
def IsOptimal [AddCommMonoid K] [LE K] (C : ℕ → ℕ → K) (m : ℕ) (col : ℕ → ℕ) : Prop :=
  IsMatching m col ∧ ∀ col', IsMatching m col' → cost C m col ≤ cost C m col'

/-- Column `c` attains the minimum of row `r`. -/
def IsRowMin [LE K] (C : ℕ → ℕ → K) (m r c : ℕ) : Prop := ∀ c' < m, C r c ≤ C r c'

open Classical in
/-- First fit: go through the rows from top to bottom; give each row the first column that attains
the row's minimum and is not taken yet, or nothing if there is none. -/
noncomputable def firstFit [LE K] (C : ℕ → ℕ → K) (m : ℕ) : ℕ → List (Option ℕ)
  | 0 => []
  | r + 1 => firstFit C m r ++
      [(List.range m).find? (fun c => decide (IsRowMin C m r c ∧ some c ∉ firstFit C m r))]

end Ubitrack.Spec
