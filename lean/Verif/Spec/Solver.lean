import Verif.Model.Quaternion
import Mathlib.LinearAlgebra.Matrix.Symmetric

/-!
# Contracts of the LAPACK routines the estimators call

These are hypotheses of the theorems, stated on the mathematical meaning of the routine, not on
how it is used. Modules under Props show that routines with these contracts exist.
-/

namespace Ubitrack.Spec
open scoped Matrix

/-- LAPACK `syev('V', ...)`: whenever it reports success on a symmetric matrix, the returned
values are in ascending order, the columns of the returned matrix are orthonormal, and they are
eigenvectors for these values. -/
def SymmetricEigensolver {n : ℕ}
    (syev : Mat ℝ n n → Option (Vec ℝ n × Mat ℝ n n)) : Prop :=
  ∀ N : Mat ℝ n n, N.IsSymm → ∀ W V, syev N = some (W, V) →
    Monotone W ∧ Vᵀ * V = 1 ∧ ∀ k, N *ᵥ (fun i => V i k) = W k • fun i => V i k

/-- A routine that always converges on symmetric matrices. -/
def SymmetricConvergent {n : ℕ}
    (syev : Mat ℝ n n → Option (Vec ℝ n × Mat ℝ n n)) : Prop :=
  ∀ N : Mat ℝ n n, N.IsSymm → ∃ r, syev N = some r

/-- The squared residual of a linear system, given as rows with right-hand sides. -/
def systemError {n : ℕ} (rows : List (Vec ℝ n × ℝ)) (x : Vec ℝ n) : ℝ :=
  (rows.map fun r => (r.1 ⬝ᵥ x - r.2) ^ 2).sum

/-- LAPACK `gels('N', ...)` for at least as many rows as unknowns: whenever it reports success, the
solution minimises the squared residual. -/
def LeastSquaresSolver {n : ℕ} (gels : List (Vec ℝ n × ℝ) → Option (Vec ℝ n)) : Prop :=
  ∀ rows x, gels rows = some x → ∀ y, systemError rows x ≤ systemError rows y

/-- The columns of the system are independent. -/
def FullRank {n : ℕ} (rows : List (Vec ℝ n × ℝ)) : Prop :=
  ∀ x, (∀ r ∈ rows, r.1 ⬝ᵥ x = 0) → x = 0

/-- The routine succeeds on every system with independent columns. -/
def SucceedsOnFullRank {n : ℕ} (gels : List (Vec ℝ n × ℝ) → Option (Vec ℝ n)) : Prop :=
  ∀ rows, FullRank rows → ∃ x, gels rows = some x

/-- The squared length of a matrix, given by its rows, times a vector. -/
def rowsError {n : ℕ} (rows : List (Vec ℝ n)) (v : Vec ℝ n) : ℝ := (rows.map fun r => (r ⬝ᵥ v) ^ 2).sum

/-- LAPACK `gesvd`, as far as the callers use it (singular values and the matrix `Vt`): whenever it reports success
on a matrix given by its rows, the singular values are non-negative and in descending order, `Vt` is orthogonal, and the
matrix acts on the rows of `Vt` by scaling mutually orthogonal directions with the singular values, that is
`|A v|² = Σ (s_k (Vt v)_k)²`. -/
def SingularValueSolver {n : ℕ} (gesvd : List (Vec ℝ n) → Option (Vec ℝ n × Mat ℝ n n)) : Prop :=
  ∀ rows s vt, gesvd rows = some (s, vt) →
    Antitone s ∧ (∀ k, 0 ≤ s k) ∧ vt * vtᵀ = 1 ∧ ∀ v, rowsError rows v = ∑ k, (s k * (vt k ⬝ᵥ v)) ^ 2

end Ubitrack.Spec
