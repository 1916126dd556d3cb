import Verif.Model.Quaternion
import Mathlib.LinearAlgebra.Matrix.Symmetric
import Mathlib.Data.Matrix.Diagonal

/-!
# Contracts of the LAPACK factorisations and the Moore-Penrose conditions
-/

namespace Ubitrack.Spec
open scoped Matrix

/-- Exchanging two rows of a matrix. -/
def swapRows {n : ℕ} (i j : Fin n) (A : Mat ℝ n n) : Mat ℝ n n := fun r => A (Equiv.swap i j r)

/-- The row interchanges of a pivot vector, applied one after the other: row `i` with row `ipiv i`. -/
def interchange {n : ℕ} (ipiv : Fin n → Fin n) (A : Mat ℝ n n) : Mat ℝ n n :=
  (List.finRange n).foldl (fun B i => swapRows i (ipiv i) B) A

/-- The unit lower triangular factor stored below the diagonal. -/
def lowerUnit {n : ℕ} (a : Mat ℝ n n) : Mat ℝ n n := fun i j => if j < i then a i j else if i = j then 1 else 0

/-- The upper triangular factor stored on and above the diagonal. -/
def upperPart {n : ℕ} (a : Mat ℝ n n) : Mat ℝ n n := fun i j => if i ≤ j then a i j else 0

/-- LAPACK `getrf`: the matrix with its rows interchanged is the product of the two triangular factors it stores (also for
a singular matrix, where the routine completes the factorisation and reports a zero on the diagonal). -/
def LUFactorisation {n : ℕ} (getrf : Mat ℝ n n → Mat ℝ n n × (Fin n → Fin n)) : Prop :=
  ∀ A, interchange (getrf A).2 A = lowerUnit (getrf A).1 * upperPart (getrf A).1

/-- LAPACK `getri`: from a factorisation with no zero on the diagonal it computes the inverse of the factorised matrix. -/
def LUInverse {n : ℕ} (getri : Mat ℝ n n → (Fin n → Fin n) → Mat ℝ n n) : Prop :=
  ∀ a ipiv A, interchange ipiv A = lowerUnit a * upperPart a → (∀ i, a i i ≠ 0) → getri a ipiv * A = 1

/-- LAPACK `gesvd('S', 'S', ...)` on an `n x m` matrix with `k = min(n, m)`: orthonormal columns, orthonormal rows,
non-negative values in descending order, and the product is the matrix. -/
def ThinSVD {n m k : ℕ} (gesvd : Mat ℝ n m → Vec ℝ k × Mat ℝ n k × Mat ℝ k m) : Prop :=
  ∀ A, Antitone (gesvd A).1 ∧ (∀ i, 0 ≤ (gesvd A).1 i) ∧ (gesvd A).2.1ᵀ * (gesvd A).2.1 = 1 ∧
    (gesvd A).2.2 * (gesvd A).2.2ᵀ = 1 ∧ A = (gesvd A).2.1 * Matrix.diagonal (gesvd A).1 * (gesvd A).2.2

/-- The four conditions that characterise the pseudo-inverse. -/
def MoorePenrose {n m : ℕ} (A : Mat ℝ n m) (X : Mat ℝ m n) : Prop :=
  A * X * A = A ∧ X * A * X = X ∧ (A * X)ᵀ = A * X ∧ (X * A)ᵀ = X * A

end Ubitrack.Spec
