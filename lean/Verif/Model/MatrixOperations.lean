import Verif.Model.Quaternion
import Mathlib.Data.Matrix.Diagonal

/-!
# Determinant, inverse and pseudo-inverse

utMath/MatrixOperations.h, over the reals. The LAPACK routines are parameters; their status is ignored by the code, so the
parameters are total.
-/

namespace Ubitrack.MatrixOperations
open scoped Matrix

/-- `determinant`, MatrixOperations.h l.59-78. The pivots of LAPACK count from one, here from zero. -/
def determinant {n : ℕ} (getrf : Mat ℝ n n → Mat ℝ n n × (Fin n → Fin n)) (mat : Mat ℝ n n) : ℝ :=
  let (a, ipiv) := getrf mat
  (List.finRange n).foldl (fun det i =>
    let det := if ipiv i ≠ i then det * -1 else det
    det * a i i) 1

/-- `invert_matrix`, MatrixOperations.h l.86-97. -/
def invertMatrix {n : ℕ} (getrf : Mat ℝ n n → Mat ℝ n n × (Fin n → Fin n))
    (getri : Mat ℝ n n → (Fin n → Fin n) → Mat ℝ n n) (m : Mat ℝ n n) : Mat ℝ n n :=
  let (a, ipiv) := getrf m
  getri a ipiv

open Classical in
/-- `pseudoInvert_matrix`, MatrixOperations.h l.105-148, for an `n x m` matrix and `k = min(n, m)` singular values. Only the
first `k` columns of `U` and the first `k` rows of `Vt` are read. -/
noncomputable def pseudoInvertMatrix {n m k : ℕ} (gesvd : Mat ℝ n m → Vec ℝ k × Mat ℝ n k × Mat ℝ k m) (mat : Mat ℝ n m) :
    Mat ℝ m n :=
  let (s, U, Vt) := gesvd mat
  let s' : Vec ℝ k := fun i => if s i ≠ 0 then 1 / s i else s i
  if n > m then
    let Vt' : Mat ℝ k m := Matrix.of fun i j => Vt i j * s' i
    (U * Vt')ᵀ
  else
    let U' : Mat ℝ n k := Matrix.of fun i j => U i j * s' j
    (U' * Vt)ᵀ

end Ubitrack.MatrixOperations
