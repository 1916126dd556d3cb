import Mathlib.Logic.Function.Basic
import Mathlib.Algebra.Ring.Defs
import Mathlib.Analysis.Real.Sqrt

/-!
# Vector and matrix products

utMath/Blas1.h, Blas2.h and Blas3.h. The code works on raw arrays; an array is a function from the index. Matrices are stored
column by column. The template recursions are recursions on their integer parameters.
-/

namespace Ubitrack.Blas

section
variable {K : Type*} [CommRing K]

/-- `inner_product_impl`, Blas1.h l.138-162, vectors of fixed size. -/
def innerProductImpl : ℕ → (ℕ → K) → (ℕ → K) → K → K
  | 0, _, _, sqsum => sqsum
  | n + 1, vec1, vec2, sqsum =>
    let sq := sqsum + vec1 n * vec2 n
    innerProductImpl n vec1 vec2 sq

/-- `InnerProduct`, Blas1.h l.98-106, vectors of fixed size. -/
def innerProductFixed (n : ℕ) (vec1 vec2 : ℕ → K) : K := innerProductImpl n vec1 vec2 0

/-- `InnerProduct`, Blas1.h l.108-126, vectors of dynamic size; `none`: the assertion on the sizes. -/
def innerProductDynamic (vec1 vec2 : List K) : Option K :=
  if vec1.length = vec2.length then
    (List.range vec1.length).foldlM (fun result i => do
      let a ← vec1[i]?
      let b ← vec2[i]?
      some (result + a * b)) 0
  else none

/-- `outer_product_impl< M_NOW, M, N >` until `M_NOW` is zero, Blas2.h l.135-144; `n` is `N - 1`. -/
def outerColumn (M n : ℕ) (vec1 vec2 : ℕ → K) : ℕ → (ℕ → K) → (ℕ → K)
  | 0, mat => mat
  | mNow + 1, mat => outerColumn M n vec1 vec2 mNow (Function.update mat (M * n + mNow) (vec1 mNow * vec2 n))

/-- `outer_product_impl< M, M, N >`, Blas2.h l.152-176. -/
def outerProduct (M : ℕ) (vec1 vec2 : ℕ → K) : ℕ → (ℕ → K) → (ℕ → K)
  | 0, mat => mat
  | n + 1, mat => outerProduct M vec1 vec2 n (outerColumn M n vec1 vec2 M mat)

/-- `mat_vec_product_impl_backward< M_MAX, N_MAX, M, N >` with `N < N_MAX`, until `N` is zero, Blas2.h l.296-305; `m` is
`M - 1`. -/
def matVecRow (MMAX m : ℕ) (mat vec1 : ℕ → K) : ℕ → (ℕ → K) → (ℕ → K)
  | 0, vec2 => vec2
  | n + 1, vec2 => matVecRow MMAX m mat vec1 n (Function.update vec2 m (vec2 m + mat (n * MMAX + m) * vec1 n))

/-- `mat_vec_product_impl_backward< M_MAX, N_MAX, M, N_MAX >`, Blas2.h l.307-339. -/
def matVecProduct (MMAX NMAX : ℕ) (mat vec1 : ℕ → K) : ℕ → (ℕ → K) → (ℕ → K)
  | 0, vec2 => vec2
  | m + 1, vec2 =>
    let vec2' := Function.update vec2 m (mat ((NMAX - 1) * MMAX + m) * vec1 (NMAX - 1))
    matVecProduct MMAX NMAX mat vec1 m (matVecRow MMAX m mat vec1 (NMAX - 1) vec2')

/-- `mat_vec_product_impl_forward< M_MAX, N_MAX, M, N >` for `N` from `1` on, Blas2.h l.236-245; the first argument is
`N_MAX - N`. -/
def matVecForwardRow (MMAX m : ℕ) (mat vec1 : ℕ → K) : ℕ → ℕ → (ℕ → K) → (ℕ → K)
  | 0, _, vec2 => vec2
  | r + 1, n, vec2 => matVecForwardRow MMAX m mat vec1 r (n + 1) (Function.update vec2 m (vec2 m + mat (n * MMAX + m) * vec1 n))

/-- `mat_vec_product_impl_forward< M_MAX, N_MAX, M, 0 >`, Blas2.h l.247-280; the first argument is `M_MAX - M`. -/
def matVecForward (MMAX NMAX : ℕ) (mat vec1 : ℕ → K) : ℕ → ℕ → (ℕ → K) → (ℕ → K)
  | 0, _, vec2 => vec2
  | r + 1, m, vec2 =>
    let vec2' := Function.update vec2 m (mat m * vec1 0)
    matVecForward MMAX NMAX mat vec1 r (m + 1) (matVecForwardRow MMAX m mat vec1 (NMAX - 1) 1 vec2')

/-- `mat_mat_product_impl_forward< ..., M, N, STEP >` for `STEP` from `1` on, Blas3.h l.115-129; the first argument is
`N1_MAX - STEP`. -/
def matMatSteps (M1MAX N1MAX m n : ℕ) (mat1 mat2 : ℕ → K) : ℕ → ℕ → (ℕ → K) → (ℕ → K)
  | 0, _, result => result
  | r + 1, step, result =>
    let value1 := mat1 (step * M1MAX + m)
    let value2 := mat2 (n * N1MAX + step)
    matMatSteps M1MAX N1MAX m n mat1 mat2 r (step + 1)
      (Function.update result (n * M1MAX + m) (result (n * M1MAX + m) + value1 * value2))

/-- `mat_mat_product_impl_forward< ..., M, N, 0 >` for the rows of one column, Blas3.h l.131-146, l.161-170; the first
argument is `M1_MAX - M`. -/
def matMatColumn (M1MAX N1MAX n : ℕ) (mat1 mat2 : ℕ → K) : ℕ → ℕ → (ℕ → K) → (ℕ → K)
  | 0, _, result => result
  | r + 1, m, result =>
    let value1 := mat1 m
    let value2 := mat2 (n * N1MAX)
    let result' := Function.update result (n * M1MAX + m) (value1 * value2)
    matMatColumn M1MAX N1MAX n mat1 mat2 r (m + 1) (matMatSteps M1MAX N1MAX m n mat1 mat2 (N1MAX - 1) 1 result')

/-- `mat_mat_product_impl_forward< ..., 0, N, 0 >` for all columns, Blas3.h l.149-159, l.172-181; the first argument is
`N2_MAX - N`. -/
def matMatProduct (M1MAX N1MAX : ℕ) (mat1 mat2 : ℕ → K) : ℕ → ℕ → (ℕ → K) → (ℕ → K)
  | 0, _, result => result
  | r + 1, n, result =>
    matMatProduct M1MAX N1MAX mat1 mat2 r (n + 1) (matMatColumn M1MAX N1MAX n mat1 mat2 M1MAX 0 result)

end

/-- `norm_1_impl`, Blas1.h l.230-254, vectors of fixed size. -/
def norm1Impl : ℕ → (ℕ → ℝ) → ℝ → ℝ
  | 0, _, sqsum => sqsum
  | n + 1, vec, sqsum =>
    let sq := sqsum + |vec n|
    norm1Impl n vec sq

/-- `Norm_1`, Blas1.h l.191-199, vectors of fixed size. -/
def norm1Fixed (n : ℕ) (vec : ℕ → ℝ) : ℝ := norm1Impl n vec 0

/-- `Norm_1`, Blas1.h l.201-217, vectors of dynamic size. -/
def norm1Dynamic (vec : List ℝ) : ℝ := vec.foldl (fun result x => result + |x|) 0

/-- `Norm_2`, Blas1.h l.264-280, vectors of fixed size. -/
noncomputable def norm2Fixed (n : ℕ) (vec : ℕ → ℝ) : ℝ := Real.sqrt (innerProductFixed n vec vec)

/-- `Norm_2`, Blas1.h l.264-280, vectors of dynamic size. -/
noncomputable def norm2Dynamic (vec : List ℝ) : Option ℝ := (innerProductDynamic vec vec).map Real.sqrt

end Ubitrack.Blas
