import Verif.Model.MatrixOperations
import Verif.Spec.Factorisation
import Verif.Proofs.FullSVD
import Mathlib.LinearAlgebra.Matrix.Determinant.Basic
import Mathlib.LinearAlgebra.Matrix.Block
import Mathlib.LinearAlgebra.Matrix.NonsingularInverse

/-!
# C60: determinant, inverse and pseudo-inverse
-/

namespace Ubitrack.MatrixOperations
open Spec
open scoped Matrix

lemma det_swapRows {n : ℕ} (i j : Fin n) (A : Mat ℝ n n) :
    (swapRows i j A).det = (if j ≠ i then -1 else 1) * A.det := by
  have e : swapRows i j A = A.submatrix (Equiv.swap i j) id := rfl
  rw [e, Matrix.det_permute]
  by_cases h : j = i
  · subst h; simp
  · rw [if_pos h, Equiv.Perm.sign_swap (fun h' => h h'.symm)]
    simp

lemma det_interchange {n : ℕ} (ipiv : Fin n → Fin n) (l : List (Fin n)) (A : Mat ℝ n n) :
    (l.foldl (fun B i => swapRows i (ipiv i) B) A).det = (l.map fun i => if ipiv i ≠ i then (-1 : ℝ) else 1).prod * A.det := by
  induction l generalizing A with
  | nil => simp
  | cons i l ih =>
    rw [List.foldl_cons, ih, det_swapRows, List.map_cons, List.prod_cons]
    ring

lemma determinant_fold {n : ℕ} (a : Mat ℝ n n) (ipiv : Fin n → Fin n) (l : List (Fin n)) (d : ℝ) :
    l.foldl (fun det i => (if ipiv i ≠ i then det * -1 else det) * a i i) d
      = d * ((l.map fun i => if ipiv i ≠ i then (-1 : ℝ) else 1).prod * (l.map fun i => a i i).prod) := by
  induction l generalizing d with
  | nil => simp
  | cons i l ih =>
    rw [List.foldl_cons, ih, List.map_cons, List.map_cons, List.prod_cons, List.prod_cons]
    split_ifs <;> ring

lemma det_lowerUnit {n : ℕ} (a : Mat ℝ n n) : (lowerUnit a).det = 1 := by
  have h : Matrix.BlockTriangular (lowerUnit a) (OrderDual.toDual) := by
    intro i j hij
    have hij : i < j := hij
    simp [lowerUnit, hij.ne, not_lt.mpr hij.le]
  rw [Matrix.det_of_lowerTriangular _ h]
  simp [lowerUnit]

lemma det_upperPart {n : ℕ} (a : Mat ℝ n n) : (upperPart a).det = ∏ i, a i i := by
  have h : Matrix.BlockTriangular (upperPart a) id := by
    intro i j hij
    have hij : j < i := hij
    simp [upperPart, not_le.mpr hij]
  rw [Matrix.det_of_upperTriangular h]
  simp [upperPart]

/-- The sign of the interchanges. -/
lemma sign_sq (l : List ℝ) (h : ∀ x ∈ l, x = -1 ∨ x = 1) : l.prod * l.prod = 1 := by
  induction l with
  | nil => simp
  | cons x l ih =>
    have := ih fun y hy => h y (List.mem_cons_of_mem _ hy)
    rw [List.prod_cons]
    rcases h x List.mem_cons_self with h | h <;> rw [h] <;> linarith

lemma sign_sq' {n : ℕ} (ipiv : Fin n → Fin n) :
    ((List.finRange n).map fun i => if ipiv i ≠ i then (-1 : ℝ) else 1).prod *
    ((List.finRange n).map fun i => if ipiv i ≠ i then (-1 : ℝ) else 1).prod = 1 := by
  apply sign_sq
  intro x hx
  obtain ⟨i, _, rfl⟩ := List.mem_map.mp hx
  split_ifs <;> simp

/-- **C60** The determinant is the determinant, for every square matrix of every size, singular or not. -/
theorem C60_determinant {n : ℕ} (getrf : Mat ℝ n n → Mat ℝ n n × (Fin n → Fin n)) (h : LUFactorisation getrf)
    (A : Mat ℝ n n) : determinant getrf A = A.det := by
  have hlu := congrArg Matrix.det (h A)
  rw [interchange, det_interchange, Matrix.det_mul, det_lowerUnit, det_upperPart, one_mul] at hlu
  unfold determinant
  simp only [determinant_fold, one_mul]
  have e : ((List.finRange n).map fun i => (getrf A).1 i i).prod = ∏ i, (getrf A).1 i i := by
    rw [← List.ofFn_eq_map, List.prod_ofFn]
  rw [e, ← hlu, ← mul_assoc, sign_sq', one_mul]

/-- **C60** For every matrix with determinant different from zero, the inverse is the inverse, on both sides. -/
theorem C60_inverse {n : ℕ} (getrf : Mat ℝ n n → Mat ℝ n n × (Fin n → Fin n)) (h : LUFactorisation getrf)
    (getri : Mat ℝ n n → (Fin n → Fin n) → Mat ℝ n n) (h' : LUInverse getri) (A : Mat ℝ n n) (hA : A.det ≠ 0) :
    invertMatrix getrf getri A * A = 1 ∧ A * invertMatrix getrf getri A = 1 := by
  have hdiag : ∀ i, (getrf A).1 i i ≠ 0 := by
    have hlu := congrArg Matrix.det (h A)
    rw [interchange, det_interchange, Matrix.det_mul, det_lowerUnit, det_upperPart, one_mul] at hlu
    have hprod : ∏ i, (getrf A).1 i i ≠ 0 := by
      rw [← hlu]
      apply mul_ne_zero _ hA
      intro h0
      have := sign_sq' (getrf A).2
      rw [h0] at this
      simp at this
    intro i
    exact Finset.prod_ne_zero_iff.mp hprod i (Finset.mem_univ i)
  have := h' _ _ A (h A) hdiag
  exact ⟨this, mul_eq_one_comm.mp this⟩

lemma diagonal_pinv {k : ℕ} (s : Vec ℝ k) (t : Vec ℝ k) (ht : t = fun i => if s i ≠ 0 then 1 / s i else s i) :
    Matrix.diagonal s * Matrix.diagonal t * Matrix.diagonal s = Matrix.diagonal s ∧
    Matrix.diagonal t * Matrix.diagonal s * Matrix.diagonal t = Matrix.diagonal t := by
  simp only [Matrix.diagonal_mul_diagonal]
  constructor
  · congr 1
    funext i
    rw [ht]
    by_cases h : s i = 0
    · simp [h]
    · simp [h]
  · congr 1
    funext i
    rw [ht]
    by_cases h : s i = 0
    · simp [h]
    · simp [h]

/-- **C60** The pseudo-inverse satisfies the four Moore-Penrose conditions, for every matrix of every shape and rank. -/
theorem C60_pseudo_inverse {n m k : ℕ} (gesvd : Mat ℝ n m → Vec ℝ k × Mat ℝ n k × Mat ℝ k m) (h : ThinSVD gesvd)
    (A : Mat ℝ n m) : MoorePenrose A (pseudoInvertMatrix gesvd A) := by
  obtain ⟨_, _, hU, hV, hA⟩ := h A
  obtain ⟨s, hs⟩ : ∃ s, s = (gesvd A).1 := ⟨_, rfl⟩
  obtain ⟨U, hU'⟩ : ∃ U, U = (gesvd A).2.1 := ⟨_, rfl⟩
  obtain ⟨V, hV'⟩ : ∃ V, V = (gesvd A).2.2 := ⟨_, rfl⟩
  rw [← hU'] at hU hA
  rw [← hV'] at hV hA
  rw [← hs] at hA
  obtain ⟨t, ht⟩ : ∃ t : Vec ℝ k, t = fun i => if s i ≠ 0 then 1 / s i else s i := ⟨_, rfl⟩
  have hX : pseudoInvertMatrix gesvd A = Vᵀ * Matrix.diagonal t * Uᵀ := by
    unfold pseudoInvertMatrix
    simp only [← hs, ← hU', ← hV']
    split_ifs
    · rw [Matrix.transpose_mul]
      congr 1
      ext i j
      rw [Matrix.mul_diagonal, ht]
      simp
    · rw [Matrix.transpose_mul, Matrix.mul_assoc]
      congr 1
      ext i j
      rw [Matrix.diagonal_mul, ht]
      simp [mul_comm]
  obtain ⟨d1, d2⟩ := diagonal_pinv s t ht
  have hst : Matrix.diagonal s * Matrix.diagonal t = Matrix.diagonal t * Matrix.diagonal s := by
    simp only [Matrix.diagonal_mul_diagonal, mul_comm]
  have hAX : A * (Vᵀ * Matrix.diagonal t * Uᵀ) = U * (Matrix.diagonal s * Matrix.diagonal t) * Uᵀ := by
    rw [hA]
    calc U * Matrix.diagonal s * V * (Vᵀ * Matrix.diagonal t * Uᵀ)
        = U * Matrix.diagonal s * (V * Vᵀ) * Matrix.diagonal t * Uᵀ := by simp only [Matrix.mul_assoc]
      _ = _ := by rw [hV, Matrix.mul_one]; simp only [Matrix.mul_assoc]
  have hXA : Vᵀ * Matrix.diagonal t * Uᵀ * A = Vᵀ * (Matrix.diagonal t * Matrix.diagonal s) * V := by
    rw [hA]
    calc Vᵀ * Matrix.diagonal t * Uᵀ * (U * Matrix.diagonal s * V)
        = Vᵀ * Matrix.diagonal t * (Uᵀ * U) * Matrix.diagonal s * V := by simp only [Matrix.mul_assoc]
      _ = _ := by rw [hU, Matrix.mul_one]; simp only [Matrix.mul_assoc]
  rw [hX]
  refine ⟨?_, ?_, ?_, ?_⟩
  · rw [hAX]
    conv_lhs => rw [hA]
    conv_rhs => rw [hA]
    calc U * (Matrix.diagonal s * Matrix.diagonal t) * Uᵀ * (U * Matrix.diagonal s * V)
        = U * (Matrix.diagonal s * Matrix.diagonal t) * (Uᵀ * U) * Matrix.diagonal s * V := by simp only [Matrix.mul_assoc]
      _ = U * (Matrix.diagonal s * Matrix.diagonal t * Matrix.diagonal s) * V := by
          rw [hU, Matrix.mul_one]; simp only [Matrix.mul_assoc]
      _ = _ := by rw [d1]
  · rw [hXA]
    calc Vᵀ * (Matrix.diagonal t * Matrix.diagonal s) * V * (Vᵀ * Matrix.diagonal t * Uᵀ)
        = Vᵀ * (Matrix.diagonal t * Matrix.diagonal s) * (V * Vᵀ) * Matrix.diagonal t * Uᵀ := by simp only [Matrix.mul_assoc]
      _ = Vᵀ * (Matrix.diagonal t * Matrix.diagonal s * Matrix.diagonal t) * Uᵀ := by
          rw [hV, Matrix.mul_one]; simp only [Matrix.mul_assoc]
      _ = _ := by rw [d2]
  · rw [hAX]
    simp only [Matrix.transpose_mul, Matrix.transpose_transpose, Matrix.diagonal_transpose, Matrix.mul_assoc]
    rw [← Matrix.mul_assoc (Matrix.diagonal t), ← hst, Matrix.mul_assoc]
  · rw [hXA]
    simp only [Matrix.transpose_mul, Matrix.transpose_transpose, Matrix.diagonal_transpose, Matrix.mul_assoc]
    rw [← Matrix.mul_assoc (Matrix.diagonal s), hst, Matrix.mul_assoc]

/-- **C60** There is only one matrix with these properties, so that the result does not depend on the choice of the singular
vectors. -/
theorem C60_unique {n m : ℕ} (A : Mat ℝ n m) (X Y : Mat ℝ m n) (hX : MoorePenrose A X) (hY : MoorePenrose A Y) : X = Y := by
  obtain ⟨x1, x2, x3, x4⟩ := hX
  obtain ⟨y1, y2, y3, y4⟩ := hY
  have e1 : A * X = A * Y := by
    calc A * X = (A * Y * A) * X := by rw [y1]
      _ = (A * Y) * (A * X) := by simp only [Matrix.mul_assoc]
      _ = (A * Y)ᵀ * (A * X)ᵀ := by rw [y3, x3]
      _ = ((A * X * A) * Y)ᵀ := by rw [← Matrix.transpose_mul]; simp only [Matrix.mul_assoc]
      _ = A * Y := by rw [x1, y3]
  have e2 : X * A = Y * A := by
    calc X * A = X * (A * Y * A) := by rw [y1]
      _ = (X * A) * (Y * A) := by simp only [Matrix.mul_assoc]
      _ = (X * A)ᵀ * (Y * A)ᵀ := by rw [x4, y4]
      _ = (Y * (A * X * A))ᵀ := by rw [← Matrix.transpose_mul]; simp only [Matrix.mul_assoc]
      _ = Y * A := by rw [x1, y4]
  calc X = X * A * X := x2.symm
    _ = Y * A * X := by rw [e2]
    _ = Y * (A * X) := by rw [Matrix.mul_assoc]
    _ = Y * A * Y := by rw [e1, Matrix.mul_assoc]
    _ = Y := y2

/-- **C60** For a matrix with a right inverse (independent rows) the pseudo-inverse is a right inverse, and for one with a
left inverse (independent columns) a left inverse. -/
theorem C60_one_sided {n m : ℕ} (A : Mat ℝ n m) (X : Mat ℝ m n) (hX : MoorePenrose A X) :
    ((∃ B : Mat ℝ m n, A * B = 1) → A * X = 1) ∧ ((∃ B : Mat ℝ m n, B * A = 1) → X * A = 1) := by
  obtain ⟨x1, -, -, -⟩ := hX
  constructor
  · rintro ⟨B, hB⟩
    calc A * X = A * X * (A * B) := by rw [hB, Matrix.mul_one]
      _ = A * X * A * B := by simp only [Matrix.mul_assoc]
      _ = 1 := by rw [x1, hB]
  · rintro ⟨B, hB⟩
    calc X * A = (B * A) * (X * A) := by rw [hB, Matrix.one_mul]
      _ = B * (A * X * A) := by simp only [Matrix.mul_assoc]
      _ = 1 := by rw [x1, hB]

/-! ## Routines with these contracts exist -/

lemma interchange_mul {n : ℕ} (ipiv : Fin n → Fin n) (l : List (Fin n)) (B A : Mat ℝ n n) :
    l.foldl (fun B i => swapRows i (ipiv i) B) (B * A) = l.foldl (fun B i => swapRows i (ipiv i) B) B * A := by
  induction l generalizing B with
  | nil => rfl
  | cons i l ih => rw [List.foldl_cons, List.foldl_cons, ← ih]; rfl

/-- A routine with the contract of `getri` exists for every size. -/
theorem exists_luInverse (n : ℕ) : ∃ getri : Mat ℝ n n → (Fin n → Fin n) → Mat ℝ n n, LUInverse getri := by
  refine ⟨fun a ipiv => (lowerUnit a * upperPart a)⁻¹ * interchange ipiv 1, ?_⟩
  intro a ipiv A h hd
  have e : interchange ipiv A = interchange ipiv 1 * A := by
    unfold interchange
    rw [← interchange_mul, Matrix.one_mul]
  rw [Matrix.mul_assoc, ← e, h]
  apply Matrix.nonsing_inv_mul
  rw [Matrix.det_mul, det_lowerUnit, det_upperPart, one_mul]
  exact isUnit_iff_ne_zero.mpr (Finset.prod_ne_zero_iff.mpr fun i _ => hd i)

/-- A routine with the contract of `getrf` for matrices of size two: it exchanges the rows when the first element is zero. -/
noncomputable def getrf2 (A : Mat ℝ 2 2) : Mat ℝ 2 2 × (Fin 2 → Fin 2) :=
  open Classical in
  if A 0 0 = 0 then (!![A 1 0, A 1 1; 0, A 0 1], ![1, 1])
  else (!![A 0 0, A 0 1; A 1 0 / A 0 0, A 1 1 - A 1 0 / A 0 0 * A 0 1], ![0, 1])

theorem getrf2_spec : LUFactorisation getrf2 := by
  intro A
  unfold getrf2
  split_ifs with h
  · ext i j
    fin_cases i <;> fin_cases j <;>
      simp [interchange, List.finRange_succ, swapRows, lowerUnit, upperPart, Matrix.mul_apply, h]
  · ext i j
    fin_cases i <;> fin_cases j <;>
      simp [interchange, List.finRange_succ, swapRows, lowerUnit, upperPart, Matrix.mul_apply, h]

/-- The determinant and the inverse of the matrix with rows `(0, 2)` and `(3, 4)`, which needs a row exchange. -/
example : determinant getrf2 !![0, 2; 3, 4] = -6 ∧ ∃ getri, invertMatrix getrf2 getri !![0, 2; 3, 4] * !![0, 2; 3, 4] = 1 := by
  have hd : (!![0, 2; 3, 4] : Mat ℝ 2 2).det = -6 := by simp [Matrix.det_fin_two]; norm_num
  refine ⟨by rw [C60_determinant _ getrf2_spec, hd], ?_⟩
  obtain ⟨getri, hg⟩ := exists_luInverse 2
  exact ⟨getri, (C60_inverse getrf2 getrf2_spec getri hg _ (by rw [hd]; norm_num)).1⟩

/-- The pseudo-inverse of the row `(3, 4)` is its transpose divided by 25. -/
example : ∃ gesvd : Mat ℝ 1 2 → Vec ℝ 1 × Mat ℝ 1 1 × Mat ℝ 1 2,
    pseudoInvertMatrix gesvd !![3, 4] = !![3 / 25; 4 / 25] := by
  obtain ⟨gesvd, hg⟩ := exists_thinSVD (n := 1) (m := 2) (by norm_num)
  refine ⟨gesvd, C60_unique _ _ _ (C60_pseudo_inverse gesvd hg _) ?_⟩
  refine ⟨?_, ?_, ?_, ?_⟩
  · ext i j; fin_cases i <;> fin_cases j <;> simp [Matrix.mul_apply, Fin.sum_univ_two] <;> norm_num
  · ext i j; fin_cases i <;> fin_cases j <;> simp [Matrix.mul_apply, Fin.sum_univ_two] <;> norm_num
  · ext i j; fin_cases i; fin_cases j; rfl
  · ext i j; fin_cases i <;> fin_cases j <;> simp [Matrix.mul_apply, Fin.sum_univ_two] <;> norm_num

end Ubitrack.MatrixOperations
