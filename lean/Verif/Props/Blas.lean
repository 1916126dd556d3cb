import Verif.Model.Blas
import Verif.Spec.Blas
import Mathlib.Algebra.BigOperators.Fin
import Mathlib.Algebra.BigOperators.Intervals
import Mathlib.Tactic.Ring
import Mathlib.Tactic.LinearCombination

/-!
# C49: vector and matrix products
-/

namespace Ubitrack.Blas
open Spec Finset
open scoped Matrix

variable {K : Type*} [CommRing K]

/-! ## Inner products and norms -/

lemma innerProductImpl_eq (n : ℕ) (a b : ℕ → K) (s : K) : innerProductImpl n a b s = s + ∑ i ∈ range n, a i * b i := by
  induction n generalizing s with
  | zero => simp [innerProductImpl]
  | succ n ih => simp only [innerProductImpl, ih, sum_range_succ]; ring

/-- **C49** The inner product of two vectors of fixed size, of every size, is the sum of the products of their elements. -/
theorem C49_inner_fixed {n : ℕ} (a b : ℕ → K) (v w : Vec K n) (ha : HoldsVec a v) (hb : HoldsVec b w) :
    innerProductFixed n a b = ∑ i, v i * w i := by
  rw [innerProductFixed, innerProductImpl_eq, zero_add, ← Fin.sum_univ_eq_sum_range (fun i => a i * b i)]
  exact sum_congr rfl fun i _ => by rw [ha i, hb i]

/-- **C49** The inner product of two vectors of dynamic size is the sum of the products of their elements; vectors of
different sizes violate the assertion. -/
theorem C49_inner_dynamic {m n : ℕ} (v : Vec K m) (w : Vec K n) :
    innerProductDynamic (List.ofFn v) (List.ofFn w) =
      if h : m = n then some (∑ i : Fin m, v i * w (Fin.cast h i)) else none := by
  unfold innerProductDynamic
  simp only [List.length_ofFn]
  by_cases h : m = n
  · subst h
    simp only [if_true, dif_pos, Fin.cast_eq_self]
    have key : ∀ (k : ℕ) (hk : k ≤ m), (List.range k).foldlM (fun result i => do
        let a ← (List.ofFn v)[i]?
        let b ← (List.ofFn w)[i]?
        some (result + a * b)) (0 : K) = some (∑ i : Fin k, v (Fin.castLE hk i) * w (Fin.castLE hk i)) := by
      intro k
      induction k with
      | zero => intro _; simp
      | succ k ih =>
        intro hk
        rw [List.range_succ, List.foldlM_append, ih (by omega)]
        simp [show k < m by omega, Fin.sum_univ_castSucc]
        rfl
    rw [key m le_rfl]
    rfl
  · rw [if_neg h, dif_neg h]

lemma norm1Impl_eq (n : ℕ) (a : ℕ → ℝ) (s : ℝ) : norm1Impl n a s = s + ∑ i ∈ range n, |a i| := by
  induction n generalizing s with
  | zero => simp [norm1Impl]
  | succ n ih => simp only [norm1Impl, ih, sum_range_succ]; ring

/-- **C49** The 1-norm is the sum of the absolute values, for vectors of fixed and of dynamic size. -/
theorem C49_norm_1 {n : ℕ} (a : ℕ → ℝ) (v : Vec ℝ n) (ha : HoldsVec a v) :
    norm1Fixed n a = ∑ i, |v i| ∧ norm1Dynamic (List.ofFn v) = ∑ i, |v i| := by
  constructor
  · rw [norm1Fixed, norm1Impl_eq, zero_add, ← Fin.sum_univ_eq_sum_range (fun i => |a i|)]
    exact sum_congr rfl fun i _ => by rw [ha i]
  · have : ∀ (l : List ℝ) (s : ℝ), l.foldl (fun r x => r + |x|) s = s + (l.map fun x => |x|).sum := by
      intro l
      induction l with
      | nil => simp
      | cons x l ih => intro s; rw [List.foldl_cons, ih, List.map_cons, List.sum_cons]; ring
    rw [norm1Dynamic, this, zero_add, List.map_ofFn, List.sum_ofFn]
    rfl

/-- **C49** The 2-norm is the non-negative number whose square is the sum of the squares, for vectors of fixed and of dynamic
size. -/
theorem C49_norm_2 {n : ℕ} (a : ℕ → ℝ) (v : Vec ℝ n) (ha : HoldsVec a v) :
    0 ≤ norm2Fixed n a ∧ norm2Fixed n a ^ 2 = ∑ i, v i ^ 2 ∧ norm2Dynamic (List.ofFn v) = some (norm2Fixed n a) := by
  have h := C49_inner_fixed a a v v ha ha
  have hnn : 0 ≤ ∑ i, v i * v i := sum_nonneg fun i _ => mul_self_nonneg _
  refine ⟨Real.sqrt_nonneg _, ?_, ?_⟩
  · rw [norm2Fixed, h, Real.sq_sqrt hnn]
    exact sum_congr rfl fun i _ => (pow_two _).symm
  · rw [norm2Dynamic, C49_inner_dynamic, dif_pos rfl, norm2Fixed, h]
    rfl

example : innerProductFixed 3 (fun i => (i : ℤ) + 1) (fun i => (i : ℤ)) = 8 ∧ innerProductDynamic [1, 2, 3] [4, 5, (6 : ℤ)] = some 32 ∧
    innerProductDynamic [1, 2, 3] [4, (5 : ℤ)] = none := by
  refine ⟨by simp [innerProductFixed, innerProductImpl], by decide, by decide⟩

/-! ## Outer product -/

lemma outerColumn_eq (M n : ℕ) (a b : ℕ → K) (k : ℕ) (c : ℕ → K) (x : ℕ) :
    outerColumn M n a b k c x = if M * n ≤ x ∧ x < M * n + k then a (x - M * n) * b n else c x := by
  induction k generalizing c with
  | zero => simp [outerColumn]
  | succ k ih =>
    rw [outerColumn, ih]
    by_cases h1 : M * n ≤ x ∧ x < M * n + k
    · rw [if_pos h1, if_pos ⟨h1.1, by omega⟩]
    · rw [if_neg h1]
      by_cases h2 : x = M * n + k
      · subst h2
        rw [Function.update_self, if_pos ⟨by omega, by omega⟩]
        congr 2
        omega
      · rw [Function.update_of_ne h2, if_neg (by omega)]

lemma outerProduct_eq (M : ℕ) (a b : ℕ → K) (N : ℕ) (c : ℕ → K) :
    (∀ i j, i < M → j < N → outerProduct M a b N c (j * M + i) = a i * b j) ∧
    ∀ x, N * M ≤ x → outerProduct M a b N c x = c x := by
  induction N generalizing c with
  | zero => exact ⟨fun i j _ hj => absurd hj (by omega), fun x _ => rfl⟩
  | succ N ih =>
    obtain ⟨h1, h2⟩ := ih (outerColumn M N a b M c)
    refine ⟨fun i j hi hj => ?_, fun x hx => ?_⟩
    · rw [outerProduct]
      by_cases hjN : j < N
      · exact h1 i j hi hjN
      · have : j = N := by omega
        subst this
        rw [h2 _ (by omega), outerColumn_eq, mul_comm M j, if_pos ⟨by omega, by omega⟩]
        congr 2
        omega
    · rw [outerProduct]
      rw [Nat.succ_mul] at hx
      rw [h2 x (by omega), outerColumn_eq, mul_comm M N, if_neg (by omega)]

/-- **C49** The outer product writes the matrix with the elements `v i * w j`, and nothing else. -/
theorem C49_outer {m n : ℕ} (a b c : ℕ → K) (v : Vec K m) (w : Vec K n) (ha : HoldsVec a v) (hb : HoldsVec b w) :
    HoldsMat (outerProduct m a b n c) (Matrix.of fun i j => v i * w j) ∧ SameFrom (n * m) c (outerProduct m a b n c) := by
  obtain ⟨h1, h2⟩ := outerProduct_eq m a b n c
  refine ⟨fun i j => ?_, h2⟩
  rw [h1 i j i.2 j.2, ha i, hb j, Matrix.of_apply]

example : HoldsMat (outerProduct 2 (fun i => (i : ℤ) + 1) (fun i => (i : ℤ) + 3) 3 fun _ => 0) !![3, 4, 5; 6, 8, 10] := by
  have := (C49_outer (m := 2) (n := 3) (fun i => (i : ℤ) + 1) (fun i => (i : ℤ) + 3) (fun _ => 0) ![1, 2] ![3, 4, 5]
    (by intro i; fin_cases i <;> rfl) (by intro i; fin_cases i <;> rfl)).1
  convert this using 1
  decide

/-! ## Matrix times vector -/

lemma matVecRow_eq (M m : ℕ) (A b : ℕ → K) (k : ℕ) (c : ℕ → K) :
    matVecRow M m A b k c = Function.update c m (c m + ∑ j ∈ range k, A (j * M + m) * b j) := by
  induction k generalizing c with
  | zero => simp [matVecRow]
  | succ k ih =>
    rw [matVecRow, ih, Function.update_idem, Function.update_self, sum_range_succ]
    congr 1
    ring

lemma matVecForwardRow_eq (M m : ℕ) (A b : ℕ → K) (k n : ℕ) (c : ℕ → K) :
    matVecForwardRow M m A b k n c = Function.update c m (c m + ∑ j ∈ range k, A ((n + j) * M + m) * b (n + j)) := by
  induction k generalizing c n with
  | zero => simp [matVecForwardRow]
  | succ k ih =>
    rw [matVecForwardRow, ih, Function.update_idem, Function.update_self, sum_range_succ']
    congr 1
    simp only [add_zero, add_assoc, add_comm 1]
    ring

lemma matVecProduct_eq (M N : ℕ) (hN : 0 < N) (A b : ℕ → K) (k : ℕ) (c : ℕ → K) (x : ℕ) :
    matVecProduct M N A b k c x = if x < k then ∑ j ∈ range N, A (j * M + x) * b j else c x := by
  induction k generalizing c with
  | zero => simp [matVecProduct]
  | succ k ih =>
    simp only [matVecProduct, ih, matVecRow_eq, Function.update_idem, Function.update_self]
    by_cases h1 : x < k
    · rw [if_pos h1, if_pos (by omega)]
    · rw [if_neg h1]
      by_cases h2 : x = k
      · subst h2
        obtain ⟨N', rfl⟩ : ∃ N', N = N' + 1 := ⟨N - 1, by omega⟩
        rw [Function.update_self, if_pos (by omega), sum_range_succ, Nat.add_sub_cancel]
        ring
      · rw [Function.update_of_ne h2, if_neg (by omega)]

lemma matVecForward_eq (M N : ℕ) (hN : 0 < N) (A b : ℕ → K) (k m : ℕ) (c : ℕ → K) (x : ℕ) :
    matVecForward M N A b k m c x = if m ≤ x ∧ x < m + k then ∑ j ∈ range N, A (j * M + x) * b j else c x := by
  induction k generalizing c m with
  | zero => rw [matVecForward, if_neg (by omega)]
  | succ k ih =>
    simp only [matVecForward, ih, matVecForwardRow_eq, Function.update_idem, Function.update_self]
    by_cases h1 : m + 1 ≤ x ∧ x < m + 1 + k
    · rw [if_pos h1, if_pos (by omega)]
    · rw [if_neg h1]
      by_cases h2 : x = m
      · subst h2
        obtain ⟨N', rfl⟩ : ∃ N', N = N' + 1 := ⟨N - 1, by omega⟩
        rw [Function.update_self, if_pos (by omega), sum_range_succ', Nat.add_sub_cancel]
        simp only [add_comm 1, zero_mul, zero_add]
        ring
      · rw [Function.update_of_ne h2, if_neg (by omega)]

/-- **C49** The product of a matrix and a vector, in both versions, writes the vector with the elements `Σ A i j * v j`, and
nothing else. -/
theorem C49_matrix_vector {m n : ℕ} (hn : 0 < n) (a b c : ℕ → K) (A : Mat K m n) (v : Vec K n) (ha : HoldsMat a A)
    (hb : HoldsVec b v) :
    (HoldsVec (matVecProduct m n a b m c) (fun i => ∑ j, A i j * v j) ∧ SameFrom m c (matVecProduct m n a b m c)) ∧
    (HoldsVec (matVecForward m n a b m 0 c) (fun i => ∑ j, A i j * v j) ∧ SameFrom m c (matVecForward m n a b m 0 c)) := by
  have hsum : ∀ i : Fin m, ∑ j ∈ range n, a (j * m + i) * b j = ∑ j, A i j * v j := by
    intro i
    rw [← Fin.sum_univ_eq_sum_range (fun j => a (j * m + i) * b j)]
    exact sum_congr rfl fun j _ => by rw [ha i j, hb j]
  refine ⟨⟨fun i => ?_, fun x hx => ?_⟩, fun i => ?_, fun x hx => ?_⟩
  · rw [matVecProduct_eq _ _ hn, if_pos i.2, hsum]
  · rw [matVecProduct_eq _ _ hn, if_neg (by omega)]
  · rw [matVecForward_eq _ _ hn, if_pos ⟨by omega, by have := i.2; omega⟩, hsum]
  · rw [matVecForward_eq _ _ hn, if_neg (by omega)]

/-! ## Matrix times matrix -/

lemma matMatSteps_eq (M N m n : ℕ) (A B : ℕ → K) (k s : ℕ) (c : ℕ → K) :
    matMatSteps M N m n A B k s c =
      Function.update c (n * M + m) (c (n * M + m) + ∑ j ∈ range k, A ((s + j) * M + m) * B (n * N + (s + j))) := by
  induction k generalizing c s with
  | zero => simp [matMatSteps]
  | succ k ih =>
    simp only [matMatSteps, ih, Function.update_idem, Function.update_self, sum_range_succ']
    congr 1
    simp only [add_zero, add_assoc, add_comm 1]
    ring

lemma matMatColumn_eq (M N n : ℕ) (hN : 0 < N) (A B : ℕ → K) (k m : ℕ) (c : ℕ → K) (x : ℕ) :
    matMatColumn M N n A B k m c x = if n * M + m ≤ x ∧ x < n * M + m + k then
      ∑ j ∈ range N, A (j * M + (x - n * M)) * B (n * N + j) else c x := by
  induction k generalizing c m with
  | zero => rw [matMatColumn, if_neg (by omega)]
  | succ k ih =>
    simp only [matMatColumn, ih, matMatSteps_eq, Function.update_idem, Function.update_self]
    by_cases h1 : n * M + (m + 1) ≤ x ∧ x < n * M + (m + 1) + k
    · rw [if_pos h1, if_pos (by omega)]
    · rw [if_neg h1]
      by_cases h2 : x = n * M + m
      · subst h2
        obtain ⟨N', rfl⟩ : ∃ N', N = N' + 1 := ⟨N - 1, by omega⟩
        rw [Function.update_self, if_pos (by omega), sum_range_succ', Nat.add_sub_cancel, Nat.add_sub_cancel_left]
        simp only [add_comm 1, zero_mul, zero_add, add_zero]
        ring
      · rw [Function.update_of_ne h2, if_neg (by omega)]

lemma matMatProduct_eq (M N : ℕ) (hN : 0 < N) (A B : ℕ → K) (k n : ℕ) (c : ℕ → K) :
    (∀ i j, i < M → n ≤ j → j < n + k → matMatProduct M N A B k n c (j * M + i) =
      ∑ s ∈ range N, A (s * M + i) * B (j * N + s)) ∧
    ∀ x, x < n * M ∨ (n + k) * M ≤ x → matMatProduct M N A B k n c x = c x := by
  induction k generalizing c n with
  | zero => exact ⟨fun i j _ h1 h2 => absurd h2 (by omega), fun x _ => rfl⟩
  | succ k ih =>
    obtain ⟨h1, h2⟩ := ih (n + 1) (matMatColumn M N n A B M 0 c)
    refine ⟨fun i j hi hj hj' => ?_, fun x hx => ?_⟩
    · rw [matMatProduct]
      by_cases hjn : n + 1 ≤ j
      · exact h1 i j hi hjn (by omega)
      · have : j = n := by omega
        subst this
        rw [h2 _ (Or.inl (by rw [Nat.succ_mul]; omega)), matMatColumn_eq _ _ _ hN, if_pos ⟨by omega, by omega⟩,
          Nat.add_sub_cancel_left]
    · rw [matMatProduct]
      have e : (n + 1) * M = n * M + M := Nat.succ_mul n M
      have e2 : (n + (k + 1)) * M = (n + 1 + k) * M := by congr 1; omega
      have e3 : (n + 1) * M ≤ (n + 1 + k) * M := Nat.mul_le_mul_right M (by omega)
      rw [h2 x (by omega), matMatColumn_eq _ _ _ hN, if_neg (by omega)]

/-- **C49** The product of two matrices writes the matrix with the elements `Σ A i k * B k j`, and nothing else. -/
theorem C49_matrix_matrix {m k n : ℕ} (hk : 0 < k) (a b c : ℕ → K) (A : Mat K m k) (B : Mat K k n) (ha : HoldsMat a A)
    (hb : HoldsMat b B) :
    HoldsMat (matMatProduct m k a b n 0 c) (Matrix.of fun i j => ∑ l, A i l * B l j) ∧
      SameFrom (n * m) c (matMatProduct m k a b n 0 c) := by
  obtain ⟨h1, h2⟩ := matMatProduct_eq m k hk a b n 0 c
  refine ⟨fun i j => ?_, fun x hx => h2 x (Or.inr (by rw [zero_add]; exact hx))⟩
  rw [h1 i j i.2 (by omega) (by have := j.2; omega), Matrix.of_apply,
    ← Fin.sum_univ_eq_sum_range (fun s => a (s * m + i) * b (j * k + s))]
  exact sum_congr rfl fun s _ => by rw [ha i s, hb s j]

/-- The hypotheses are met and the result is the product: `[1 2; 3 4] * [5 6; 7 8]`, columns first in memory. -/
example : HoldsMat (matMatProduct 2 2 (fun i => [1, 3, 2, 4].getD i (0 : ℤ)) (fun i => [5, 7, 6, 8].getD i 0) 2 0 fun _ => 9)
    !![19, 22; 43, 50] := by
  have := (C49_matrix_matrix (m := 2) (k := 2) (n := 2) (by norm_num) (fun i => [1, 3, 2, 4].getD i (0 : ℤ))
    (fun i => [5, 7, 6, 8].getD i 0) (fun _ => 9) !![1, 2; 3, 4] !![5, 6; 7, 8]
    (by intro i j; fin_cases i <;> fin_cases j <;> rfl) (by intro i j; fin_cases i <;> fin_cases j <;> rfl)).1
  convert this using 1
  decide

end Ubitrack.Blas
