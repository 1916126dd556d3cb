import Verif.Spec.Factorisation
import Mathlib.Tactic.Ring
import Mathlib.Tactic.FieldSimp
import Mathlib.Algebra.BigOperators.Fin
import Mathlib.Data.Real.Basic

/-!
# Every matrix has an LU factorisation with row interchanges
-/

namespace Ubitrack.Spec
open scoped Matrix

/-- Row interchanges, and the same interchanges one row further down, are a selection of rows. -/
lemma interchange_select {n : ℕ} (π : Fin n → Fin n) (l : List (Fin n)) : ∃ σ : Fin n → Fin n,
    (∀ A : Mat ℝ n n, l.foldl (fun B i => swapRows i (π i) B) A = fun r => A (σ r)) ∧
    ∀ B : Mat ℝ (n + 1) (n + 1), l.foldl (fun B i => swapRows i.succ (π i).succ B) B =
      fun r => B (Fin.cases 0 (fun k => (σ k).succ) r) := by
  induction l with
  | nil =>
    refine ⟨id, fun A => rfl, fun B => ?_⟩
    funext r
    refine Fin.cases ?_ (fun k => ?_) r <;> rfl
  | cons i l ih =>
    obtain ⟨σ, h1, h2⟩ := ih
    refine ⟨fun r => Equiv.swap i (π i) (σ r), fun A => ?_, fun B => ?_⟩
    · rw [List.foldl_cons, h1]; rfl
    · rw [List.foldl_cons, h2]
      funext r
      refine Fin.cases ?_ (fun k => ?_) r
      · simp only [Fin.cases_zero, swapRows]
        rw [Equiv.swap_apply_of_ne_of_ne (Fin.succ_ne_zero _).symm (Fin.succ_ne_zero _).symm]
      · simp only [Fin.cases_succ, swapRows]
        congr 1
        by_cases a : σ k = i
        · rw [a, Equiv.swap_apply_left, Equiv.swap_apply_left]
        · by_cases b : σ k = π i
          · rw [b, Equiv.swap_apply_right, Equiv.swap_apply_right]
          · rw [Equiv.swap_apply_of_ne_of_ne a b, Equiv.swap_apply_of_ne_of_ne]
            · exact fun h => a (Fin.succ_injective _ h)
            · exact fun h => b (Fin.succ_injective _ h)

theorem exists_lu : ∀ (n : ℕ) (A : Mat ℝ n n), ∃ (a : Mat ℝ n n) (ipiv : Fin n → Fin n),
    interchange ipiv A = lowerUnit a * upperPart a := by
  intro n
  induction n with
  | zero => intro A; exact ⟨A, fun i => i, by ext i; exact i.elim0⟩
  | succ n ih =>
    intro A
    -- the pivot
    obtain ⟨p, hp⟩ : ∃ p : Fin (n + 1), A p 0 = 0 → ∀ i, A i 0 = 0 := by
      by_cases h : ∃ i, A i 0 ≠ 0
      · obtain ⟨i, hi⟩ := h
        exact ⟨i, fun h0 => absurd h0 hi⟩
      · exact ⟨0, fun _ i => by by_contra hi; exact h ⟨i, hi⟩⟩
    obtain ⟨B, hB⟩ : ∃ B, B = swapRows 0 p A := ⟨_, rfl⟩
    obtain ⟨c, hc⟩ : ∃ c : Vec ℝ n, ∀ i, B i.succ 0 = c i * B 0 0 := by
      by_cases h : B 0 0 = 0
      · refine ⟨0, fun i => ?_⟩
        rw [h, mul_zero, hB]
        have : A p 0 = 0 := by
          rw [hB] at h
          simpa [swapRows] using h
        exact hp this _
      · exact ⟨fun i => B i.succ 0 / B 0 0, fun i => by field_simp⟩
    obtain ⟨a', π', h'⟩ := ih (Matrix.of fun i j => B i.succ j.succ - c i * B 0 j.succ)
    obtain ⟨σ, s1, s2⟩ := interchange_select π' (List.finRange n)
    unfold interchange at h'
    rw [s1] at h'
    refine ⟨Matrix.of fun i j => Fin.cases (B 0 j) (fun k => Fin.cases (c (σ k)) (fun m => a' k m) j) i,
      Fin.cases p (fun k => (π' k).succ), ?_⟩
    have hi : interchange (Fin.cases p (fun k => (π' k).succ)) A = fun r => B (Fin.cases 0 (fun k => (σ k).succ) r) := by
      unfold interchange
      rw [List.finRange_succ, List.foldl_cons, List.foldl_map]
      simp only [Fin.cases_zero, Fin.cases_succ]
      rw [← hB, s2]
    rw [hi]
    ext i j
    rw [Matrix.mul_apply, Fin.sum_univ_succ]
    refine Fin.cases ?_ (fun k => ?_) i
    · -- the first row
      have : ∀ x : Fin n, lowerUnit (Matrix.of fun i j => Fin.cases (motive := fun _ => ℝ) (B 0 j)
          (fun k => Fin.cases (motive := fun _ => ℝ) (c (σ k)) (fun m => a' k m) j) i) 0 x.succ = 0 := by
        intro x
        simp [lowerUnit, (Fin.succ_ne_zero x).symm]
      simp only [this, zero_mul, Finset.sum_const_zero, add_zero]
      simp [lowerUnit, upperPart]
    · -- the other rows
      refine Fin.cases ?_ (fun m => ?_) j
      · have : ∀ x : Fin n, upperPart (Matrix.of fun i j => Fin.cases (motive := fun _ => ℝ) (B 0 j)
            (fun k => Fin.cases (motive := fun _ => ℝ) (c (σ k)) (fun m => a' k m) j) i) x.succ 0 = 0 := by
          intro x
          simp [upperPart]
        simp only [this, mul_zero, Finset.sum_const_zero, add_zero]
        simp [lowerUnit, upperPart, hc]
      · have e := congrFun (congrFun h' k) m
        rw [Matrix.mul_apply] at e
        have e2 : ∑ x : Fin n, lowerUnit a' k x * upperPart a' x m = ∑ x : Fin n,
            lowerUnit (Matrix.of fun i j => Fin.cases (motive := fun _ => ℝ) (B 0 j)
              (fun k => Fin.cases (motive := fun _ => ℝ) (c (σ k)) (fun m => a' k m) j) i) k.succ x.succ *
            upperPart (Matrix.of fun i j => Fin.cases (motive := fun _ => ℝ) (B 0 j)
              (fun k => Fin.cases (motive := fun _ => ℝ) (c (σ k)) (fun m => a' k m) j) i) x.succ m.succ := by
          refine Finset.sum_congr rfl fun x _ => ?_
          simp [lowerUnit, upperPart]
        rw [← e2, ← e]
        simp [lowerUnit, upperPart]

/-- A routine with the contract of `getrf` exists for every size. -/
theorem exists_luFactorisation (n : ℕ) : ∃ getrf : Mat ℝ n n → Mat ℝ n n × (Fin n → Fin n), LUFactorisation getrf := by
  choose a ipiv h using exists_lu n
  exact ⟨fun A => (a A, ipiv A), h⟩

end Ubitrack.Spec
