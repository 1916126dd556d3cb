import Verif.Spec.Solver
import Mathlib.LinearAlgebra.Matrix.NonsingularInverse
import Mathlib.LinearAlgebra.Matrix.ToLinearEquiv
import Mathlib.Tactic.LinearCombination
import Mathlib.Tactic.Linarith

/-!
# Least-squares solvers exist
-/

namespace Ubitrack.Spec
open scoped Matrix

theorem systemError_nonneg {n : ℕ} (rows : List (Vec ℝ n × ℝ)) (x : Vec ℝ n) : 0 ≤ systemError rows x := by
  apply List.sum_nonneg
  intro y hy
  obtain ⟨r, _, rfl⟩ := List.mem_map.mp hy
  exact sq_nonneg _

theorem systemError_eq_zero {n : ℕ} (rows : List (Vec ℝ n × ℝ)) (x : Vec ℝ n) :
    systemError rows x = 0 ↔ ∀ r ∈ rows, r.1 ⬝ᵥ x = r.2 := by
  have hnn : ∀ y ∈ rows.map fun r => (r.1 ⬝ᵥ x - r.2) ^ 2, 0 ≤ y := by
    intro y hy
    obtain ⟨r, _, rfl⟩ := List.mem_map.mp hy
    exact sq_nonneg _
  constructor
  · intro h r hr
    have := List.all_zero_of_le_zero_le_of_sum_eq_zero hnn h (List.mem_map.mpr ⟨r, hr, rfl⟩)
    have := pow_eq_zero_iff (two_ne_zero) |>.mp this
    linarith
  · intro h
    apply List.sum_eq_zero
    intro y hy
    obtain ⟨r, hr, rfl⟩ := List.mem_map.mp hy
    rw [h r hr]; ring

/-- Moving from `x` to `x + e` changes the squared residual by a linear and a square term. -/
theorem systemError_add {n : ℕ} (rows : List (Vec ℝ n × ℝ)) (x e : Vec ℝ n) :
    systemError rows (x + e) = systemError rows x
      + 2 * ((rows.map fun r => (r.1 ⬝ᵥ x - r.2) • r.1).sum ⬝ᵥ e)
      + (rows.map fun r => (r.1 ⬝ᵥ e) ^ 2).sum := by
  unfold systemError
  induction rows with
  | nil => simp
  | cons r rs ih =>
    simp only [List.map_cons, List.sum_cons]
    rw [ih, add_dotProduct, smul_dotProduct, dotProduct_add, smul_eq_mul]
    ring

/-- The matrix of the normal equations. -/
def gram {n : ℕ} (rows : List (Vec ℝ n × ℝ)) : Mat ℝ n n :=
  (rows.map fun r => Matrix.vecMulVec r.1 r.1).sum

theorem gram_mulVec {n : ℕ} (rows : List (Vec ℝ n × ℝ)) (x : Vec ℝ n) :
    gram rows *ᵥ x = (rows.map fun r => (r.1 ⬝ᵥ x) • r.1).sum := by
  unfold gram
  induction rows with
  | nil => simp
  | cons r rs ih =>
    simp only [List.map_cons, List.sum_cons, Matrix.add_mulVec, ih]
    congr 1
    ext i
    simp [Matrix.mulVec, Matrix.vecMulVec_apply, dotProduct, Finset.sum_mul]
    apply Finset.sum_congr rfl
    intro j _; ring

theorem gram_quad {n : ℕ} (rows : List (Vec ℝ n × ℝ)) (x : Vec ℝ n) :
    x ⬝ᵥ (gram rows *ᵥ x) = (rows.map fun r => (r.1 ⬝ᵥ x) ^ 2).sum := by
  rw [gram_mulVec]
  induction rows with
  | nil => simp
  | cons r rs ih =>
    simp only [List.map_cons, List.sum_cons, dotProduct_add, ih, dotProduct_smul, smul_eq_mul]
    rw [dotProduct_comm x r.1]; ring

theorem gram_det_ne_zero {n : ℕ} (rows : List (Vec ℝ n × ℝ)) (h : FullRank rows) : (gram rows).det ≠ 0 := by
  intro hdet
  obtain ⟨v, hv, hz⟩ := Matrix.exists_mulVec_eq_zero_iff.mpr hdet
  apply hv
  apply h
  have hq := gram_quad rows v
  rw [hz, dotProduct_zero] at hq
  intro r hr
  have hnn : ∀ y ∈ rows.map fun r => (r.1 ⬝ᵥ v) ^ 2, 0 ≤ y := by
    intro y hy
    obtain ⟨r, _, rfl⟩ := List.mem_map.mp hy
    exact sq_nonneg _
  have := List.all_zero_of_le_zero_le_of_sum_eq_zero hnn hq.symm (List.mem_map.mpr ⟨r, hr, rfl⟩)
  exact pow_eq_zero_iff (two_ne_zero) |>.mp this

/-- A solver that meets both contracts: solve the normal equations if they are regular. -/
theorem exists_leastSquaresSolver (n : ℕ) :
    ∃ gels : List (Vec ℝ n × ℝ) → Option (Vec ℝ n), LeastSquaresSolver gels ∧ SucceedsOnFullRank gels := by
  classical
  refine ⟨fun rows => if (gram rows).det = 0 then none
    else some ((gram rows)⁻¹ *ᵥ (rows.map fun r => r.2 • r.1).sum), ?_, ?_⟩
  · intro rows x hx y
    dsimp only at hx
    split_ifs at hx with hdet
    simp only [Option.some.injEq] at hx
    have hsolve : gram rows *ᵥ x = (rows.map fun r => r.2 • r.1).sum := by
      rw [← hx, Matrix.mulVec_mulVec, Matrix.mul_nonsing_inv _ (Ne.isUnit hdet), Matrix.one_mulVec]
    have hgrad : (rows.map fun r => (r.1 ⬝ᵥ x - r.2) • r.1).sum = 0 := by
      have : ∀ rows : List (Vec ℝ n × ℝ), (rows.map fun r => (r.1 ⬝ᵥ x - r.2) • r.1).sum =
          (rows.map fun r => (r.1 ⬝ᵥ x) • r.1).sum - (rows.map fun r => r.2 • r.1).sum := by
        intro rows
        induction rows with
        | nil => simp
        | cons r rs ih => simp only [List.map_cons, List.sum_cons]; rw [ih, sub_smul]; abel
      rw [this, ← gram_mulVec, hsolve, sub_self]
    have hadd := systemError_add rows x (y - x)
    rw [add_sub_cancel, hgrad, zero_dotProduct] at hadd
    have hnn : 0 ≤ (rows.map fun r => (r.1 ⬝ᵥ (y - x)) ^ 2).sum := by
      apply List.sum_nonneg
      intro y hy
      obtain ⟨r, _, rfl⟩ := List.mem_map.mp hy
      exact sq_nonneg _
    linarith
  · intro rows h
    exact ⟨_, if_neg (gram_det_ne_zero rows h)⟩

end Ubitrack.Spec
