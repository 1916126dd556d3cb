import Verif.Props.RotationReal
import Mathlib.LinearAlgebra.Matrix.NonsingularInverse

/-!
# Every rotation matrix is the matrix of a unit quaternion
-/

namespace Ubitrack.Quat

open Spec
open scoped Matrix

/-- A symmetric 4x4 array of rank one with trace 4: it is four times the products of the
components of one unit vector. -/
theorem exists_sqrt_of_rank_one (e : Fin 4 → Fin 4 → ℝ) (hr : ∀ k i j, e k k * e i j = e k i * e k j)
    (ht : e 0 0 + e 1 1 + e 2 2 + e 3 3 = 4) :
    ∃ q : Fin 4 → ℝ, ∀ i j, 4 * (q i * q j) = e i j := by
  have hd : ∀ i, 0 ≤ e i i := by
    intro i
    have h0 := hr i 0 0; have h1 := hr i 1 1; have h2 := hr i 2 2; have h3 := hr i 3 3
    have : 4 * e i i = e i 0 ^ 2 + e i 1 ^ 2 + e i 2 ^ 2 + e i 3 ^ 2 := by
      linear_combination (-e i i) * ht + h0 + h1 + h2 + h3
    nlinarith [sq_nonneg (e i 0), sq_nonneg (e i 1), sq_nonneg (e i 2), sq_nonneg (e i 3)]
  obtain ⟨k, hk⟩ : ∃ k, 0 < e k k := by
    by_contra hn
    push Not at hn
    have h0 := hn 0; have h1 := hn 1; have h2 := hn 2; have h3 := hn 3
    linarith
  refine ⟨fun j => e k j / (2 * Real.sqrt (e k k)), fun i j => ?_⟩
  have hsq : Real.sqrt (e k k) * Real.sqrt (e k k) = e k k := Real.mul_self_sqrt hk.le
  have hpos : 0 < Real.sqrt (e k k) := Real.sqrt_pos.mpr hk
  have : e k i * e k j = e k k * e i j := by rw [hr k i j]
  rw [div_mul_div_comm, this]
  have h2 : 2 * Real.sqrt (e k k) * (2 * Real.sqrt (e k k)) = 4 * e k k := by
    linear_combination 4 * hsq
  rw [h2]
  field_simp

set_option maxHeartbeats 4000000 in
/-- Every orthogonal matrix of determinant one is the matrix of some unit quaternion. -/
theorem exists_unit_of_rotation (R : Mat ℝ 3 3) (hR : Rᵀ * R = 1) (hdet : R.det = 1) :
    ∃ q : Quat ℝ, UnitQ q ∧ toMatrix q = R := by
  have hR' : R * Rᵀ = 1 := mul_eq_one_comm.mp hR
  have hadj : R.adjugate = Rᵀ := by
    have h1 : R.adjugate * R = 1 := by rw [Matrix.adjugate_mul, hdet, one_smul]
    calc R.adjugate = R.adjugate * (R * Rᵀ) := by rw [hR', Matrix.mul_one]
      _ = Rᵀ := by rw [← Matrix.mul_assoc, h1, Matrix.one_mul]
  rw [Matrix.adjugate_fin_three] at hadj
  have e : ∀ i j, (Rᵀ * R) i j = (1 : Mat ℝ 3 3) i j := fun i j => by rw [hR]
  have e' : ∀ i j, (R * Rᵀ) i j = (1 : Mat ℝ 3 3) i j := fun i j => by rw [hR']
  have c : ∀ i j, Rᵀ i j = _ := fun i j => congrFun (congrFun hadj.symm i) j
  have a00 := e 0 0; have a11 := e 1 1; have a22 := e 2 2
  have a01 := e 0 1; have a02 := e 0 2; have a12 := e 1 2
  have b00 := e' 0 0; have b11 := e' 1 1; have b22 := e' 2 2
  have b01 := e' 0 1; have b02 := e' 0 2; have b12 := e' 1 2
  have c00 := c 0 0; have c01 := c 0 1; have c02 := c 0 2
  have c10 := c 1 0; have c11 := c 1 1; have c12 := c 1 2
  have c20 := c 2 0; have c21 := c 2 1; have c22 := c 2 2
  simp [Matrix.mul_apply, Fin.sum_univ_three, Matrix.transpose_apply] at a00 a11 a22 a01 a02 a12 b00 b11 b22 b01 b02 b12 c00 c01 c02 c10 c11 c12 c20 c21 c22
  obtain ⟨r00, h00⟩ : ∃ r, r = R 0 0 := ⟨_, rfl⟩
  obtain ⟨r01, h01⟩ : ∃ r, r = R 0 1 := ⟨_, rfl⟩
  obtain ⟨r02, h02⟩ : ∃ r, r = R 0 2 := ⟨_, rfl⟩
  obtain ⟨r10, h10⟩ : ∃ r, r = R 1 0 := ⟨_, rfl⟩
  obtain ⟨r11, h11⟩ : ∃ r, r = R 1 1 := ⟨_, rfl⟩
  obtain ⟨r12, h12⟩ : ∃ r, r = R 1 2 := ⟨_, rfl⟩
  obtain ⟨r20, h20⟩ : ∃ r, r = R 2 0 := ⟨_, rfl⟩
  obtain ⟨r21, h21⟩ : ∃ r, r = R 2 1 := ⟨_, rfl⟩
  obtain ⟨r22, h22⟩ : ∃ r, r = R 2 2 := ⟨_, rfl⟩
  simp only [← h00, ← h01, ← h02, ← h10, ← h11, ← h12, ← h20, ← h21, ← h22] at a00 a11 a22 a01 a02 a12 b00 b11 b22 b01 b02 b12 c00 c01 c02 c10 c11 c12 c20 c21 c22
  clear c e e' hadj hR hR' hdet
  let E : Fin 4 → Fin 4 → ℝ := ![
    ![1 + r00 + r11 + r22, r21 - r12, r02 - r20, r10 - r01],
    ![r21 - r12, 1 + r00 - r11 - r22, r01 + r10, r02 + r20],
    ![r02 - r20, r01 + r10, 1 - r00 + r11 - r22, r12 + r21],
    ![r10 - r01, r02 + r20, r12 + r21, 1 - r00 - r11 + r22]]
  obtain ⟨q, hq⟩ := exists_sqrt_of_rank_one E
    (by
      intro k i j
      fin_cases k <;> fin_cases i <;> fin_cases j <;> simp [E] <;> grind)
    (by simp [E]; ring)
  have q00 := hq 0 0; have q11 := hq 1 1; have q22 := hq 2 2; have q33 := hq 3 3
  have q01 := hq 0 1; have q02 := hq 0 2; have q03 := hq 0 3
  have q12 := hq 1 2; have q13 := hq 1 3; have q23 := hq 2 3
  simp [E] at q00 q11 q22 q33 q01 q02 q03 q12 q13 q23
  refine ⟨⟨q 1, q 2, q 3, q 0⟩, ?_, ?_⟩
  · unfold UnitQ; linarith
  · ext i j
    fin_cases i <;> fin_cases j <;>
      simp [toMatrix, ← h00, ← h01, ← h02, ← h10, ← h11, ← h12, ← h20, ← h21, ← h22] <;> linarith

end Ubitrack.Quat
