import Verif.Props.RotationGroup

/-! # C02: which rotations there are -/

namespace Ubitrack
open Ubitrack.Spec Ubitrack.Quat
open scoped Matrix

/-- **C02** Unit quaternions that rotate all vectors alike are equal or opposite. -/
theorem C02_faithful (p q : Quat ℝ) (hp : UnitQ p) (hq : UnitQ q) : (∀ v, rotate p v = rotate q v) ↔ SameRotation p q := by
  rw [← (C03_group p q hp hq).2.2]
  constructor
  · intro h
    apply Matrix.ext_of_mulVec_single
    intro i
    rw [(C03_quaternion_to_matrix _ hp).1, (C03_quaternion_to_matrix _ hq).1, h]
  · intro h v
    rw [← (C03_quaternion_to_matrix _ hp).1, ← (C03_quaternion_to_matrix _ hq).1, h]

private theorem half_turn (a u : Vec ℝ 3) : rotate ⟨a 0, a 1, a 2, 0⟩ u = (2 * (a ⬝ᵥ u)) • a - u := by
  ext i
  fin_cases i <;> simp [rotate, dotProduct, Fin.sum_univ_three] <;> ring

private theorem perpendicular (u : Vec ℝ 3) : ∃ a : Vec ℝ 3, lenSq a = 1 ∧ a ⬝ᵥ u = 0 := by
  by_cases h : u 0 ^ 2 + u 1 ^ 2 = 0
  · have h0 : u 0 = 0 := by nlinarith [sq_nonneg (u 0), sq_nonneg (u 1)]
    exact ⟨![1, 0, 0], by simp [lenSq], by simp [dotProduct, Fin.sum_univ_three, h0]⟩
  · have hp : 0 < u 0 ^ 2 + u 1 ^ 2 := lt_of_le_of_ne (by positivity) (Ne.symm h)
    have hs := Real.sqrt_pos.mpr hp
    have hq := Real.sq_sqrt hp.le
    refine ⟨![-u 1 / Real.sqrt (u 0 ^ 2 + u 1 ^ 2), u 0 / Real.sqrt (u 0 ^ 2 + u 1 ^ 2), 0], ?_, ?_⟩
    · simp only [lenSq, Matrix.cons_val_zero, Matrix.cons_val_one, Matrix.cons_val, div_pow, hq]
      field_simp
      ring
    · simp only [dotProduct, Fin.sum_univ_three, Matrix.cons_val_zero, Matrix.cons_val_one, Matrix.cons_val]
      field_simp
      ring

/-- **C02** A vector can be rotated to exactly the vectors of its own length. -/
theorem C02_reach (u v : Vec ℝ 3) : (∃ q : Quat ℝ, UnitQ q ∧ rotate q u = v) ↔ lenSq u = lenSq v := by
  constructor
  · rintro ⟨q, hq, rfl⟩
    exact ((C01_rotation_rigid q hq).2.2 u).symm
  · intro h
    unfold lenSq at h
    by_cases hz : lenSq (u + v) = 0
    · have hv : v = -u := by
        unfold lenSq at hz
        simp only [Pi.add_apply] at hz
        ext i
        fin_cases i <;> simp <;>
          nlinarith [sq_nonneg (u 0 + v 0), sq_nonneg (u 1 + v 1), sq_nonneg (u 2 + v 2)]
      obtain ⟨a, ha, hau⟩ := perpendicular u
      refine ⟨⟨a 0, a 1, a 2, 0⟩, ?_, ?_⟩
      · unfold lenSq at ha; unfold UnitQ; simpa using ha
      · rw [half_turn, hau, hv]; simp
    · have hp : 0 < lenSq (u + v) := lt_of_le_of_ne (by unfold lenSq; positivity) (Ne.symm hz)
      have hs := Real.sqrt_pos.mpr hp
      have hq := Real.sq_sqrt hp.le
      set s := Real.sqrt (lenSq (u + v)) with hsdef
      refine ⟨⟨(s⁻¹ • (u + v)) 0, (s⁻¹ • (u + v)) 1, (s⁻¹ • (u + v)) 2, 0⟩, ?_, ?_⟩
      · unfold UnitQ
        simp only [Pi.smul_apply, smul_eq_mul, mul_pow, inv_pow, hq]
        unfold lenSq at hz ⊢
        field_simp
        ring
      · rw [half_turn, smul_dotProduct]
        have e : 2 * ((u + v) ⬝ᵥ u) = s ^ 2 := by
          rw [hq]
          simp only [lenSq, dotProduct, Fin.sum_univ_three, Pi.add_apply]
          linear_combination h
        ext i
        simp only [Pi.sub_apply, Pi.smul_apply, Pi.add_apply, smul_eq_mul]
        have : 2 * (s⁻¹ * ((u + v) ⬝ᵥ u)) * (s⁻¹ * (u i + v i)) = u i + v i := by
          field_simp
          linear_combination (u i + v i) * e
        linarith

/-- Different vectors of the same length. -/
example : lenSq (![3, 4, 0] : Vec ℝ 3) = lenSq ![0, 0, 5] := by
  simp [lenSq]; norm_num

end Ubitrack
