import Verif.Props.AverageNear

/-! # C26: averages in other frames -/

namespace Ubitrack.Average

open Spec Stochastic Quat
open scoped Matrix

variable {n m : ℕ}

private theorem vectorAverage_eq (data : List (Vec ℝ n)) : vectorAverage data = (data.length : ℝ)⁻¹ • data.sum := by
  funext i
  rw [C26_vector_mean]
  unfold mean
  rw [List.length_map, Pi.smul_apply, smul_eq_mul, list_sum_apply, div_eq_inv_mul]

/-- **C26** The average of vectors does not depend on the frame: the average of the images of one or more vectors under an affine map
(other units, axes and origin, also in another number of dimensions) is the image of their average. -/
theorem C26_vector_frames (data : List (Vec ℝ n)) (hne : data ≠ []) (A : Mat ℝ m n) (c : Vec ℝ m) :
    vectorAverage (data.map fun v => A *ᵥ v + c) = A *ᵥ vectorAverage data + c := by
  have hl : (data.length : ℝ) ≠ 0 := by exact_mod_cast (List.length_pos_iff.mpr hne).ne'
  have hs : (data.map fun v => A *ᵥ v + c).sum = A *ᵥ data.sum + (data.length : ℝ) • c := by
    clear hne hl
    induction data with
    | nil => simp
    | cons v l ih =>
      simp only [List.map_cons, List.sum_cons, ih, Matrix.mulVec_add, List.length_cons, Nat.cast_add, Nat.cast_one, add_smul, one_smul]
      abel
  rw [vectorAverage_eq, vectorAverage_eq, List.length_map, hs, smul_add, smul_smul, inv_mul_cancel₀ hl, one_smul, Matrix.mulVec_smul]

/-- **C26, refuted.** The average of rotations does not depend on the frame. Turning two rotations by a third one does not turn their
average by it. -/
theorem C26_quat_frames_refuted : ∃ p q c : Quat ℝ, UnitQ p ∧ UnitQ q ∧ UnitQ c ∧ 0 < p.w ∧ 0 < q.w ∧
    ¬ SameRotation (quatAverage [c.mul p, c.mul q]) (c.mul (quatAverage [p, q])) := by
  have a1 : align ⟨3/5, 0, 0, 4/5⟩ = ⟨3/5, 0, 0, 4/5⟩ := align_pos (by norm_num)
  have a2 : align ⟨-3/5, 0, 0, 4/5⟩ = ⟨-3/5, 0, 0, 4/5⟩ := align_pos (by norm_num)
  have hone : ∀ e : ℝ, 0 < e → Quat.normalize ⟨0, 0, 0, e⟩ = ⟨0, 0, 0, 1⟩ := by
    intro e he
    have ha : (⟨0, 0, 0, e⟩ : Quat ℝ).abs = e := by
      unfold Quat.abs normSq
      simp only
      rw [show e * e + 0 * 0 + 0 * 0 + 0 * 0 = e ^ 2 by ring, Real.sqrt_sq he.le]
    unfold Quat.normalize
    rw [ha]
    simp [he.ne']
  have h1 : quatAverage [⟨3/5, 0, 0, 4/5⟩, ⟨-3/5, 0, 0, 4/5⟩] = ⟨0, 0, 0, 1⟩ := by
    rw [C26_quat_mean, ← hone (4/5) (by norm_num)]
    congr 1
    simp only [rawMean, mean, List.map_cons, List.map_nil, a1, a2, List.sum_cons, List.sum_nil, List.length_cons, List.length_nil]
    norm_num
  have c1 : (⟨1, 0, 0, 0⟩ : Quat ℝ).mul ⟨3/5, 0, 0, 4/5⟩ = ⟨4/5, 0, 0, -3/5⟩ := by norm_num [Quat.mul]
  have c2 : (⟨1, 0, 0, 0⟩ : Quat ℝ).mul ⟨-3/5, 0, 0, 4/5⟩ = ⟨4/5, 0, 0, 3/5⟩ := by norm_num [Quat.mul]
  have b1 : align ⟨4/5, 0, 0, -3/5⟩ = ⟨-4/5, 0, 0, 3/5⟩ := by
    unfold align
    rw [if_neg (by norm_num)]
    norm_num [Quat.neg]
  have b2 : align ⟨4/5, 0, 0, 3/5⟩ = ⟨4/5, 0, 0, 3/5⟩ := align_pos (by norm_num)
  have h2 : quatAverage [⟨4/5, 0, 0, -3/5⟩, ⟨4/5, 0, 0, 3/5⟩] = ⟨0, 0, 0, 1⟩ := by
    rw [C26_quat_mean, ← hone (3/5) (by norm_num)]
    congr 1
    simp only [rawMean, mean, List.map_cons, List.map_nil, b1, b2, List.sum_cons, List.sum_nil, List.length_cons, List.length_nil]
    norm_num
  refine ⟨⟨3/5, 0, 0, 4/5⟩, ⟨-3/5, 0, 0, 4/5⟩, ⟨1, 0, 0, 0⟩, by norm_num [UnitQ], by norm_num [UnitQ], by norm_num [UnitQ],
    by norm_num, by norm_num, ?_⟩
  rw [c1, c2, h1, h2]
  rintro (h | ⟨h, -⟩)
  · have := congrArg Quat.w h
    norm_num [Quat.mul] at this
  · norm_num [Quat.mul] at h

example : ([![1, 2], ![3, 4]] : List (Vec ℝ 2)) ≠ [] := by simp

end Ubitrack.Average
