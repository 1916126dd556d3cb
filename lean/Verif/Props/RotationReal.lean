import Verif.Props.Pose
import Mathlib.Tactic.FieldSimp
import Mathlib.Tactic.Positivity

/-!
# C04: matrix to quaternion conversion
-/

namespace Ubitrack
open Ubitrack.Spec Ubitrack.Quat
open scoped Matrix

namespace Quat

theorem normSq_of_unit {q : Quat ℝ} (h : UnitQ q) : q.normSq = 1 := by
  unfold UnitQ at h; unfold normSq; linarith

theorem normalize_unit {q : Quat ℝ} (h : UnitQ q) : q.normalize = q := by
  have : q.abs = 1 := by rw [abs, normSq_of_unit h, Real.sqrt_one]
  ext <;> simp [normalize, this]

theorem unit_normalize {q : Quat ℝ} (h : q.normSq ≠ 0) : UnitQ q.normalize := by
  have hpos : 0 < q.normSq := by
    have : 0 ≤ q.normSq := by
      unfold normSq
      nlinarith [mul_self_nonneg q.x, mul_self_nonneg q.y, mul_self_nonneg q.z,
        mul_self_nonneg q.w]
    exact lt_of_le_of_ne this (Ne.symm h)
  have hs : q.abs ^ 2 = q.normSq := Real.sq_sqrt hpos.le
  have ha : q.abs ≠ 0 := (Real.sqrt_pos.mpr hpos).ne'
  unfold UnitQ normalize
  simp only [div_pow, hs]
  rw [← add_div, ← add_div, ← add_div, div_eq_one_iff_eq h]
  unfold normSq; ring

theorem sqrt_four_sq (a : ℝ) : Real.sqrt (4 * a ^ 2) * 2 = 4 * |a| := by
  have : (4 : ℝ) * a ^ 2 = (2 * a) ^ 2 := by ring
  rw [this, Real.sqrt_sq_eq_abs, abs_mul]; norm_num; ring

theorem sameRotation_of_sign {p q : Quat ℝ} (s : ℝ) (hs : s = 1 ∨ s = -1)
    (hx : p.x = s * q.x) (hy : p.y = s * q.y) (hz : p.z = s * q.z) (hw : p.w = s * q.w) :
    SameRotation p q := by
  rcases hs with rfl | rfl
  · left; ext <;> simp [*]
  · right; simp [*]

theorem abs_sign (a : ℝ) (h : a ≠ 0) : ∃ s : ℝ, (s = 1 ∨ s = -1) ∧ |a| = s * a ∧ s * s = 1 := by
  rcases lt_or_gt_of_ne h with h | h
  · exact ⟨-1, Or.inr rfl, by rw [abs_of_neg h]; ring, by norm_num⟩
  · exact ⟨1, Or.inl rfl, by rw [abs_of_pos h]; ring, by norm_num⟩

theorem ofMatrixRaw_toMatrix (q : Quat ℝ) (hq : UnitQ q) :
    SameRotation (ofMatrixRaw (toMatrix q)) q := by
  have hu := hq
  unfold UnitQ at hu
  have h00 : toMatrix q 0 0 = 1 - 2 * (q.y ^ 2 + q.z ^ 2) := by simp [toMatrix]; ring
  have h11 : toMatrix q 1 1 = 1 - 2 * (q.x ^ 2 + q.z ^ 2) := by simp [toMatrix]; ring
  have h22 : toMatrix q 2 2 = 1 - 2 * (q.x ^ 2 + q.y ^ 2) := by simp [toMatrix]; ring
  have h01 : toMatrix q 0 1 = 2 * (q.x * q.y - q.z * q.w) := by simp [toMatrix]
  have h02 : toMatrix q 0 2 = 2 * (q.x * q.z + q.y * q.w) := by simp [toMatrix]
  have h10 : toMatrix q 1 0 = 2 * (q.x * q.y + q.z * q.w) := by simp [toMatrix]
  have h12 : toMatrix q 1 2 = 2 * (q.y * q.z - q.x * q.w) := by simp [toMatrix]
  have h20 : toMatrix q 2 0 = 2 * (q.x * q.z - q.y * q.w) := by simp [toMatrix]
  have h21 : toMatrix q 2 1 = 2 * (q.y * q.z + q.x * q.w) := by simp [toMatrix]
  unfold ofMatrixRaw
  simp only [h00, h11, h22, h01, h02, h10, h12, h20, h21]
  have hT : 1 + (1 - 2 * (q.y ^ 2 + q.z ^ 2)) + (1 - 2 * (q.x ^ 2 + q.z ^ 2)) +
      (1 - 2 * (q.x ^ 2 + q.y ^ 2)) = 4 * q.w ^ 2 := by linear_combination (-4) * hu
  rw [hT]
  split_ifs with hT' hc0 hc1
  · have hw : q.w ≠ 0 := by rintro h; rw [h] at hT'; norm_num at hT'
    obtain ⟨s, hs, hsa, hss⟩ := abs_sign q.w hw
    have hs0 : s ≠ 0 := by rcases hs with rfl | rfl <;> norm_num
    rw [sqrt_four_sq, hsa]
    refine sameRotation_of_sign (-s) ?_ ?_ ?_ ?_ ?_
    · rcases hs with rfl | rfl <;> norm_num
    all_goals dsimp only
    · field_simp; linear_combination (4 * q.x * q.w) * hss
    · field_simp; linear_combination (4 * q.y * q.w) * hss
    · field_simp; linear_combination (4 * q.z * q.w) * hss
    · ring
  all_goals
    have hw2 : q.w ^ 2 = 0 := le_antisymm (by linarith) (sq_nonneg _)
    have hw : q.w = 0 := by simpa using hw2
    simp only [hw]
    rw [hw] at hu
  · have hx : q.x ≠ 0 := by
      rintro h; rw [h] at hu hc0
      have := hc0.1
      nlinarith [sq_nonneg q.y, sq_nonneg q.z]
    obtain ⟨s, hs, hsa, hss⟩ := abs_sign q.x hx
    have hs0 : s ≠ 0 := by rcases hs with rfl | rfl <;> norm_num
    have hT : 1 + (1 - 2 * (q.y ^ 2 + q.z ^ 2)) - (1 - 2 * (q.x ^ 2 + q.z ^ 2)) -
      (1 - 2 * (q.x ^ 2 + q.y ^ 2)) = 4 * q.x ^ 2 := by ring
    rw [hT, sqrt_four_sq, hsa]
    refine sameRotation_of_sign s hs ?_ ?_ ?_ ?_
    all_goals dsimp only
    · ring
    · field_simp; linear_combination (-4 * q.y * q.x) * hss
    · field_simp; linear_combination (-4 * q.z * q.x) * hss
    · rw [hw]; simp
  · have hy : q.y ≠ 0 := by
      rintro h; rw [h] at hu hc1
      nlinarith [sq_nonneg q.x, sq_nonneg q.z]
    obtain ⟨s, hs, hsa, hss⟩ := abs_sign q.y hy
    have hs0 : s ≠ 0 := by rcases hs with rfl | rfl <;> norm_num
    have hT : 1 + (1 - 2 * (q.x ^ 2 + q.z ^ 2)) - (1 - 2 * (q.y ^ 2 + q.z ^ 2)) -
      (1 - 2 * (q.x ^ 2 + q.y ^ 2)) = 4 * q.y ^ 2 := by ring
    rw [hT, sqrt_four_sq, hsa]
    refine sameRotation_of_sign s hs ?_ ?_ ?_ ?_
    all_goals dsimp only
    · field_simp; linear_combination (-4 * q.x * q.y) * hss
    · ring
    · field_simp; linear_combination (-4 * q.z * q.y) * hss
    · rw [hw]; simp
  · have hz : q.z ≠ 0 := by
      rintro h; rw [h] at hu hc1 hc0
      apply hc0
      constructor <;> nlinarith [sq_nonneg q.x, sq_nonneg q.y]
    obtain ⟨s, hs, hsa, hss⟩ := abs_sign q.z hz
    have hs0 : s ≠ 0 := by rcases hs with rfl | rfl <;> norm_num
    have hT : 1 + (1 - 2 * (q.x ^ 2 + q.y ^ 2)) - (1 - 2 * (q.y ^ 2 + q.z ^ 2)) -
      (1 - 2 * (q.x ^ 2 + q.z ^ 2)) = 4 * q.z ^ 2 := by ring
    rw [hT, sqrt_four_sq, hsa]
    refine sameRotation_of_sign s hs ?_ ?_ ?_ ?_
    all_goals dsimp only
    · field_simp; linear_combination (-4 * q.x * q.z) * hss
    · field_simp; linear_combination (-4 * q.y * q.z) * hss
    · ring
    · rw [hw]; simp

theorem unit_of_sameRotation {p q : Quat ℝ} (h : SameRotation p q) (hq : UnitQ q) : UnitQ p := by
  rcases h with rfl | ⟨hx, hy, hz, hw⟩
  · exact hq
  · unfold UnitQ at *; rw [hx, hy, hz, hw, ← hq]; ring

theorem sameRotation_rotate {K : Type*} [CommRing K] {p q : Quat K} (h : SameRotation p q)
    (v : Vec K 3) : rotate p v = rotate q v := by
  rcases h with rfl | ⟨hx, hy, hz, hw⟩
  · rfl
  · ext i; fin_cases i <;> simp [rotate, hx, hy, hz, hw]

theorem sameRotation_toMatrix {K : Type*} [CommRing K] {p q : Quat K} (h : SameRotation p q) :
    toMatrix p = toMatrix q := by
  rcases h with rfl | ⟨hx, hy, hz, hw⟩
  · rfl
  · ext i j; fin_cases i <;> fin_cases j <;> simp [toMatrix, hx, hy, hz, hw]

end Quat

/-- **C04** Constructing a quaternion from the rotation matrix of any unit quaternion gives that
quaternion or its negation, in all four branches, rotations by 180 degrees included. -/
theorem C04_matrix_to_quaternion (q : Quat ℝ) (hq : UnitQ q) :
    SameRotation (ofMatrix (toMatrix q)) q := by
  have h := ofMatrixRaw_toMatrix q hq
  rw [ofMatrix, normalize_unit (unit_of_sameRotation h hq)]
  exact h

/-- **C04** Consequently the matrix of the reconstructed quaternion is the original matrix. -/
theorem C04_matrix_roundtrip (q : Quat ℝ) (hq : UnitQ q) :
    toMatrix (ofMatrix (toMatrix q)) = toMatrix q :=
  sameRotation_toMatrix (C04_matrix_to_quaternion q hq)

/-- **C09** A pose rebuilt from its own 4x4 matrix is the same motion: same translation, same or
opposite quaternion, and it moves every point identically. -/
theorem C09_pose_from_matrix (p : Pose ℝ) (hp : UnitQ p.rotation) :
    SameRotation (Pose.ofMatrix4 p.toMatrix4).rotation p.rotation ∧
    (Pose.ofMatrix4 p.toMatrix4).translation = p.translation ∧
    ∀ v, (Pose.ofMatrix4 p.toMatrix4).apply v = p.apply v := by
  have h3 : (!![p.toMatrix4 0 0, p.toMatrix4 0 1, p.toMatrix4 0 2;
      p.toMatrix4 1 0, p.toMatrix4 1 1, p.toMatrix4 1 2;
      p.toMatrix4 2 0, p.toMatrix4 2 1, p.toMatrix4 2 2] : Mat ℝ 3 3) = toMatrix p.rotation := by
    ext i j; fin_cases i <;> fin_cases j <;> simp [Pose.toMatrix4]
  have hr : SameRotation (Pose.ofMatrix4 p.toMatrix4).rotation p.rotation := by
    simp only [Pose.ofMatrix4, h3]; exact C04_matrix_to_quaternion _ hp
  have ht : (Pose.ofMatrix4 p.toMatrix4).translation = p.translation := by
    ext i; fin_cases i <;> simp [Pose.ofMatrix4, Pose.toMatrix4]
  refine ⟨hr, ht, fun v => ?_⟩
  simp only [Pose.apply, sameRotation_rotate hr, ht]

/-- Half-turn about an axis in general position: exercises the last branch (`w = 0`). -/
example : UnitQ (⟨2 / 7, 3 / 7, 6 / 7, 0⟩ : Quat ℝ) := by norm_num [UnitQ]
example : UnitQ (⟨1 / 2, -1 / 2, 1 / 2, -1 / 2⟩ : Quat ℝ) := by norm_num [UnitQ]

end Ubitrack
