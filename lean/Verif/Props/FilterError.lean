import Verif.Props.PoseFilter

/-! # C45: the error of predicted orientations -/

namespace Ubitrack.Tracking
open Spec Quat RotationFilter

private theorem exp_close (p : Quaternion ℝ) (hp : p.re = 0) : ‖(1 : Quaternion ℝ) - NormedSpace.exp p‖ ≤ ‖p‖ := by
  have hn : ‖NormedSpace.exp p‖ = 1 := by rw [Quaternion.norm_exp, hp]; simp
  have hre : (NormedSpace.exp p).re = Real.cos ‖p‖ := by
    rw [Quaternion.exp_of_re_eq_zero _ hp]; simp [hp]
  have h1 : Quaternion.normSq (NormedSpace.exp p) = 1 := by
    rw [Quaternion.normSq_eq_norm_mul_self, hn, one_mul]
  have h2 : ‖(1 : Quaternion ℝ) - NormedSpace.exp p‖ ^ 2 = 2 - 2 * Real.cos ‖p‖ := by
    rw [sq, ← Quaternion.normSq_eq_norm_mul_self, Quaternion.normSq_def', ← hre]
    rw [Quaternion.normSq_def'] at h1
    simp only [Quaternion.re_sub, Quaternion.imI_sub, Quaternion.imJ_sub, Quaternion.imK_sub, Quaternion.re_one,
      Quaternion.imI_one, Quaternion.imJ_one, Quaternion.imK_one]
    linarith
  have h3 := Real.one_sub_sq_div_two_le_cos (x := ‖p‖)
  exact le_of_sq_le_sq (by rw [h2]; linarith) (norm_nonneg _)

/-- **C45** The orientation predicted for any later time differs from the one turned with the constant angular velocity by a
distance of at most 5e-13, however slow the turn is. -/
theorem C45_predict_error (f : RotationFilter) (h : UnitQ f.quat) (t : BitVec 64) (ht : f.time.toNat ≤ t.toNat) :
    ‖toH (f.predict t) - turnedBy f.quat f.velocity (((t.toNat : ℤ) - f.time.toNat : ℤ) * 1e-9)‖ ≤ 5e-13 := by
  set s : ℝ := (((t.toNat : ℤ) - f.time.toNat : ℤ) * 1e-9 : ℝ) with hs
  by_cases hbig : 1e-12 < ‖s • (Spec.pure f.velocity : Quaternion ℝ)‖
  · rw [C45_predict_later f h t ht hbig, sub_self, norm_zero]
    norm_num
  have hi : integrate f.velocity s = ⟨0, 0, 0, 1⟩ := by
    rw [smul_pure, norm_pure] at hbig
    unfold integrate fromLogarithm
    simp only
    rw [if_neg]
    rwa [show (fun i => f.velocity i * s) = fun i => s * f.velocity i by funext i; ring]
  rw [predict_eq f h, C45_rotation_filter_partial t f.time ht, ← hs, hi, toH_mul]
  have h1 : toH (⟨0, 0, 0, 1⟩ : Quat ℝ) = 1 := rfl
  have hu : ‖toH f.quat‖ = 1 := by
    have h2 : ‖toH f.quat‖ ^ 2 = 1 := by
      rw [sq, ← Quaternion.normSq_eq_norm_mul_self, Quaternion.normSq_def']
      simp only [toH_re, toH_imI, toH_imJ, toH_imK]
      unfold UnitQ at h
      linarith
    nlinarith [norm_nonneg (toH f.quat)]
  unfold turnedBy
  rw [h1, ← mul_sub, norm_mul, hu, one_mul]
  refine le_trans (exp_close _ (by simp)) ?_
  have e2 : (s / 2) • (pure f.velocity : Quaternion ℝ) = (1 / 2 : ℝ) • s • pure f.velocity := by rw [smul_smul]; congr 1; ring
  rw [e2, norm_smul, Real.norm_eq_abs, abs_of_pos (by norm_num : (0 : ℝ) < 1 / 2)]
  push Not at hbig
  norm_num at hbig ⊢
  linarith

/-- A filter with an orientation that is not the identity, and a later time. -/
example : UnitQ (RotationFilter.quat ⟨⟨![0, 3/5, 0, 4/5, 0, 0, 1], 1⟩, 5#64⟩) ∧
    (RotationFilter.time ⟨⟨![0, 3/5, 0, 4/5, 0, 0, 1], 1⟩, 5#64⟩).toNat ≤ (7#64 : BitVec 64).toNat := by
  refine ⟨?_, by decide⟩
  simp [UnitQ, RotationFilter.quat, Quat.fromVector, Stochastic.sub]; norm_num

end Ubitrack.Tracking
