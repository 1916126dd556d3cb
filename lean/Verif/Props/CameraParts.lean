import Verif.Props.ProjectionMatrix
import Mathlib.LinearAlgebra.Matrix.NonsingularInverse

/-! # C59: the parts of a composed camera -/

namespace Ubitrack.ProjectionMatrix

open Spec Matrix

/-- Calibration matrices as `decomposeProjection` returns them. -/
def IsCalibration (k : Mat ℝ 3 3) : Prop :=
  k 1 0 = 0 ∧ k 2 0 = 0 ∧ k 2 1 = 0 ∧ 0 < k 0 0 ∧ k 1 1 ≠ 0 ∧ k 2 2 = -1

private theorem det_calibration {k : Mat ℝ 3 3} (h : IsCalibration k) : k.det = -(k 0 0 * k 1 1) := by
  obtain ⟨h10, h20, h21, -, -, h22⟩ := h
  rw [Matrix.det_fin_three, h10, h20, h21, h22]
  ring

/-- A rotation between two calibration matrices, up to sign, is diagonal. -/
private theorem between (k k' m : Mat ℝ 3 3) (hk : IsCalibration k) (hk' : IsCalibration k') (hm : IsRotation m) (ε : ℝ) (hε : ε = 1 ∨ ε = -1)
    (h : k' * m = ε • k) : m = !![ε, 0, 0; 0, 1, 0; 0, 0, ε] := by
  obtain ⟨h10, h20, h21, h00, h11, h22⟩ := hk
  obtain ⟨g10, g20, g21, g00, g11, g22⟩ := hk'
  have e : ∀ i j, (k' * m) i j = ε * k i j := by intro i j; rw [h]; rfl
  have hc : mᵀ * m = 1 := hm.1
  have hr : m * mᵀ = 1 := mul_eq_one_comm.mp hc
  have c : ∀ i j, m 0 i * m 0 j + m 1 i * m 1 j + m 2 i * m 2 j = (1 : Mat ℝ 3 3) i j := by
    intro i j; rw [← hc, Matrix.mul_apply, Fin.sum_univ_three]; rfl
  have r : ∀ i j, m i 0 * m j 0 + m i 1 * m j 1 + m i 2 * m j 2 = (1 : Mat ℝ 3 3) i j := by
    intro i j; rw [← hr, Matrix.mul_apply, Fin.sum_univ_three]; rfl
  have e' : ∀ i j, k' i 0 * m 0 j + k' i 1 * m 1 j + k' i 2 * m 2 j = ε * k i j := by
    intro i j; rw [← e, Matrix.mul_apply, Fin.sum_univ_three]
  have hεs : ε ^ 2 = 1 := by rcases hε with h | h <;> rw [h] <;> norm_num
  have m20 : m 2 0 = 0 := by have := e' 2 0; rw [g20, g21, g22, h20] at this; linarith
  have m21 : m 2 1 = 0 := by have := e' 2 1; rw [g20, g21, g22, h21] at this; linarith
  have m22 : m 2 2 = ε := by have := e' 2 2; rw [g20, g21, g22, h22] at this; linarith
  have c22 := c 2 2
  rw [m22, Matrix.one_apply_eq] at c22
  have m02 : m 0 2 = 0 := by nlinarith [sq_nonneg (m 0 2), sq_nonneg (m 1 2)]
  have m12 : m 1 2 = 0 := by nlinarith [sq_nonneg (m 0 2), sq_nonneg (m 1 2)]
  have m10 : m 1 0 = 0 := by
    have := e' 1 0
    rw [g10, m20, h10] at this
    have h2 : k' 1 1 * m 1 0 = 0 := by linarith
    exact (mul_eq_zero.mp h2).resolve_left g11
  have c00 := c 0 0
  rw [m10, m20, Matrix.one_apply_eq] at c00
  have m01 : m 0 1 = 0 := by
    have := r 0 0
    rw [m02, Matrix.one_apply_eq] at this
    nlinarith [sq_nonneg (m 0 1)]
  have m00 : m 0 0 = ε := by
    have := e' 0 0
    rw [m10, m20] at this
    have h1 : (m 0 0 - ε) * (m 0 0 + ε) = 0 := by nlinarith
    rcases mul_eq_zero.mp h1 with h1 | h1
    · linarith
    · exfalso
      have h3 : m 0 0 = -ε := by linarith
      rw [h3] at this
      have h4 : ε * (k' 0 0 + k 0 0) = 0 := by linarith
      rcases mul_eq_zero.mp h4 with h4 | h4
      · rw [h4] at hεs; norm_num at hεs
      · linarith
  have m11 : m 1 1 = 1 := by
    have hd := hm.2
    rw [Matrix.det_fin_three, m00, m01, m02, m10, m12, m20, m21, m22] at hd
    nlinarith
  ext i j
  fin_cases i <;> fin_cases j <;> simp [m00, m01, m02, m10, m11, m12, m20, m21, m22]

private theorem parts (rq : Mat ℝ 3 3 → Mat ℝ 3 3 × Mat ℝ 3 3) (hrq : ∀ a, a.det ≠ 0 → IsRQ a (rq a)) (c : ℝ) (hc : c ≠ 0)
    (d0 : Decomposition) (hk : IsCalibration d0.k) (hr : IsRotation d0.r) (ε : ℝ) (hε : ε = 1 ∨ ε = -1)
    (hs : (if (c • compose d0) 2 3 < 0 then -1 else 1) * c = ε * |c|) :
    let d := decompose rq (c • compose d0)
    d.r = !![ε, 0, 0; 0, 1, 0; 0, 0, ε] * d0.r ∧ d.k * !![ε, 0, 0; 0, 1, 0; 0, 0, ε] = ε • d0.k ∧ d.k *ᵥ d.t = (ε * |c|) • d0.k *ᵥ d0.t := by
  intro d
  have hl : left3 (c • compose d0) = c • (d0.k * d0.r) := by
    ext i j
    simp [left3, compose]
  have hkdet : d0.k.det ≠ 0 := by
    rw [det_calibration hk]
    exact neg_ne_zero.mpr (mul_ne_zero hk.2.2.2.1.ne' hk.2.2.2.2.1)
  have hdet : (left3 (c • compose d0)).det ≠ 0 := by
    rw [hl, Matrix.det_smul, Matrix.det_mul, hr.2, mul_one]
    exact mul_ne_zero (pow_ne_zero _ hc) hkdet
  have hr' : d0.r * d0.rᵀ = 1 := mul_eq_one_comm.mp hr.1
  have hview : viewLength (c • compose d0) = |c| := by
    have e : ∀ j : Fin 3, (c • compose d0) 2 (Fin.castSucc j) = -c * d0.r 2 j := by
      intro j
      have := congrFun (congrFun hl 2) j
      refine Eq.trans this ?_
      rw [Matrix.smul_apply, Matrix.mul_apply, Fin.sum_univ_three, hk.2.1, hk.2.2.1, hk.2.2.2.2.2, smul_eq_mul]
      ring
    have e0 := e 0
    have e1 := e 1
    have e2 := e 2
    have n : d0.r 2 0 * d0.r 2 0 + d0.r 2 1 * d0.r 2 1 + d0.r 2 2 * d0.r 2 2 = 1 := by
      have := congrFun (congrFun hr' 2) 2
      rw [Matrix.mul_apply, Fin.sum_univ_three, Matrix.one_apply_eq] at this
      exact this
    change (c • compose d0) 2 0 = _ at e0
    change (c • compose d0) 2 1 = _ at e1
    change (c • compose d0) 2 2 = _ at e2
    rw [viewLength, e0, e1, e2, show (-c * d0.r 2 0) ^ 2 + (-c * d0.r 2 1) ^ 2 + (-c * d0.r 2 2) ^ 2 = c ^ 2 by linear_combination c ^ 2 * n,
      Real.sqrt_sq_eq_abs]
  have hac : |c| ≠ 0 := abs_ne_zero.mpr hc
  obtain ⟨⟨d10, d20, d21, d00, d22⟩, dr, dkr, dt⟩ := C59_decompose_partial rq hrq _ hdet _ rfl
  rw [hview, hl, smul_smul] at dkr
  have hcoef : (if (c • compose d0) 2 3 < 0 then (-1 : ℝ) else 1) / |c| * c = ε := by
    rw [div_mul_eq_mul_div, hs, mul_div_cancel_right₀ _ hac]
  rw [hcoef] at dkr
  change d.k * d.r = ε • (d0.k * d0.r) at dkr
  have hεne : ε ≠ 0 := by rcases hε with h | h <;> rw [h] <;> norm_num
  have hdk : IsCalibration d.k := by
    refine ⟨d10, d20, d21, d00, fun h11 => ?_, d22⟩
    have h1 : d.k.det = 0 := by
      rw [Matrix.det_fin_three]
      change d.k 1 0 = 0 at d10
      change d.k 2 0 = 0 at d20
      change d.k 2 1 = 0 at d21
      rw [d10, d20, d21, h11]
      ring
    have h2 := congrArg Matrix.det dkr
    rw [Matrix.det_mul, h1, zero_mul, Matrix.det_smul, Matrix.det_mul, hr.2, mul_one] at h2
    exact mul_ne_zero (pow_ne_zero _ hεne) hkdet h2.symm
  have hQ : IsRotation (d.r * d0.rᵀ) := by
    constructor
    · rw [Matrix.transpose_mul, Matrix.transpose_transpose, Matrix.mul_assoc, ← Matrix.mul_assoc _ d.r, dr.1, Matrix.one_mul, hr']
    · rw [Matrix.det_mul, Matrix.det_transpose, hr.2, dr.2, one_mul]
  have hkQ : d.k * (d.r * d0.rᵀ) = ε • d0.k := by
    rw [← Matrix.mul_assoc, dkr, Matrix.smul_mul, Matrix.mul_assoc, hr', Matrix.mul_one]
  have hD := between _ _ _ hk hdk hQ ε hε hkQ
  refine ⟨?_, by rw [← hD]; exact hkQ, ?_⟩
  · rw [← hD, Matrix.mul_assoc, hr.1, Matrix.mul_one]
  · refine dt.trans ?_
    funext i
    have e : (c • compose d0) i 3 = c * (d0.k *ᵥ d0.t) i := by
      change c * compose d0 i (Fin.last 3) = _
      rw [compose, Fin.snoc_last]
    rw [e, ← mul_assoc, hs]
    rfl

/-- **C59** Decomposing any multiple of a camera matrix `k [r | t]` in front of which the origin lies gives the calibration matrix and the
rotation back, and the translation multiplied by the size of the factor (missing: the translation does not depend on the factor, and the
parts are found also when the origin is behind the camera; both are refuted). -/
theorem C59_recovered_partial (rq : Mat ℝ 3 3 → Mat ℝ 3 3 × Mat ℝ 3 3) (hrq : ∀ a, a.det ≠ 0 → IsRQ a (rq a)) (c : ℝ) (hc : c ≠ 0)
    (d0 : Decomposition) (hk : IsCalibration d0.k) (hr : IsRotation d0.r) (ht : d0.t 2 < 0) :
    let d := decompose rq (c • compose d0)
    d.k = d0.k ∧ d.r = d0.r ∧ d.t = |c| • d0.t := by
  intro d
  have e : (c • compose d0) 2 3 = -(c * d0.t 2) := by
    change c * compose d0 2 (Fin.last 3) = _
    rw [compose, Fin.snoc_last, Matrix.mulVec, dotProduct, Fin.sum_univ_three, hk.2.1, hk.2.2.1, hk.2.2.2.2.2]
    ring
  have hs : (if (c • compose d0) 2 3 < 0 then (-1 : ℝ) else 1) * c = 1 * |c| := by
    rw [e]
    rcases lt_or_gt_of_ne hc with h | h
    · rw [if_pos (by nlinarith), abs_of_neg h]; ring
    · rw [if_neg (by nlinarith), abs_of_pos h]
  obtain ⟨h1, h2, h3⟩ := parts rq hrq c hc d0 hk hr 1 (Or.inl rfl) hs
  have hone : (!![1, 0, 0; 0, 1, 0; 0, 0, 1] : Mat ℝ 3 3) = 1 := by
    ext i j; fin_cases i <;> fin_cases j <;> rfl
  rw [hone, Matrix.one_mul] at h1
  rw [hone, Matrix.mul_one, one_smul] at h2
  refine ⟨h2, h1, ?_⟩
  have hu : IsUnit d0.k.det := by
    rw [det_calibration hk]
    exact (neg_ne_zero.mpr (mul_ne_zero hk.2.2.2.1.ne' hk.2.2.2.2.1)).isUnit
  rw [one_mul] at h3
  change d.k *ᵥ d.t = |c| • d0.k *ᵥ d0.t at h3
  rw [show d.k = d0.k from h2, ← Matrix.mulVec_smul] at h3
  have := congrArg (fun v => d0.k⁻¹ *ᵥ v) h3
  simpa only [Matrix.mulVec_mulVec, Matrix.nonsing_inv_mul _ hu, Matrix.one_mulVec] using this

/-- **C59** (refuted when the origin is behind the camera) The parts of such a camera matrix are never found: the second element on the
diagonal of the calibration matrix comes back with the opposite sign, and the rotation with two rows negated. -/
theorem C59_behind_refuted (rq : Mat ℝ 3 3 → Mat ℝ 3 3 × Mat ℝ 3 3) (hrq : ∀ a, a.det ≠ 0 → IsRQ a (rq a)) (c : ℝ) (hc : c ≠ 0)
    (d0 : Decomposition) (hk : IsCalibration d0.k) (hr : IsRotation d0.r) (ht : 0 < d0.t 2) :
    let d := decompose rq (c • compose d0)
    d.k 1 1 = -d0.k 1 1 ∧ d.k ≠ d0.k ∧ (∀ j, d.r 2 j = -d0.r 2 j) ∧ d.r ≠ d0.r := by
  intro d
  have e : (c • compose d0) 2 3 = -(c * d0.t 2) := by
    change c * compose d0 2 (Fin.last 3) = _
    rw [compose, Fin.snoc_last, Matrix.mulVec, dotProduct, Fin.sum_univ_three, hk.2.1, hk.2.2.1, hk.2.2.2.2.2]
    ring
  have hs : (if (c • compose d0) 2 3 < 0 then (-1 : ℝ) else 1) * c = -1 * |c| := by
    rw [e]
    rcases lt_or_gt_of_ne hc with h | h
    · rw [if_neg (by nlinarith), abs_of_neg h]; ring
    · rw [if_pos (by nlinarith), abs_of_pos h]
  obtain ⟨h1, h2, -⟩ := parts rq hrq c hc d0 hk hr (-1) (Or.inr rfl) hs
  change d.r = _ at h1
  change d.k * _ = _ at h2
  have k11 : d.k 1 1 = -d0.k 1 1 := by
    have := congrFun (congrFun h2 1) 1
    rw [Matrix.mul_apply, Fin.sum_univ_three] at this
    simpa using this
  have r2 : ∀ j, d.r 2 j = -d0.r 2 j := by
    intro j
    rw [h1, Matrix.mul_apply, Fin.sum_univ_three]
    simp
  refine ⟨k11, fun h => ?_, r2, fun h => ?_⟩
  · rw [h] at k11
    exact hk.2.2.2.2.1 (by linarith)
  · have n : d0.r 2 0 * d0.r 2 0 + d0.r 2 1 * d0.r 2 1 + d0.r 2 2 * d0.r 2 2 = 1 := by
      have := congrFun (congrFun (mul_eq_one_comm.mp hr.1 : d0.r * d0.rᵀ = 1) 2) 2
      rw [Matrix.mul_apply, Fin.sum_univ_three, Matrix.one_apply_eq] at this
      exact this
    rw [h] at r2
    have z : ∀ j, d0.r 2 j = 0 := fun j => by linarith [r2 j]
    rw [z, z, z] at n
    norm_num at n

/-- A camera with focal length 500, and the decomposition LAPACK computes exists. -/
example : (∃ rq : Mat ℝ 3 3 → Mat ℝ 3 3 × Mat ℝ 3 3, ∀ a, a.det ≠ 0 → IsRQ a (rq a)) ∧
    IsCalibration !![500, 0, -320; 0, 500, -240; 0, 0, -1] ∧ IsRotation !![0, -1, 0; 1, 0, 0; 0, 0, 1] := by
  refine ⟨exists_rq, ⟨by simp, by simp, by simp, by simp, by simp, by simp⟩, ?_, ?_⟩
  · ext i j; fin_cases i <;> fin_cases j <;> simp [Matrix.mul_apply, Fin.sum_univ_three]
  · simp [Matrix.det_fin_three]

end Ubitrack.ProjectionMatrix
