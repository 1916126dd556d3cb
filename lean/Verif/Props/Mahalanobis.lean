import Verif.Props.ExpectationMaximization
import Mathlib.Analysis.InnerProductSpace.PiL2

/-!
# C67: the Mahalanobis distance
-/

namespace Ubitrack.Gaussian
open Spec
open scoped Matrix

/-- **C67** For a positive definite covariance `C` the distance of a point to the mean `m` is the root of `(x - m)ᵀ C⁻¹ (x - m)`. -/
theorem C67_value {N : ℕ} (g : Gaussian N) (hC : g.covariance.PosDef) (x : Vec ℝ N) :
    mahalanobis g x = some (Real.sqrt ((x - g.mean) ⬝ᵥ (g.covariance⁻¹ *ᵥ (x - g.mean)))) := by
  have h := hC.inv.posSemidef.dotProduct_mulVec_nonneg (x - g.mean)
  rw [star_trivial] at h
  simp only [mahalanobis, quadratic_eq]
  rw [if_neg hC.det_pos.ne', if_neg (not_lt.mpr h)]

/-- **C67** The distance is zero exactly at the mean. -/
theorem C67_zero {N : ℕ} (g : Gaussian N) (hC : g.covariance.PosDef) (x : Vec ℝ N) : mahalanobis g x = some 0 ↔ x = g.mean := by
  rw [C67_value g hC, Option.some_inj]
  constructor
  · intro h
    by_contra hne
    have hp := hC.inv.dotProduct_mulVec_pos (sub_ne_zero.mpr hne)
    rw [star_trivial] at hp
    exact (Real.sqrt_pos.mpr hp).ne' h
  · rintro rfl
    simp

/-- **C67** With the identity as covariance it is the Euclidean distance. -/
theorem C67_euclidean {N : ℕ} (g : Gaussian N) (hC : g.covariance = 1) (x : Vec ℝ N) :
    mahalanobis g x = some (dist (WithLp.toLp 2 x) (WithLp.toLp 2 g.mean)) := by
  rw [C67_value g (hC ▸ Matrix.PosDef.one), hC, inv_one, Matrix.one_mulVec, EuclideanSpace.dist_eq]
  simp [dotProduct, Real.dist_eq, sq_abs, pow_two]

/-- **C67** The distance does not depend on the coordinates: it is the same after an invertible affine map of the distribution and the
point. -/
theorem C67_affine {N : ℕ} (g g' : Gaussian N) (hC : g.covariance.PosDef) (A : Mat ℝ N N) (hA : A.det ≠ 0) (b x : Vec ℝ N)
    (hm : g'.mean = A *ᵥ g.mean + b) (hc : g'.covariance = A * g.covariance * Aᵀ) :
    mahalanobis g' (A *ᵥ x + b) = mahalanobis g x := by
  have hAu : IsUnit A := (Matrix.isUnit_iff_isUnit_det _).mpr (isUnit_iff_ne_zero.mpr hA)
  have hAd : IsUnit A.det := isUnit_iff_ne_zero.mpr hA
  have hC' : g'.covariance.PosDef := by
    rw [hc, ← Matrix.conjTranspose_eq_transpose_of_trivial]
    exact hC.mul_mul_conjTranspose_same (Matrix.vecMul_injective_of_isUnit hAu)
  rw [C67_value g hC, C67_value g' hC', hm, hc]
  have e : A *ᵥ x + b - (A *ᵥ g.mean + b) = A *ᵥ (x - g.mean) := by
    rw [Matrix.mulVec_sub]
    abel
  rw [e, Matrix.mul_inv_rev, Matrix.mul_inv_rev, Matrix.mulVec_mulVec, Matrix.mul_assoc, Matrix.mul_assoc, Matrix.nonsing_inv_mul A hAd, Matrix.mul_one,
    ← Matrix.mulVec_mulVec, ← Matrix.transpose_nonsing_inv, Matrix.dotProduct_mulVec, Matrix.vecMul_transpose, Matrix.mulVec_mulVec,
    Matrix.nonsing_inv_mul A hAd, Matrix.one_mulVec]

/-- **C67** A singular covariance throws. -/
theorem C67_singular {N : ℕ} (g : Gaussian N) (h : g.covariance.det = 0) (x : Vec ℝ N) : mahalanobis g x = none := by
  simp [mahalanobis, h]

open scoped MatrixOrder Matrix.Norms.L2Operator in
lemma exists_root {N : ℕ} (C : Mat ℝ N N) (hC : C.PosDef) : ∃ B : Mat ℝ N N, C⁻¹ = Bᵀ * B := by
  obtain ⟨B, hB⟩ := CStarAlgebra.nonneg_iff_eq_star_mul_self.mp hC.inv.posSemidef.nonneg
  exact ⟨B, by rw [hB, Matrix.star_eq_conjTranspose, Matrix.conjTranspose_eq_transpose_of_trivial]⟩

lemma quad_norm {N : ℕ} (B : Mat ℝ N N) (u : Vec ℝ N) : Real.sqrt (u ⬝ᵥ ((Bᵀ * B) *ᵥ u)) = ‖WithLp.toLp 2 (B *ᵥ u)‖ := by
  rw [← Matrix.mulVec_mulVec, Matrix.dotProduct_mulVec, Matrix.vecMul_transpose, EuclideanSpace.norm_eq]
  simp [dotProduct, pow_two]

/-- **C67** For a fixed covariance it is a metric: symmetric, and with the triangle inequality. -/
theorem C67_metric {N : ℕ} (g h : Gaussian N) (hC : g.covariance.PosDef) (hh : h.covariance = g.covariance) (x : Vec ℝ N) :
    ∃ dgh dhg dgx dhx : ℝ, mahalanobis g h.mean = some dgh ∧ mahalanobis h g.mean = some dhg ∧ mahalanobis g x = some dgx ∧
      mahalanobis h x = some dhx ∧ dgh = dhg ∧ dgx ≤ dgh + dhx := by
  obtain ⟨B, hB⟩ := exists_root _ hC
  have hC' : h.covariance.PosDef := hh ▸ hC
  refine ⟨_, _, _, _, C67_value g hC _, C67_value h hC' _, C67_value g hC _, C67_value h hC' _, ?_, ?_⟩
  · rw [hh, hB, quad_norm, quad_norm, ← neg_sub g.mean h.mean, Matrix.mulVec_neg, WithLp.toLp_neg, norm_neg]
  · rw [hh, hB, quad_norm, quad_norm, quad_norm]
    have e : B *ᵥ (x - g.mean) = B *ᵥ (h.mean - g.mean) + B *ᵥ (x - h.mean) := by
      rw [← Matrix.mulVec_add]
      congr 1
      abel
    rw [e, WithLp.toLp_add]
    exact norm_add_le _ _

example : (Matrix.of ![![4]] : Mat ℝ 1 1).PosDef ∧ ((Matrix.of ![![3]] : Mat ℝ 1 1)).det ≠ 0 ∧ (Matrix.of ![![1, 2], ![2, 4]] : Mat ℝ 2 2).det = 0 :=
  ⟨one_dim_posDef 4 (by norm_num), by simp, by simp [Matrix.det_fin_two]; norm_num⟩

example (g : Gaussian 1) (hc : g.covariance = Matrix.of ![![4]]) : (∃ g' : Gaussian 1, g'.covariance = Matrix.of ![![3]] * g.covariance * (Matrix.of ![![3]])ᵀ) ∧
    ∃ h : Gaussian 1, h.covariance = g.covariance ∧ h.mean ≠ g.mean :=
  ⟨⟨⟨0, _, 0, 0⟩, rfl⟩, ⟨⟨g.mean + 1, g.covariance, 0, 0⟩, rfl, by simp⟩⟩

end Ubitrack.Gaussian
