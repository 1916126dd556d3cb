import Verif.Model.Camera
import Verif.Proofs.Jacobian
import Mathlib.Tactic.FieldSimp
import Mathlib.Tactic.LinearCombination

/-!
# C30, C31, C51: camera projection, lens distortion and their Jacobians
-/

namespace Ubitrack.Camera

open Spec

variable {K : Type*} [Field K]

/-- **C30** Projecting to pixels and unprojecting are mutually inverse, for non-zero focal lengths. -/
theorem C30_inverse (cam : Mat K 3 3) (h0 : cam 0 0 ≠ 0) (h1 : cam 1 1 ≠ 0) :
    Function.LeftInverse (project cam) (unproject cam) ∧ Function.LeftInverse (unproject cam) (project cam) := by
  constructor
  · intro p
    ext i
    fin_cases i <;> simp [project, unproject] <;> field_simp <;> ring
  · intro p
    ext i
    fin_cases i <;> simp [project, unproject] <;> field_simp
    ring

/-- **C30** Projection is multiplication by the camera matrix followed by dehomogenisation, if the matrix is upper triangular
with 1 in the corner. With -1 in the corner (right-handed camera, looking along the negative z axis), it is the same for
the sensor point with z = -1. -/
theorem C30_project_matrix (cam : Mat K 3 3) (pt : Vec K 2) (h10 : cam 1 0 = 0) (h20 : cam 2 0 = 0) (h21 : cam 2 1 = 0)
    (h22 : cam 2 2 = 1 ∨ cam 2 2 = -1) :
    let h := cam.mulVec ![pt 0, pt 1, cam 2 2]
    h 2 ≠ 0 ∧ project cam pt = ![h 0 / h 2, h 1 / h 2] := by
  rcases h22 with h22 | h22
  · constructor
    · simp [Matrix.mulVec, dotProduct, Fin.sum_univ_succ, h20, h21, h22]
    · ext i
      fin_cases i <;> simp [project, Matrix.mulVec, dotProduct, Fin.sum_univ_succ, h10, h20, h21, h22] <;> ring
  · constructor
    · simp [Matrix.mulVec, dotProduct, Fin.sum_univ_succ, h20, h21, h22]
    · ext i
      fin_cases i <;> simp [project, Matrix.mulVec, dotProduct, Fin.sum_univ_succ, h10, h20, h21, h22] <;> ring

/-- **C30** With all distortion coefficients zero, distortion is the identity on pixels (both models). -/
theorem C30_zero_distortion (cam : CameraIntrinsics K) (h0 : cam.matrix 0 0 ≠ 0) (h1 : cam.matrix 1 1 ≠ 0)
    (hr : cam.radialParams = 0) (ht : cam.tangentialParams = 0) (p : Vec K 2) :
    distort cam p = p ∧ lensDistort p 0 cam.matrix = p := by
  have e6 : ∀ q : Vec K 2, distort6 0 0 q = q := by
    intro q; ext i; fin_cases i <;> simp [distort6]
  have e4 : ∀ q : Vec K 2, distort4 q 0 = q := by
    intro q; ext i; fin_cases i <;> simp [distort4]
  have hinv := (C30_inverse cam.matrix h0 h1).1 p
  constructor
  · unfold distort
    rw [hr, ht, e6, hinv]
  · unfold lensDistort
    simp only [e4]
    exact hinv

/-- **C30** The principal point is a fixed point of the distortion, for all coefficients and both models. -/
theorem C30_principal_point (cam : CameraIntrinsics K) (d : Vec K 4) :
    let c : Vec K 2 := ![cam.matrix 0 2 * cam.matrix 2 2, cam.matrix 1 2 * cam.matrix 2 2]
    distort cam c = c ∧ lensDistort c d cam.matrix = c := by
  intro c
  constructor
  · ext i; fin_cases i <;> simp [distort, unproject, distort6, project, c]
  · ext i; fin_cases i <;> simp [lensDistort, distort4, c]

/-- **C30** The four-parameter model is the special case of the eight-parameter model with the other coefficients zero. -/
theorem C30_models_agree (k1 k2 p1 p2 : K) (p : Vec K 2) :
    distort6 ![k1, k2, 0, 0, 0, 0] ![p1, p2] p = distort4 p ![k1, k2, p1, p2] := by
  ext i
  fin_cases i <;> simp [distort6, distort4] <;> ring

/-- Non-vacuity: a camera matrix with skew, and a right-handed one. -/
example : ∃ cam : Mat ℚ 3 3, cam 0 0 ≠ 0 ∧ cam 1 1 ≠ 0 ∧ cam 0 1 ≠ 0 ∧ cam 2 2 = -1 ∧ cam 1 0 = 0 ∧ cam 2 0 = 0 ∧ cam 2 1 = 0 :=
  ⟨!![500, 2, -320; 0, 510, -240; 0, 0, -1], by simp⟩

/-! ### Jacobians -/

/-- **C31** The Jacobian of the eight-parameter distortion with respect to the point, wherever the denominator is not zero. -/
theorem C31_distort6 (k : Vec ℝ 6) (t p : Vec ℝ 2)
    (hden : 1 + k 3 * (p 0 * p 0 + p 1 * p 1) + k 4 * (p 0 * p 0 + p 1 * p 1) ^ 2 + k 5 * (p 0 * p 0 + p 1 * p 1) ^ 3 ≠ 0) :
    IsJacobian (distort6 k t) p (distort6Jacobian k t p) := by
  have hden' : 1 + k 3 * (p 0 * p 0 + p 1 * p 1) + k 4 * ((p 0 * p 0 + p 1 * p 1) * (p 0 * p 0 + p 1 * p 1)) +
      k 5 * ((p 0 * p 0 + p 1 * p 1) * (p 0 * p 0 + p 1 * p 1) * (p 0 * p 0 + p 1 * p 1)) ≠ 0 := by
    intro h; apply hden; rw [← h]; ring
  apply isJacobian_of_partials
  · rw [differentiableAt_pi]
    intro i
    fin_cases i <;> simp [distort6] <;> fun_prop (disch := exact hden')
  · intro i j
    have hE : k 4 * ((p 0 * p 0 + p 1 * p 1) * (p 0 * p 0 + p 1 * p 1)) +
      k 5 * (p 0 * p 0 + p 1 * p 1) * ((p 0 * p 0 + p 1 * p 1) * (p 0 * p 0 + p 1 * p 1)) + k 3 * (p 0 * p 0 + p 1 * p 1) + 1 =
      1 + k 3 * (p 0 * p 0 + p 1 * p 1) + k 4 * ((p 0 * p 0 + p 1 * p 1) * (p 0 * p 0 + p 1 * p 1)) +
      k 5 * ((p 0 * p 0 + p 1 * p 1) * (p 0 * p 0 + p 1 * p 1) * (p 0 * p 0 + p 1 * p 1)) := by ring
    clear hden
    fin_cases i <;> fin_cases j <;> simp [distort6, distort6Jacobian] <;>
    · refine HasDerivAt.congr_deriv (by hasderiv; exact hden') ?_
      rw [hE]
      generalize 1 + k 3 * (p 0 * p 0 + p 1 * p 1) + k 4 * ((p 0 * p 0 + p 1 * p 1) * (p 0 * p 0 + p 1 * p 1)) +
        k 5 * ((p 0 * p 0 + p 1 * p 1) * (p 0 * p 0 + p 1 * p 1) * (p 0 * p 0 + p 1 * p 1)) = D at hden'
      field_simp
      ring

/-- **C31** The Jacobians of the four-parameter distortion with respect to the point and to the parameters. -/
theorem C31_distort4 (d : Vec ℝ 4) (p : Vec ℝ 2) :
    IsJacobian (fun p => distort4 p d) p (distort4JacobianP d p) ∧ IsJacobian (fun d => distort4 p d) d (distort4JacobianD p) := by
  constructor
  · apply isJacobian_of_partials
    · rw [differentiableAt_pi]
      intro i
      fin_cases i <;> simp [distort4] <;> fun_prop
    · intro i j
      fin_cases i <;> fin_cases j <;> simp [distort4, distort4JacobianP] <;>
      · refine HasDerivAt.congr_deriv (by hasderiv) ?_
        ring
  · apply isJacobian_of_partials
    · rw [differentiableAt_pi]
      intro i
      fin_cases i <;> simp [distort4] <;> fun_prop
    · intro i j
      fin_cases i <;> fin_cases j <;> simp [distort4, distort4JacobianD] <;>
      · refine HasDerivAt.congr_deriv (by hasderiv) ?_
        ring

/-- Non-vacuity: a point and coefficients with non-zero denominator coefficients. -/
example : ∃ (k : Vec ℝ 6) (p : Vec ℝ 2), k 3 ≠ 0 ∧ k 5 ≠ 0 ∧ p 0 ≠ 0 ∧
    1 + k 3 * (p 0 * p 0 + p 1 * p 1) + k 4 * (p 0 * p 0 + p 1 * p 1) ^ 2 + k 5 * (p 0 * p 0 + p 1 * p 1) ^ 3 ≠ 0 :=
  ⟨![1, 1, 1, 1, 1, 1], ![1, 2], by simp; norm_num⟩

/-! ### Projection with distortion -/

/-- **C51** Without distortion, the pixel of a point is its pinhole image: the product with the upper triangular
camera matrix, divided by the third coordinate. -/
theorem C51_pinhole (p : Vec K 3) (k : Mat K 3 3) (h2 : p 2 ≠ 0) (h22 : k 2 2 ≠ 0) (h10 : k 1 0 = 0)
    (h20 : k 2 0 = 0) (h21 : k 2 1 = 0) :
    projectWithDistortion p 0 k = ![k.mulVec p 0 / k.mulVec p 2, k.mulVec p 1 / k.mulVec p 2] := by
  ext i
  fin_cases i <;>
    simp [projectWithDistortion, distort4, Matrix.mulVec, dotProduct, Fin.sum_univ_three, h10, h20, h21] <;> field_simp

/-- Non-vacuity: a camera matrix with a corner that is neither 1 nor -1. -/
example : (!![3, 1, 2; 0, 4, 5; 0, 0, 2] : Mat ℚ 3 3) 2 2 ≠ 0 ∧ (!![3, 1, 2; 0, 4, 5; 0, 0, 2] : Mat ℚ 3 3) 2 1 = 0 := by
  simp

/-- **C51** Projecting a point with distortion is the same as projecting it without distortion and then distorting the
pixel, for camera matrices with 1 in the corner. -/
theorem C51_project_then_distort_partial (p : Vec K 3) (d : Vec K 4) (k : Mat K 3 3) (h0 : k 0 0 ≠ 0) (h1 : k 1 1 ≠ 0) (h22 : k 2 2 = 1) :
    projectWithDistortion p d k = lensDistort (projectWithDistortion p 0 k) d k := by
  have e : unproject k (projectWithDistortion p 0 k) = ![p 0 / p 2, p 1 / p 2] := by
    have : projectWithDistortion p 0 k = project k ![p 0 / p 2, p 1 / p 2] := by
      ext i; fin_cases i <;> simp [projectWithDistortion, distort4, project, h22]
    rw [this, (C30_inverse k h0 h1).2]
  have e' : lensDistort (projectWithDistortion p 0 k) d k = project k (distort4 (unproject k (projectWithDistortion p 0 k)) d) := rfl
  rw [e', e]
  ext i; fin_cases i <;> simp [projectWithDistortion, project, h22]

/-- **C51 (right-handed cameras, no tangential distortion)** With -1 in the corner, it still holds if the tangential
coefficients are zero. -/
theorem C51_righthanded_partial (p : Vec K 3) (d : Vec K 4) (k : Mat K 3 3) (h0 : k 0 0 ≠ 0) (h1 : k 1 1 ≠ 0) (h22 : k 2 2 = -1)
    (h2 : d 2 = 0) (h3 : d 3 = 0) :
    projectWithDistortion p d k = lensDistort (projectWithDistortion p 0 k) d k := by
  have e : unproject k (projectWithDistortion p 0 k) = ![-(p 0 / p 2), -(p 1 / p 2)] := by
    have : projectWithDistortion p 0 k = project k ![-(p 0 / p 2), -(p 1 / p 2)] := by
      ext i; fin_cases i <;> simp [projectWithDistortion, distort4, project, h22] <;> ring
    rw [this, (C30_inverse k h0 h1).2]
  have e' : lensDistort (projectWithDistortion p 0 k) d k = project k (distort4 (unproject k (projectWithDistortion p 0 k)) d) := rfl
  rw [e', e]
  ext i; fin_cases i <;> simp [projectWithDistortion, project, distort4, h22, h2, h3] <;> ring

/-- **C51 (refuted for right-handed cameras)** With -1 in the corner, the two ways of applying the same tangential
coefficients give different pixels: one distorts (x/z, y/z), the other (-x/z, -y/z). -/
theorem C51_righthanded_refuted :
    ∃ (p : Vec ℚ 3) (d : Vec ℚ 4) (k : Mat ℚ 3 3), k 0 0 ≠ 0 ∧ k 1 1 ≠ 0 ∧ k 2 2 = -1 ∧ p 2 ≠ 0 ∧
      projectWithDistortion p d k ≠ lensDistort (projectWithDistortion p 0 k) d k := by
  refine ⟨![1, 1, -2], ![0, 0, 1, 0], !![1, 0, 0; 0, 1, 0; 0, 0, -1], by simp, by simp, by simp, by simp, ?_⟩
  intro h
  have := congrFun h 0
  simp [projectWithDistortion, lensDistort, distort4] at this
  norm_num at this

/-- Non-vacuity. -/
example : ∃ (k : Mat ℚ 3 3) (d : Vec ℚ 4), k 0 0 ≠ 0 ∧ k 1 1 ≠ 0 ∧ k 2 2 = -1 ∧ d 2 = 0 ∧ d 3 = 0 ∧ d 0 ≠ 0 :=
  ⟨!![1, 0, 0; 0, 1, 0; 0, 0, -1], ![1, 2, 0, 0], by simp⟩

end Ubitrack.Camera
