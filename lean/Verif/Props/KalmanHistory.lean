import Verif.Props.Kalman
import Verif.Model.RotationHandEye

/-!
# Kalman updates in information form
-/

namespace Ubitrack.Stochastic
open Spec Matrix RotationHandEye

variable {k m n : ℕ}

lemma symm_of_posDef {M : Mat ℝ n n} (h : M.PosDef) : M.IsSymm := by
  have := h.isHermitian
  unfold Matrix.IsHermitian at this
  rwa [Matrix.conjTranspose_eq_transpose_of_trivial] at this

lemma readsRange_all {K : Type*} [CommRing K] (jac : Mat K m n) : (readsRange jac 0 : Mat K m n) = jac := by
  ext i j
  simp [readsRange]

/-- The gain and the new covariance in information form. -/
lemma information (P : Mat ℝ n n) (H : Mat ℝ m n) (R : Mat ℝ m m) (hP : P.PosDef) (hR : R.PosDef) :
    (P - gain P H R * H * P) * (P⁻¹ + Hᵀ * R⁻¹ * H) = 1 ∧ (P - gain P H R * H * P) * (Hᵀ * R⁻¹) = gain P H R := by
  have hPi : P * P⁻¹ = 1 := Matrix.mul_nonsing_inv _ ((Matrix.isUnit_iff_isUnit_det _).mp hP.isUnit)
  have hRi : R * R⁻¹ = 1 := Matrix.mul_nonsing_inv _ ((Matrix.isUnit_iff_isUnit_det _).mp hR.isUnit)
  have hS : (innovation P H R)⁻¹ * innovation P H R = 1 :=
    Matrix.nonsing_inv_mul _ (C29_invertible P H R hP.posSemidef hR)
  have hG : gain P H R * (H * P * Hᵀ) = P * Hᵀ - gain P H R * R := by
    have : gain P H R * innovation P H R = P * Hᵀ := by
      rw [gain, Matrix.mul_assoc, hS, Matrix.mul_one]
    rw [← this, innovation, Matrix.mul_add]
    abel
  have h2 : (P - gain P H R * H * P) * (Hᵀ * R⁻¹) = gain P H R := by
    calc (P - gain P H R * H * P) * (Hᵀ * R⁻¹) = P * Hᵀ * R⁻¹ - gain P H R * (H * P * Hᵀ) * R⁻¹ := by
          simp only [Matrix.sub_mul, Matrix.mul_assoc]
      _ = gain P H R * (R * R⁻¹) := by
          rw [hG, Matrix.sub_mul]
          simp only [Matrix.mul_assoc]
          abel
      _ = gain P H R := by rw [hRi, Matrix.mul_one]
  refine ⟨?_, h2⟩
  rw [Matrix.mul_add, ← Matrix.mul_assoc, h2, Matrix.sub_mul, Matrix.mul_assoc _ P, hPi, Matrix.mul_one]
  abel

/-- **C29** In information form: a measurement adds `Hᵀ R⁻¹ H` to the inverse covariance and `Hᵀ R⁻¹ (z - h(x) + H x)` to the
inverse covariance times the state. The new covariance is positive definite. -/
theorem C29_information (f : Functor ℝ m n) (state : ErrorVector ℝ n) (meas : ErrorVector ℝ m) (hP : state.covariance.PosDef)
    (hR : meas.covariance.PosDef) :
    let H := (f state.value).2
    let s := kalmanUpdate f state meas 0 (by omega)
    s.covariance.PosDef ∧ s.covariance⁻¹ = state.covariance⁻¹ + Hᵀ * meas.covariance⁻¹ * H ∧
      s.covariance⁻¹.mulVec s.value = state.covariance⁻¹.mulVec state.value +
        (Hᵀ * meas.covariance⁻¹).mulVec (meas.value - (f state.value).1 + H.mulVec state.value) := by
  intro H s
  have hinp : (fun i : Fin n => state.value ⟨0 + i, by omega⟩) = state.value := by
    funext i
    congr 1
    ext
    simp
  obtain ⟨h1, h2⟩ := C29_textbook f state meas 0 (by omega) (symm_of_posDef hP) (symm_of_posDef hR)
  simp only [hinp, readsRange_all] at h1 h2
  change s.value = _ at h1
  change s.covariance = _ at h2
  obtain ⟨e1, e2⟩ := information state.covariance H meas.covariance hP hR
  rw [← h2] at e1 e2
  have hinv : s.covariance⁻¹ = state.covariance⁻¹ + Hᵀ * meas.covariance⁻¹ * H := Matrix.inv_eq_right_inv e1
  have hpd : (state.covariance⁻¹ + Hᵀ * meas.covariance⁻¹ * H).PosDef := by
    refine hP.inv.add_posSemidef ?_
    have := hR.inv.posSemidef.conjTranspose_mul_mul_same H
    rwa [Matrix.conjTranspose_eq_transpose_of_trivial] at this
  have hpos : s.covariance.PosDef := by
    have h3 := hpd.inv
    rwa [Matrix.inv_eq_left_inv e1] at h3
  refine ⟨hpos, hinv, ?_⟩
  have hone : s.covariance⁻¹ * s.covariance = 1 := Matrix.nonsing_inv_mul _ ((Matrix.isUnit_iff_isUnit_det _).mp hpos.isUnit)
  have hgain : s.covariance⁻¹ * gain state.covariance H meas.covariance = Hᵀ * meas.covariance⁻¹ := by
    rw [← e2, ← Matrix.mul_assoc, hone, Matrix.one_mul]
  rw [h1, Matrix.mulVec_add, Matrix.mulVec_mulVec, hgain, hinv, Matrix.add_mulVec, Matrix.mulVec_add _ _ (H *ᵥ state.value), Matrix.mulVec_mulVec]
  abel

/-- A linear measurement `z = H x` with covariance `R`. -/
structure LinearMeasurement (m n : ℕ) where
  H : Mat ℝ m n
  z : Vec ℝ m
  R : Mat ℝ m m

/-- Updates with linear measurements, one after the other. -/
noncomputable def linearRun (state : ErrorVector ℝ n) (ms : List (LinearMeasurement m n)) : ErrorVector ℝ n :=
  ms.foldl (fun s a => kalmanUpdate (linearFunction a.H) s ⟨a.z, a.R⟩ 0 (by omega)) state

/-- The sum of the squared, weighted deviations of `x` from the start and from the measurements. -/
noncomputable def deviation (state : ErrorVector ℝ n) (ms : List (LinearMeasurement m n)) (x : Vec ℝ n) : ℝ :=
  (x - state.value) ⬝ᵥ state.covariance⁻¹ *ᵥ (x - state.value) +
    (ms.map fun a => (a.z - a.H *ᵥ x) ⬝ᵥ a.R⁻¹ *ᵥ (a.z - a.H *ᵥ x)).sum

lemma quadratic_add (M : Mat ℝ n n) (hM : M.IsSymm) (a b : Vec ℝ n) :
    (a + b) ⬝ᵥ M *ᵥ (a + b) = a ⬝ᵥ M *ᵥ a + 2 * (b ⬝ᵥ M *ᵥ a) + b ⬝ᵥ M *ᵥ b := by
  have : a ⬝ᵥ M *ᵥ b = b ⬝ᵥ M *ᵥ a := by
    rw [Matrix.dotProduct_mulVec, ← Matrix.mulVec_transpose, hM.eq, dotProduct_comm]
  rw [Matrix.mulVec_add, add_dotProduct, dotProduct_add, dotProduct_add, this]
  ring

lemma deviation_step (state : ErrorVector ℝ n) (a : LinearMeasurement m n) (hP : state.covariance.PosDef) (hR : a.R.PosDef) (x : Vec ℝ n) :
    let s := kalmanUpdate (linearFunction a.H) state ⟨a.z, a.R⟩ 0 (by omega)
    deviation state [a] x = deviation state [a] s.value + (x - s.value) ⬝ᵥ s.covariance⁻¹ *ᵥ (x - s.value) := by
  intro s
  obtain ⟨-, h2, h3⟩ := C29_information (linearFunction a.H) state ⟨a.z, a.R⟩ hP hR
  simp only [linearFunction, sub_add_cancel] at h2 h3
  change s.covariance⁻¹ = _ at h2
  change s.covariance⁻¹ *ᵥ s.value = _ at h3
  have hs1 := symm_of_posDef hP.inv
  have hs2 := symm_of_posDef hR.inv
  obtain ⟨d, rfl⟩ : ∃ d, x = s.value + d := ⟨x - s.value, by abel⟩
  have e1 : s.value + d - state.value = (s.value - state.value) + d := by abel
  have e2 : a.z - a.H *ᵥ (s.value + d) = (a.z - a.H *ᵥ s.value) + -(a.H *ᵥ d) := by
    rw [Matrix.mulVec_add]
    abel
  simp only [deviation, List.map_cons, List.map_nil, List.sum_cons, List.sum_nil, add_zero]
  rw [e1, e2, quadratic_add _ hs1, quadratic_add _ hs2, add_sub_cancel_left]
  have key : d ⬝ᵥ state.covariance⁻¹ *ᵥ (s.value - state.value) + (-(a.H *ᵥ d)) ⬝ᵥ a.R⁻¹ *ᵥ (a.z - a.H *ᵥ s.value) = 0 := by
    have h4 : (-(a.H *ᵥ d)) ⬝ᵥ a.R⁻¹ *ᵥ (a.z - a.H *ᵥ s.value) = d ⬝ᵥ (-((a.Hᵀ * a.R⁻¹) *ᵥ a.z) + (a.Hᵀ * a.R⁻¹ * a.H) *ᵥ s.value) := by
      rw [neg_dotProduct, ← Matrix.vecMul_transpose, ← Matrix.dotProduct_mulVec, Matrix.mulVec_mulVec, Matrix.mulVec_sub, Matrix.mulVec_mulVec,
        ← dotProduct_neg]
      congr 1
      abel
    rw [h4, ← dotProduct_add]
    have h5 : state.covariance⁻¹ *ᵥ (s.value - state.value) + (-((a.Hᵀ * a.R⁻¹) *ᵥ a.z) + (a.Hᵀ * a.R⁻¹ * a.H) *ᵥ s.value) = 0 := by
      rw [h2, Matrix.add_mulVec] at h3
      rw [Matrix.mulVec_sub]
      have : state.covariance⁻¹ *ᵥ s.value = state.covariance⁻¹ *ᵥ state.value + (a.Hᵀ * a.R⁻¹) *ᵥ a.z - (a.Hᵀ * a.R⁻¹ * a.H) *ᵥ s.value := by
        rw [← h3]
        abel
      rw [this]
      abel
    rw [h5, dotProduct_zero]
  have h6 : (-(a.H *ᵥ d)) ⬝ᵥ a.R⁻¹ *ᵥ (-(a.H *ᵥ d)) = d ⬝ᵥ (a.Hᵀ * a.R⁻¹ * a.H) *ᵥ d := by
    rw [Matrix.mulVec_neg, neg_dotProduct, dotProduct_neg, neg_neg]
    conv_lhs => rw [← Matrix.vecMul_transpose, ← Matrix.dotProduct_mulVec, Matrix.mulVec_mulVec, Matrix.vecMul_transpose, Matrix.mulVec_mulVec]
  rw [h6, h2, Matrix.add_mulVec, dotProduct_add]
  linarith

/-- **C29** Over any history of linear measurements the filter is the weighted least-squares estimate: the final state minimises the sum of the squared
deviations from the start and from all measurements; every other value has a larger sum, by the square of its deviation from the final state. -/
theorem C29_least_squares (ms : List (LinearMeasurement m n)) (hms : ∀ a ∈ ms, a.R.PosDef) (state : ErrorVector ℝ n) (hP : state.covariance.PosDef) :
    (linearRun state ms).covariance.PosDef ∧
    ((linearRun state ms).covariance)⁻¹ = state.covariance⁻¹ + (ms.map fun a => a.Hᵀ * a.R⁻¹ * a.H).sum ∧
    ∀ x, deviation state ms x = deviation state ms (linearRun state ms).value +
      (x - (linearRun state ms).value) ⬝ᵥ ((linearRun state ms).covariance)⁻¹ *ᵥ (x - (linearRun state ms).value) := by
  induction ms generalizing state with
  | nil =>
    refine ⟨hP, by simp [linearRun], fun x => ?_⟩
    simp [linearRun, deviation]
  | cons a ms ih =>
    have hR := hms a (by simp)
    obtain ⟨p1, p2, -⟩ := C29_information (linearFunction a.H) state ⟨a.z, a.R⟩ hP hR
    have hd := deviation_step state a hP hR
    simp only [linearFunction] at p1 p2
    have hrun : linearRun state (a :: ms) = linearRun (kalmanUpdate (linearFunction a.H) state ⟨a.z, a.R⟩ 0 (by omega)) ms := rfl
    obtain ⟨q1, q2, q3⟩ := ih (fun b hb => hms b (by simp [hb])) (kalmanUpdate (linearFunction a.H) state ⟨a.z, a.R⟩ 0 (by omega)) p1
    rw [hrun]
    refine ⟨q1, ?_, fun x => ?_⟩
    · rw [q2, List.map_cons, List.sum_cons, ← add_assoc]
      congr 1
    · have hsplit : ∀ y, deviation state (a :: ms) y =
          deviation state [a] (kalmanUpdate (linearFunction a.H) state ⟨a.z, a.R⟩ 0 (by omega)).value +
            deviation (kalmanUpdate (linearFunction a.H) state ⟨a.z, a.R⟩ 0 (by omega)) ms y := by
        intro y
        have e : deviation state (a :: ms) y = deviation state [a] y + (ms.map fun a => (a.z - a.H *ᵥ y) ⬝ᵥ a.R⁻¹ *ᵥ (a.z - a.H *ᵥ y)).sum := by
          simp only [deviation, List.map_cons, List.map_nil, List.sum_cons, List.sum_nil, add_zero]
          ring
        rw [e, hd y]
        simp only [deviation]
        ring
      rw [hsplit x, hsplit, q3 x]
      ring

/-- Non-vacuity: a scalar measured twice. -/
example : ((linearRun (⟨![0], 1⟩ : ErrorVector ℝ 1) [⟨1, ![1], 1⟩, ⟨1, ![1], 1⟩]).covariance⁻¹) 0 0 = 3 := by
  rw [(C29_least_squares [⟨1, ![1], 1⟩, ⟨1, ![1], 1⟩] (by simp [Matrix.PosDef.one]) ⟨![0], 1⟩ Matrix.PosDef.one).2.1]
  simp only [List.map_cons, List.map_nil, List.sum_cons, List.sum_nil, Matrix.transpose_one, inv_one, Matrix.mul_one, add_zero, Matrix.add_apply, Matrix.one_apply_eq]
  norm_num

end Ubitrack.Stochastic
