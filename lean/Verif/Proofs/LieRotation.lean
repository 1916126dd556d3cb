import Verif.Model.RotationFunction
import Verif.Proofs.Jacobian
import Mathlib.Analysis.SpecialFunctions.Sqrt
import Mathlib.Analysis.SpecialFunctions.Trigonometric.Deriv
import Mathlib.Tactic.FieldSimp
import Mathlib.Tactic.LinearCombination

/-!
# The Jacobian of the exponential map rotation
-/

namespace Ubitrack.RotationFunction

open Spec

/-- squared length of a 3-vector -/
def nsq (y : Vec ℝ 3) : ℝ := y 0 * y 0 + y 1 * y 1 + y 2 * y 2

/-- `cos|y|` -/
noncomputable def fC (y : Vec ℝ 3) : ℝ := Real.cos (Real.sqrt (nsq y))
/-- `sin|y| / |y|` -/
noncomputable def fA (y : Vec ℝ 3) : ℝ := Real.sin (Real.sqrt (nsq y)) / Real.sqrt (nsq y)
/-- `(1-cos|y|) / |y|²` -/
noncomputable def fB (y : Vec ℝ 3) : ℝ := (1 - Real.cos (Real.sqrt (nsq y))) / nsq y

/-- `cos|y| v + (1-cos|y|)/|y|² y (y·v) + sin|y|/|y| y×v` -/
noncomputable def rod (v y : Vec ℝ 3) : Vec ℝ 3 :=
  ![fC y * v 0 + fB y * (y 0 * (y 0 * v 0 + y 1 * v 1 + y 2 * v 2)) + fA y * (y 1 * v 2 - y 2 * v 1),
    fC y * v 1 + fB y * (y 1 * (y 0 * v 0 + y 1 * v 1 + y 2 * v 2)) + fA y * (y 2 * v 0 - y 0 * v 2),
    fC y * v 2 + fB y * (y 2 * (y 0 * v 0 + y 1 * v 1 + y 2 * v 2)) + fA y * (y 0 * v 1 - y 1 * v 0)]

theorem nsq_nonneg (y : Vec ℝ 3) : 0 ≤ nsq y := by unfold nsq; nlinarith [sq_nonneg (y 0), sq_nonneg (y 1), sq_nonneg (y 2)]

theorem hasDeriv_nsq (y : Vec ℝ 3) (j : Fin 3) :
    HasDerivAt (fun s : ℝ => nsq (Function.update y j s)) (2 * y j) (y j) := by
  fin_cases j <;> simp [nsq] <;>
  · refine HasDerivAt.congr_deriv (by hasderiv) ?_
    ring

theorem hasDeriv_sqrt (y : Vec ℝ 3) (hy : nsq y ≠ 0) (j : Fin 3) :
    HasDerivAt (fun s : ℝ => Real.sqrt (nsq (Function.update y j s))) (y j / Real.sqrt (nsq y)) (y j) := by
  have h := (hasDeriv_nsq y j).sqrt (by simpa using hy)
  refine h.congr_deriv ?_
  simp only [Function.update_eq_self]
  have : Real.sqrt (nsq y) ≠ 0 := by rw [Real.sqrt_ne_zero (nsq_nonneg y)]; exact hy
  field_simp

theorem hasDeriv_C (y : Vec ℝ 3) (hy : nsq y ≠ 0) (j : Fin 3) :
    HasDerivAt (fun s : ℝ => fC (Function.update y j s))
      (-(Real.sin (Real.sqrt (nsq y)) * Real.sqrt (nsq y) * y j / nsq y)) (y j) := by
  have h := (hasDeriv_sqrt y hy j).cos
  refine h.congr_deriv ?_
  simp only [Function.update_eq_self]
  have h0 : Real.sqrt (nsq y) ≠ 0 := by rw [Real.sqrt_ne_zero (nsq_nonneg y)]; exact hy
  have h2 := Real.mul_self_sqrt (nsq_nonneg y)
  field_simp
  linear_combination Real.sin (Real.sqrt (nsq y)) * y j * h2

theorem hasDeriv_A (y : Vec ℝ 3) (hy : nsq y ≠ 0) (j : Fin 3) :
    HasDerivAt (fun s : ℝ => fA (Function.update y j s))
      (y j * (Real.cos (Real.sqrt (nsq y)) / nsq y - Real.sin (Real.sqrt (nsq y)) * Real.sqrt (nsq y) / (nsq y * nsq y))) (y j) := by
  have h0 : Real.sqrt (nsq y) ≠ 0 := by rw [Real.sqrt_ne_zero (nsq_nonneg y)]; exact hy
  have h := (hasDeriv_sqrt y hy j).sin.div (hasDeriv_sqrt y hy j) (by simpa using h0)
  refine h.congr_deriv ?_
  simp only [Function.update_eq_self]
  have h2 := Real.mul_self_sqrt (nsq_nonneg y)
  generalize Real.sqrt (nsq y) = r at *
  rw [← h2]
  field_simp

theorem hasDeriv_B (y : Vec ℝ 3) (hy : nsq y ≠ 0) (j : Fin 3) :
    HasDerivAt (fun s : ℝ => fB (Function.update y j s))
      (y j * (Real.sin (Real.sqrt (nsq y)) * Real.sqrt (nsq y) / (nsq y * nsq y)
        - 2 * (1 - Real.cos (Real.sqrt (nsq y))) / (nsq y * nsq y))) (y j) := by
  have h0 : Real.sqrt (nsq y) ≠ 0 := by rw [Real.sqrt_ne_zero (nsq_nonneg y)]; exact hy
  have h := ((hasDeriv_sqrt y hy j).cos.const_sub 1).div (hasDeriv_nsq y j) (by simpa using hy)
  refine h.congr_deriv ?_
  simp only [Function.update_eq_self]
  have h2 := Real.mul_self_sqrt (nsq_nonneg y)
  generalize Real.sqrt (nsq y) = r at *
  rw [← h2]
  field_simp

theorem coeff_differentiable (y : Vec ℝ 3) (hy : nsq y ≠ 0) :
    DifferentiableAt ℝ fA y ∧ DifferentiableAt ℝ fB y ∧ DifferentiableAt ℝ fC y := by
  have hn : DifferentiableAt ℝ nsq y := by unfold nsq; fun_prop
  have hr : DifferentiableAt ℝ (fun y => Real.sqrt (nsq y)) y := hn.sqrt hy
  have h0 : Real.sqrt (nsq y) ≠ 0 := by rw [Real.sqrt_ne_zero (nsq_nonneg y)]; exact hy
  have hC : DifferentiableAt ℝ fC y := hr.cos
  have hA : DifferentiableAt ℝ fA y := by unfold fA; simp only [div_eq_mul_inv]; exact hr.sin.mul (hr.inv h0)
  have hB : DifferentiableAt ℝ fB y := by unfold fB; simp only [div_eq_mul_inv]; exact ((hr.cos).const_sub 1).mul (hn.inv hy)
  exact ⟨hA, hB, hC⟩

theorem rod_differentiable (v y : Vec ℝ 3) (hy : nsq y ≠ 0) : DifferentiableAt ℝ (rod v) y := by
  obtain ⟨hA, hB, hC⟩ := coeff_differentiable y hy
  rw [differentiableAt_pi]
  intro i
  fin_cases i <;> simp [rod] <;> fun_prop

set_option maxHeartbeats 4000000 in
theorem rod_jacobian (v y : Vec ℝ 3) (hy : nsq y ≠ 0) : IsJacobian (rod v) y (lieRotationJacobianLarge v y) := by
  apply isJacobian_of_partials (rod_differentiable v y hy)
  intro i j
  have hC := hasDeriv_C y hy j
  have hA := hasDeriv_A y hy j
  have hB := hasDeriv_B y hy j
  have eA : fA y = Real.sin (Real.sqrt (nsq y)) * Real.sqrt (nsq y) / nsq y := by
    have h0 : Real.sqrt (nsq y) ≠ 0 := by rw [Real.sqrt_ne_zero (nsq_nonneg y)]; exact hy
    have h2 := Real.mul_self_sqrt (nsq_nonneg y)
    unfold fA
    generalize Real.sqrt (nsq y) = r at *
    rw [← h2]
    field_simp
  have hi : y 0 * y 0 + y 1 * y 1 + y 2 * y 2 ≠ 0 := hy
  fin_cases i
  · have hP : HasDerivAt (fun s : ℝ => (Function.update y j s) 0 * ((Function.update y j s) 0 * v 0 + (Function.update y j s) 1 * v 1 + (Function.update y j s) 2 * v 2))
      ((if j = 0 then 1 else 0) * (y 0 * v 0 + y 1 * v 1 + y 2 * v 2) + y 0 * v j) (y j) := by
      fin_cases j <;> simp <;>
      · refine HasDerivAt.congr_deriv (by hasderiv) ?_
        ring
    have hQ : HasDerivAt (fun s : ℝ => (Function.update y j s) 1 * v 2 - (Function.update y j s) 2 * v 1)
      ((if j = 1 then 1 else 0) * v 2 - (if j = 2 then 1 else 0) * v 1) (y j) := by
      fin_cases j <;> simp <;>
      · refine HasDerivAt.congr_deriv (by hasderiv) ?_
        ring
    refine (((hC.mul_const (v 0)).add (hB.mul hP)).add (hA.mul hQ)).congr_deriv ?_
    simp only [Function.update_eq_self, eA, fB]
    unfold nsq
    fin_cases j <;> simp [lieRotationJacobianLarge] <;>
    · generalize Real.sin (Real.sqrt (y 0 * y 0 + y 1 * y 1 + y 2 * y 2)) = S
      generalize Real.cos (Real.sqrt (y 0 * y 0 + y 1 * y 1 + y 2 * y 2)) = C
      generalize Real.sqrt (y 0 * y 0 + y 1 * y 1 + y 2 * y 2) = r
      field_simp
      ring
  · have hP : HasDerivAt (fun s : ℝ => (Function.update y j s) 1 * ((Function.update y j s) 0 * v 0 + (Function.update y j s) 1 * v 1 + (Function.update y j s) 2 * v 2))
      ((if j = 1 then 1 else 0) * (y 0 * v 0 + y 1 * v 1 + y 2 * v 2) + y 1 * v j) (y j) := by
      fin_cases j <;> simp <;>
      · refine HasDerivAt.congr_deriv (by hasderiv) ?_
        ring
    have hQ : HasDerivAt (fun s : ℝ => (Function.update y j s) 2 * v 0 - (Function.update y j s) 0 * v 2)
      ((if j = 2 then 1 else 0) * v 0 - (if j = 0 then 1 else 0) * v 2) (y j) := by
      fin_cases j <;> simp <;>
      · refine HasDerivAt.congr_deriv (by hasderiv) ?_
        ring
    refine (((hC.mul_const (v 1)).add (hB.mul hP)).add (hA.mul hQ)).congr_deriv ?_
    simp only [Function.update_eq_self, eA, fB]
    unfold nsq
    fin_cases j <;> simp [lieRotationJacobianLarge] <;>
    · generalize Real.sin (Real.sqrt (y 0 * y 0 + y 1 * y 1 + y 2 * y 2)) = S
      generalize Real.cos (Real.sqrt (y 0 * y 0 + y 1 * y 1 + y 2 * y 2)) = C
      generalize Real.sqrt (y 0 * y 0 + y 1 * y 1 + y 2 * y 2) = r
      field_simp
      ring
  · have hP : HasDerivAt (fun s : ℝ => (Function.update y j s) 2 * ((Function.update y j s) 0 * v 0 + (Function.update y j s) 1 * v 1 + (Function.update y j s) 2 * v 2))
      ((if j = 2 then 1 else 0) * (y 0 * v 0 + y 1 * v 1 + y 2 * v 2) + y 2 * v j) (y j) := by
      fin_cases j <;> simp <;>
      · refine HasDerivAt.congr_deriv (by hasderiv) ?_
        ring
    have hQ : HasDerivAt (fun s : ℝ => (Function.update y j s) 0 * v 1 - (Function.update y j s) 1 * v 0)
      ((if j = 0 then 1 else 0) * v 1 - (if j = 1 then 1 else 0) * v 0) (y j) := by
      fin_cases j <;> simp <;>
      · refine HasDerivAt.congr_deriv (by hasderiv) ?_
        ring
    refine (((hC.mul_const (v 2)).add (hB.mul hP)).add (hA.mul hQ)).congr_deriv ?_
    simp only [Function.update_eq_self, eA, fB]
    unfold nsq
    fin_cases j <;> simp [lieRotationJacobianLarge] <;>
    · generalize Real.sin (Real.sqrt (y 0 * y 0 + y 1 * y 1 + y 2 * y 2)) = S
      generalize Real.cos (Real.sqrt (y 0 * y 0 + y 1 * y 1 + y 2 * y 2)) = C
      generalize Real.sqrt (y 0 * y 0 + y 1 * y 1 + y 2 * y 2) = r
      field_simp
      ring

theorem lieRotation_eq_rod (v y : Vec ℝ 3) (h : Real.sqrt (nsq y) > 1e-12) : lieRotation v y = rod v y := by
  have hpos : 0 < Real.sqrt (nsq y) := lt_trans (by norm_num) h
  have h2 := Real.mul_self_sqrt (nsq_nonneg y)
  have hn : Quat.norm3 y > 1e-12 := h
  unfold lieRotation Quat.fromLogarithm
  simp only [hn, ↓reduceIte]
  have er : Quat.norm3 y = Real.sqrt (nsq y) := rfl
  rw [er]
  have hc : Real.cos (Real.sqrt (nsq y)) = 2 * Real.cos (Real.sqrt (nsq y) / 2) ^ 2 - 1 := by
    rw [← Real.cos_two_mul]; congr 1; ring
  have hs : Real.sin (Real.sqrt (nsq y)) = 2 * Real.sin (Real.sqrt (nsq y) / 2) * Real.cos (Real.sqrt (nsq y) / 2) := by
    rw [← Real.sin_two_mul]; congr 1; ring
  have h1 := Real.sin_sq_add_cos_sq (Real.sqrt (nsq y) / 2)
  simp only [rod, fA, fB, fC, hc, hs]
  generalize Real.sin (Real.sqrt (nsq y) / 2) = S at *
  generalize Real.cos (Real.sqrt (nsq y) / 2) = C at *
  generalize Real.sqrt (nsq y) = r at *
  have hr : r ≠ 0 := hpos.ne'
  rw [← h2]
  ext i
  fin_cases i <;> simp [Quat.rotate] <;> field_simp <;> grind

end Ubitrack.RotationFunction
