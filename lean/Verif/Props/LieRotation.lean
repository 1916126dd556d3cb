import Verif.Proofs.LieRotation
import Verif.Spec.Rotation
import Mathlib.Analysis.SpecialFunctions.Trigonometric.Sinc
import Mathlib.Analysis.Complex.ExponentialBounds
import Mathlib.Analysis.Real.Pi.Bounds

/-!
# C52: Jacobians of the exponential map rotation, the hand-eye residual and the velocity integration
-/

namespace Ubitrack.RotationFunction

open Spec

/-- Specification: Rodrigues' formula `v + sin|y|/|y| y×v + (1-cos|y|)/|y|² y×(y×v)`, continued to `y = 0` by
`sinc` (`(1-cos r)/r² = sinc²(r/2)/2`). -/
noncomputable def expRotate (v y : Vec ℝ 3) : Vec ℝ 3 :=
  let r := Real.sqrt (y 0 ^ 2 + y 1 ^ 2 + y 2 ^ 2)
  v + Real.sinc r • crossProduct y v + (Real.sinc (r / 2) ^ 2 / 2) • crossProduct y (crossProduct y v)

theorem rod_eq_expRotate (v y : Vec ℝ 3) (hy : nsq y ≠ 0) : rod v y = expRotate v y := by
  have h0 : Real.sqrt (nsq y) ≠ 0 := by rw [Real.sqrt_ne_zero (nsq_nonneg y)]; exact hy
  have h2 := Real.mul_self_sqrt (nsq_nonneg y)
  have e : y 0 ^ 2 + y 1 ^ 2 + y 2 ^ 2 = nsq y := by unfold nsq; ring
  have hn : nsq y = y 0 ^ 2 + y 1 ^ 2 + y 2 ^ 2 := e.symm
  have hc : Real.cos (Real.sqrt (nsq y)) = 1 - 2 * Real.sin (Real.sqrt (nsq y) / 2) ^ 2 := by
    have h1 := Real.sin_sq_add_cos_sq (Real.sqrt (nsq y) / 2)
    have h3 := Real.cos_two_mul (Real.sqrt (nsq y) / 2)
    rw [show 2 * (Real.sqrt (nsq y) / 2) = Real.sqrt (nsq y) by ring] at h3
    linear_combination h3 + 2 * h1
  unfold expRotate
  simp only [e]
  rw [Real.sinc_of_ne_zero h0, Real.sinc_of_ne_zero (by simpa using h0)]
  simp only [rod, fA, fB, fC, hc]
  generalize Real.sin (Real.sqrt (nsq y) / 2) = S at *
  generalize Real.sin (Real.sqrt (nsq y)) = S2 at *
  generalize Real.sqrt (nsq y) = r at *
  rw [hn] at h2 ⊢
  rw [← h2]
  ext i
  fin_cases i <;> simp [cross_apply, Matrix.vecHead, Matrix.vecTail] <;> field_simp <;> grind

/-- **C52** Exponential map rotation: the value is Rodrigues' formula, for rotation angles above the threshold and for zero. -/
theorem C52_lie_value (v y : Vec ℝ 3) (hy : y = 0 ∨ Real.sqrt (y 0 ^ 2 + y 1 ^ 2 + y 2 ^ 2) > 1e-12) :
    lieRotation v y = expRotate v y := by
  rcases hy with rfl | hy
  · ext i
    have hq : ¬ Quat.norm3 0 > 1e-12 := by simp [Quat.norm3]; norm_num
    fin_cases i <;>
      simp only [lieRotation, Quat.fromLogarithm, hq, ↓reduceIte, Quat.rotate] <;>
      simp [expRotate, cross_apply] <;> norm_num
  · have hy' : Real.sqrt (nsq y) > 1e-12 := by
      have e : y 0 ^ 2 + y 1 ^ 2 + y 2 ^ 2 = nsq y := by unfold nsq; ring
      rwa [e] at hy
    rw [lieRotation_eq_rod v y hy', rod_eq_expRotate]
    intro h
    rw [h] at hy'
    norm_num at hy'

/-- **C52** Exponential map rotation: the Jacobian is the one of the evaluated function, for angles of at least `1e-6`. -/
theorem C52_lie_jacobian (v y : Vec ℝ 3) (hy : Real.sqrt (y 0 ^ 2 + y 1 ^ 2 + y 2 ^ 2) ≥ 1e-6) :
    IsJacobian (lieRotation v) y (lieRotationJacobian v y) := by
  have e : y 0 ^ 2 + y 1 ^ 2 + y 2 ^ 2 = nsq y := by unfold nsq; ring
  rw [e] at hy
  have hn : nsq y ≠ 0 := by
    intro h
    rw [h] at hy
    norm_num at hy
  have hj : lieRotationJacobian v y = lieRotationJacobianLarge v y := by
    unfold lieRotationJacobian
    rw [if_neg]
    exact not_lt.mpr hy
  rw [hj]
  have h := rod_jacobian v y hn
  unfold IsJacobian at *
  refine h.congr_of_eventuallyEq ?_
  have hc : ContinuousAt (fun y : Vec ℝ 3 => Real.sqrt (nsq y)) y := by
    unfold nsq
    fun_prop
  have : ∀ᶠ z in nhds y, Real.sqrt (nsq z) > 1e-12 := hc.eventually (lt_mem_nhds (lt_of_lt_of_le (by norm_num) hy))
  exact this.mono fun z hz => lieRotation_eq_rod v z hz

/-- **C52 (partial)** At the zero rotation the Jacobian is the one of Rodrigues' formula, which the evaluated function
approximates. Missing: between zero and `1e-6` the matrix returned is the value at zero, an approximation. -/
theorem C52_lie_zero_partial (v : Vec ℝ 3) : IsJacobian (expRotate v) 0 (lieRotationJacobian v 0) := by
  have e : lieRotationJacobian v 0 = lieRotationJacobianSmall v := by
    unfold lieRotationJacobian
    rw [if_pos]
    norm_num
  let r : Vec ℝ 3 → ℝ := fun h => Real.sqrt (h 0 ^ 2 + h 1 ^ 2 + h 2 ^ 2)
  have hM := isJacobian_of_mulVec (f := expRotate v) (c := v)
    (M := fun h => Matrix.of fun i j => Real.sinc (r h) * lieRotationJacobianSmall v i j
      + Real.sinc (r h / 2) ^ 2 / 2 * (h i * v j - v i * h j)) ?_ ?_
  · have h0 : (Matrix.of fun i j => Real.sinc (r 0) * lieRotationJacobianSmall v i j
      + Real.sinc (r 0 / 2) ^ 2 / 2 * ((0 : Vec ℝ 3) i * v j - v i * (0 : Vec ℝ 3) j)) = lieRotationJacobianSmall v := by
      ext i j
      simp [r]
    rw [e, ← h0]
    exact hM
  · intro h
    ext i
    fin_cases i <;>
      simp [expRotate, r, cross_apply, Matrix.vecHead, Matrix.vecTail, Matrix.mulVec, dotProduct, Fin.sum_univ_three, lieRotationJacobianSmall] <;> ring
  · intro i j
    have hr : Continuous r := by fun_prop
    have h1 : Continuous fun h => Real.sinc (r h) := Real.continuous_sinc.comp hr
    have h2 : Continuous fun h => Real.sinc (r h / 2) := Real.continuous_sinc.comp (hr.div_const 2)
    apply Continuous.continuousAt
    simp only [Matrix.of_apply]
    fun_prop

/-- The derivative of Rodrigues' formula, written with its coefficients. -/
noncomputable def rodDeriv (v y : Vec ℝ 3) : Mat ℝ 3 3 := Matrix.of fun i j =>
  -(fA y * y j) * v i
  + (y j * ((Real.sin (Real.sqrt (nsq y)) * Real.sqrt (nsq y) - 2 * (1 - Real.cos (Real.sqrt (nsq y)))) / (nsq y * nsq y))
      * (y i * (y 0 * v 0 + y 1 * v 1 + y 2 * v 2))
    + fB y * ((if j = i then 1 else 0) * (y 0 * v 0 + y 1 * v 1 + y 2 * v 2) + y i * v j))
  + (y j * ((Real.cos (Real.sqrt (nsq y)) * nsq y - Real.sin (Real.sqrt (nsq y)) * Real.sqrt (nsq y)) / (nsq y * nsq y))
      * (![y 1 * v 2 - y 2 * v 1, y 2 * v 0 - y 0 * v 2, y 0 * v 1 - y 1 * v 0] : Vec ℝ 3) i
    + fA y * lieRotationJacobianSmall v i j)

theorem rodDeriv_jacobian (v y : Vec ℝ 3) (hy : nsq y ≠ 0) : IsJacobian (rod v) y (rodDeriv v y) := by
  apply isJacobian_of_partials (rod_differentiable v y hy)
  intro i j
  have hC := hasDeriv_C y hy j
  have hA := hasDeriv_A y hy j
  have hB := hasDeriv_B y hy j
  have eA : Real.sin (Real.sqrt (nsq y)) * Real.sqrt (nsq y) / nsq y = fA y := by
    have h0 : Real.sqrt (nsq y) ≠ 0 := by rw [Real.sqrt_ne_zero (nsq_nonneg y)]; exact hy
    have h2 := Real.mul_self_sqrt (nsq_nonneg y)
    unfold fA
    generalize Real.sqrt (nsq y) = r at *
    rw [← h2]
    field_simp
  have hP : HasDerivAt (fun s : ℝ => (Function.update y j s) i * ((Function.update y j s) 0 * v 0 + (Function.update y j s) 1 * v 1 + (Function.update y j s) 2 * v 2))
      ((if j = i then 1 else 0) * (y 0 * v 0 + y 1 * v 1 + y 2 * v 2) + y i * v j) (y j) := by
    fin_cases i <;> fin_cases j <;> simp <;>
    · refine HasDerivAt.congr_deriv (by hasderiv) ?_
      ring
  have hQ : HasDerivAt (fun s : ℝ => (![(Function.update y j s) 1 * v 2 - (Function.update y j s) 2 * v 1,
      (Function.update y j s) 2 * v 0 - (Function.update y j s) 0 * v 2,
      (Function.update y j s) 0 * v 1 - (Function.update y j s) 1 * v 0] : Vec ℝ 3) i)
      (lieRotationJacobianSmall v i j) (y j) := by
    fin_cases i <;> fin_cases j <;> simp [lieRotationJacobianSmall] <;>
    first
    | exact hasDerivAt_const _ _
    | (refine HasDerivAt.congr_deriv (by hasderiv) ?_
       ring)
  have h := ((hC.mul_const (v i)).add (hB.mul hP)).add (hA.mul hQ)
  have e : (fun s : ℝ => rod v (Function.update y j s) i) = fun s : ℝ => fC (Function.update y j s) * v i
      + fB (Function.update y j s) * ((Function.update y j s) i * ((Function.update y j s) 0 * v 0 + (Function.update y j s) 1 * v 1 + (Function.update y j s) 2 * v 2))
      + fA (Function.update y j s) * (![(Function.update y j s) 1 * v 2 - (Function.update y j s) 2 * v 1,
      (Function.update y j s) 2 * v 0 - (Function.update y j s) 0 * v 2,
      (Function.update y j s) 0 * v 1 - (Function.update y j s) 1 * v 0] : Vec ℝ 3) i := by
    funext s
    fin_cases i <;> rfl
  rw [e]
  refine HasDerivAt.congr_deriv h ?_
  simp only [Function.update_eq_self, rodDeriv, Matrix.of_apply, ← eA]
  field_simp

/-- The coefficients near zero. -/
theorem coefficients_small {r : ℝ} (h0 : 0 < r) (h1 : r ≤ 1) :
    |Real.sin r / r| ≤ 1 ∧ |Real.sin r / r - 1| ≤ r ^ 2 / 4 ∧ |(1 - Real.cos r) / (r * r)| ≤ 1 / 2 ∧
    |(Real.sin r * r - 2 * (1 - Real.cos r)) / (r * r * (r * r))| ≤ 1 / 3 ∧
    |(Real.cos r * (r * r) - Real.sin r * r) / (r * r * (r * r))| ≤ 1 / 2 := by
  have a1 := Real.sin_le h0.le
  have a2 := (Real.sin_gt_sub_cube h0).le
  have a3 := Real.one_sub_sq_div_two_le_cos (x := r)
  have a4 := Real.cos_le_one r
  have a5 := abs_le.1 (Real.sin_bound (x := r) (by rwa [abs_of_pos h0]))
  have a6 := abs_le.1 (Real.cos_bound (x := r) (by rwa [abs_of_pos h0]))
  rw [abs_of_pos h0] at a5 a6
  have h2 : 0 < r * r := by positivity
  have h3 : 0 < r * r * r := by positivity
  have h4 : 0 < r * r * (r * r) := by positivity
  have h5 : r ^ 5 * r ≤ r ^ 4 := by
    have h4 : 0 < r ^ 4 := by positivity
    have hr2 : r * r ≤ 1 := by nlinarith
    nlinarith
  have hs : 0 ≤ Real.sin r := by nlinarith [sq_nonneg r]
  refine ⟨?_, ?_, ?_, ?_, ?_⟩
  · rw [abs_of_nonneg (by positivity), div_le_one h0]; exact a1
  · rw [abs_le]
    constructor
    · rw [le_sub_iff_add_le, le_div_iff₀ h0]; nlinarith
    · rw [sub_le_iff_le_add, div_le_iff₀ h0]; nlinarith [sq_nonneg r]
  · rw [abs_of_nonneg (div_nonneg (by linarith) h2.le), div_le_iff₀ h2]; nlinarith
  · rw [abs_div, abs_of_pos h4, div_le_iff₀ h4, abs_le]
    constructor <;> nlinarith
  · rw [abs_div, abs_of_pos h4, div_le_iff₀ h4, abs_le]
    constructor <;> nlinarith

/-- **C52 (partial)** For angles below `1e-6` every entry of the Jacobian is within `4 r M` of the derivative, where `r` is the angle and
the components of the rotated point are at most `M`. Missing: it is not the derivative itself. -/
theorem C52_lie_small_partial (v y : Vec ℝ 3) (M : ℝ) (hM : ∀ k, |v k| ≤ M)
    (hy : Real.sqrt (y 0 ^ 2 + y 1 ^ 2 + y 2 ^ 2) < 1e-6) :
    ∃ J, IsJacobian (expRotate v) y J ∧
      (1e-12 < Real.sqrt (y 0 ^ 2 + y 1 ^ 2 + y 2 ^ 2) → IsJacobian (lieRotation v) y J) ∧
      ∀ i j, |lieRotationJacobian v y i j - J i j| ≤ 4 * Real.sqrt (y 0 ^ 2 + y 1 ^ 2 + y 2 ^ 2) * M := by
  have e : y 0 ^ 2 + y 1 ^ 2 + y 2 ^ 2 = nsq y := by unfold nsq; ring
  rw [e] at hy ⊢
  have hM0 : 0 ≤ M := (abs_nonneg _).trans (hM 0)
  have hc : ContinuousAt (fun y : Vec ℝ 3 => Real.sqrt (nsq y)) y := by
    unfold nsq
    fun_prop
  by_cases hn : nsq y = 0
  · have y0 : y = 0 := by
      unfold nsq at hn
      have b0 : y 0 = 0 := by nlinarith [sq_nonneg (y 0), sq_nonneg (y 1), sq_nonneg (y 2)]
      have b1 : y 1 = 0 := by nlinarith [sq_nonneg (y 0), sq_nonneg (y 1), sq_nonneg (y 2)]
      have b2 : y 2 = 0 := by nlinarith [sq_nonneg (y 0), sq_nonneg (y 1), sq_nonneg (y 2)]
      ext k
      fin_cases k
      · exact b0
      · exact b1
      · exact b2
    refine ⟨lieRotationJacobian v y, ?_, ?_, ?_⟩
    · rw [y0]; exact C52_lie_zero_partial v
    · intro h; rw [hn] at h; norm_num at h
    · intro i j; rw [hn]; simp
  · have hJ := rodDeriv_jacobian v y hn
    have r0 : 0 < Real.sqrt (nsq y) := Real.sqrt_pos.2 (lt_of_le_of_ne (nsq_nonneg y) (Ne.symm hn))
    refine ⟨rodDeriv v y, ?_, ?_, ?_⟩
    · unfold IsJacobian at *
      refine hJ.congr_of_eventuallyEq ?_
      have : ∀ᶠ z in nhds y, Real.sqrt (nsq z) > 0 := hc.eventually (lt_mem_nhds r0)
      exact this.mono fun z hz => (rod_eq_expRotate v z (Real.sqrt_pos.1 hz).ne').symm
    · intro h12
      unfold IsJacobian at *
      refine hJ.congr_of_eventuallyEq ?_
      have : ∀ᶠ z in nhds y, Real.sqrt (nsq z) > 1e-12 := hc.eventually (lt_mem_nhds h12)
      exact this.mono fun z hz => lieRotation_eq_rod v z hz
    · intro i j
      have hs : lieRotationJacobian v y = lieRotationJacobianSmall v := by
        unfold lieRotationJacobian
        exact if_pos hy
      rw [hs]
      have r1 : Real.sqrt (nsq y) ≤ 1 := by linarith [show (1e-6 : ℝ) < 1 by norm_num]
      obtain ⟨c1, c2, c3, c4, c5⟩ := coefficients_small r0 r1
      have h2 := Real.mul_self_sqrt (nsq_nonneg y)
      have hyk : ∀ k, |y k| ≤ Real.sqrt (nsq y) := by
        intro k
        rw [← Real.sqrt_sq_eq_abs]
        apply Real.sqrt_le_sqrt
        have q0 : y 0 ^ 2 ≤ nsq y := by unfold nsq; nlinarith [sq_nonneg (y 1), sq_nonneg (y 2)]
        have q1 : y 1 ^ 2 ≤ nsq y := by unfold nsq; nlinarith [sq_nonneg (y 0), sq_nonneg (y 2)]
        have q2 : y 2 ^ 2 ≤ nsq y := by unfold nsq; nlinarith [sq_nonneg (y 0), sq_nonneg (y 1)]
        fin_cases k
        · exact q0
        · exact q1
        · exact q2
      have hS : |lieRotationJacobianSmall v i j| ≤ M := by
        fin_cases i <;> fin_cases j <;> simp [lieRotationJacobianSmall, hM0] <;> first | exact hM 0 | exact hM 1 | exact hM 2
      have hfA : fA y = Real.sin (Real.sqrt (nsq y)) / Real.sqrt (nsq y) := rfl
      have hfB : fB y = (1 - Real.cos (Real.sqrt (nsq y))) / (Real.sqrt (nsq y) * Real.sqrt (nsq y)) := by rw [h2]; rfl
      simp only [rodDeriv, Matrix.of_apply, hfA, hfB]
      rw [← h2, Real.sqrt_mul_self r0.le]
      have hdot : |y 0 * v 0 + y 1 * v 1 + y 2 * v 2| ≤ 3 * Real.sqrt (nsq y) * M := by
        have k0 := mul_le_mul (hyk 0) (hM 0) (abs_nonneg _) r0.le
        have k1 := mul_le_mul (hyk 1) (hM 1) (abs_nonneg _) r0.le
        have k2 := mul_le_mul (hyk 2) (hM 2) (abs_nonneg _) r0.le
        rw [← abs_mul] at k0 k1 k2
        have := abs_add_three (y 0 * v 0) (y 1 * v 1) (y 2 * v 2)
        linarith
      have hQ : |(![y 1 * v 2 - y 2 * v 1, y 2 * v 0 - y 0 * v 2, y 0 * v 1 - y 1 * v 0] : Vec ℝ 3) i| ≤ 2 * Real.sqrt (nsq y) * M := by
        have key : ∀ a b c d, |y a * v b - y c * v d| ≤ 2 * Real.sqrt (nsq y) * M := by
          intro a b c d
          have k0 := mul_le_mul (hyk a) (hM b) (abs_nonneg _) r0.le
          have k1 := mul_le_mul (hyk c) (hM d) (abs_nonneg _) r0.le
          rw [← abs_mul] at k0 k1
          have := abs_sub (y a * v b) (y c * v d)
          linarith
        fin_cases i
        · exact key 1 2 2 1
        · exact key 2 0 0 2
        · exact key 0 1 1 0
      have hδ : |(if j = i then (1 : ℝ) else 0)| ≤ 1 := by split <;> simp
      have hyi := hyk i
      have hyj := hyk j
      have hvi := hM i
      have hvj := hM j
      generalize (![y 1 * v 2 - y 2 * v 1, y 2 * v 0 - y 0 * v 2, y 0 * v 1 - y 1 * v 0] : Vec ℝ 3) i = Q at *
      generalize y 0 * v 0 + y 1 * v 1 + y 2 * v 2 = D at *
      generalize lieRotationJacobianSmall v i j = S at *
      generalize (if j = i then (1 : ℝ) else 0) = δ at *
      generalize Real.sin (Real.sqrt (nsq y)) / Real.sqrt (nsq y) = A at *
      generalize (1 - Real.cos (Real.sqrt (nsq y))) / (Real.sqrt (nsq y) * Real.sqrt (nsq y)) = B at *
      generalize (Real.sin (Real.sqrt (nsq y)) * Real.sqrt (nsq y) - 2 * (1 - Real.cos (Real.sqrt (nsq y)))) /
        (Real.sqrt (nsq y) * Real.sqrt (nsq y) * (Real.sqrt (nsq y) * Real.sqrt (nsq y))) = b at *
      generalize (Real.cos (Real.sqrt (nsq y)) * (Real.sqrt (nsq y) * Real.sqrt (nsq y)) - Real.sin (Real.sqrt (nsq y)) * Real.sqrt (nsq y)) /
        (Real.sqrt (nsq y) * Real.sqrt (nsq y) * (Real.sqrt (nsq y) * Real.sqrt (nsq y))) = a at *
      generalize Real.sqrt (nsq y) = r at *
      have t1 : |A * y j * v i| ≤ 1 * r * M := by
        rw [abs_mul, abs_mul]; gcongr
      have t2 : |y j * b * (y i * D)| ≤ r * (1 / 3) * (r * (3 * r * M)) := by
        rw [abs_mul, abs_mul, abs_mul]; gcongr
      have t3 : |B * (δ * D + y i * v j)| ≤ 1 / 2 * (1 * (3 * r * M) + r * M) := by
        rw [abs_mul]
        refine mul_le_mul c3 ((abs_add_le _ _).trans ?_) (abs_nonneg _) (by norm_num)
        rw [abs_mul, abs_mul]; gcongr
      have t4 : |y j * a * Q| ≤ r * (1 / 2) * (2 * r * M) := by
        rw [abs_mul, abs_mul]; gcongr
      have t5 : |(A - 1) * S| ≤ r ^ 2 / 4 * M := by
        rw [abs_mul]; gcongr
      have hr : r ≤ 1e-6 := hy.le
      have hrM : 0 ≤ r * M := by positivity
      have u1 : r * (r * M) ≤ 1e-6 * (r * M) := mul_le_mul_of_nonneg_right hr hrM
      have u2 : r * (r * (r * M)) ≤ 1e-6 * (1e-6 * (r * M)) := mul_le_mul hr u1 (by positivity) (by norm_num)
      rw [abs_le] at *
      constructor <;> nlinarith

/-- A turn by `1e-7`, of the point `(1, 2, 3)`. -/
example : ∃ v y : Vec ℝ 3, (∀ k, |v k| ≤ 3) ∧ Real.sqrt (y 0 ^ 2 + y 1 ^ 2 + y 2 ^ 2) < 1e-6 ∧
    1e-12 < Real.sqrt (y 0 ^ 2 + y 1 ^ 2 + y 2 ^ 2) := by
  refine ⟨![1, 2, 3], ![1e-7, 0, 0], ?_, ?_, ?_⟩
  · intro k; fin_cases k <;> norm_num
  · simp [Real.sqrt_sq_eq_abs]; norm_num
  · simp [Real.sqrt_sq_eq_abs]; norm_num

/-- **C52 (refuted at zero)** The evaluated function is constant near zero, so that its derivative is zero while the Jacobian
returned is not. -/
theorem C52_lie_zero_refuted : ¬ IsJacobian (lieRotation ![1, 0, 0]) 0 (lieRotationJacobian ![1, 0, 0] 0) := by
  intro h
  have e : lieRotationJacobian ![1, 0, 0] 0 = lieRotationJacobianSmall ![1, 0, 0] := by
    unfold lieRotationJacobian
    rw [if_pos]
    norm_num
  have hz : IsJacobian (lieRotation ![1, 0, 0]) 0 0 := by
    unfold IsJacobian
    have hc : HasFDerivAt (fun _ : Vec ℝ 3 => (![1, 0, 0] : Vec ℝ 3)) (0 : Vec ℝ 3 →L[ℝ] Vec ℝ 3) 0 := hasFDerivAt_const _ _
    refine (hc.congr_of_eventuallyEq ?_).congr_fderiv (by ext; simp)
    have hcont : ContinuousAt (fun y : Vec ℝ 3 => Real.sqrt (y 0 * y 0 + y 1 * y 1 + y 2 * y 2)) 0 := by fun_prop
    have : ∀ᶠ z in nhds (0 : Vec ℝ 3), Real.sqrt (z 0 * z 0 + z 1 * z 1 + z 2 * z 2) < 1e-12 :=
      hcont.eventually (gt_mem_nhds (by norm_num))
    refine this.mono fun z hz => ?_
    have hz' : ¬ Quat.norm3 z > 1e-12 := not_lt.mpr hz.le
    ext i
    fin_cases i <;> simp only [lieRotation, Quat.fromLogarithm, hz', ↓reduceIte, Quat.rotate] <;> simp <;> norm_num
  have := congrFun (congrFun (h.unique hz) 1) 2
  rw [e] at this
  simp [lieRotationJacobianSmall] at this

/-- **C52** Hand-eye measurement: zero exactly if `a x = x b`, and the Jacobian is exact. -/
theorem C52_hec_measurement (a b : Quat ℝ) (x : Vec ℝ 4) :
    (rotHecMeasurement a b x = 0 ↔ a.mul (Quat.fromVector x) = (Quat.fromVector x).mul b) ∧
    IsJacobian (rotHecMeasurement a b) x (rotHecMeasurementJacobian a b) := by
  constructor
  · constructor
    · intro h
      have h0 := congrFun h 0
      have h1 := congrFun h 1
      have h2 := congrFun h 2
      have h3 := congrFun h 3
      simp only [rotHecMeasurement, Matrix.cons_val_zero, Matrix.cons_val_one, Matrix.cons_val, Pi.zero_apply, sub_eq_zero] at h0 h1 h2 h3
      cases hl : a.mul (Quat.fromVector x)
      cases hr : (Quat.fromVector x).mul b
      simp_all
    · intro h
      ext i
      fin_cases i <;> simp [rotHecMeasurement, h]
  · apply isJacobian_of_partials
    · rw [differentiableAt_pi]
      intro i
      fin_cases i <;> simp [rotHecMeasurement, Quat.mul, Quat.fromVector] <;> fun_prop
    · intro i j
      fin_cases i <;> fin_cases j <;> simp [rotHecMeasurement, Quat.mul, Quat.fromVector, rotHecMeasurementJacobian] <;>
      · refine HasDerivAt.congr_deriv (by hasderiv) ?_
        ring

/-- Specification: the hand-eye residual `a x - x b` as a function of the measurements. -/
def hecResidual (x : Quat ℝ) (a b : Vec ℝ 4) : Vec ℝ 4 :=
  ((Quat.fromVector a).mul x).toVector - (x.mul (Quat.fromVector b)).toVector

/-- **C52 (partial)** Hand-eye residual as a function of the measurements: the Jacobian with respect to the first is exact.
Missing: the Jacobian with respect to the second, see `C52_hec_combine_refuted`. -/
theorem C52_hec_combine_partial (x : Quat ℝ) (a b : Vec ℝ 4) :
    IsJacobian (fun a => hecResidual x a b) a (rotHecCombineJacobians x).1 := by
  apply isJacobian_of_partials
  · rw [differentiableAt_pi]
    intro i
    fin_cases i <;> simp [hecResidual, Quat.mul, Quat.fromVector, Quat.toVector] <;> fun_prop
  · intro i j
    fin_cases i <;> fin_cases j <;> simp [hecResidual, Quat.mul, Quat.fromVector, Quat.toVector, rotHecCombineJacobians] <;>
    · refine HasDerivAt.congr_deriv (by hasderiv) ?_
      ring

/-- **C52 (refuted)** The Jacobian with respect to the second measurement is wrong for each `x` with non-zero vector part. -/
theorem C52_hec_combine_refuted (x : Quat ℝ) (a b : Vec ℝ 4) (hx : x.x ≠ 0 ∨ x.y ≠ 0 ∨ x.z ≠ 0) :
    ¬ IsJacobian (fun b => hecResidual x a b) b (rotHecCombineJacobians x).2 := by
  intro h
  have ht : IsJacobian (fun b => hecResidual x a b) b
      !![-x.w, x.z, -x.y, -x.x; -x.z, -x.w, x.x, -x.y; x.y, -x.x, -x.w, -x.z; x.x, x.y, x.z, -x.w] := by
    apply isJacobian_of_partials
    · rw [differentiableAt_pi]
      intro i
      fin_cases i <;> simp [hecResidual, Quat.mul, Quat.fromVector, Quat.toVector] <;> fun_prop
    · intro i j
      fin_cases i <;> fin_cases j <;> simp [hecResidual, Quat.mul, Quat.fromVector, Quat.toVector] <;>
      · refine HasDerivAt.congr_deriv (by hasderiv) ?_
        ring
  have hu := h.unique ht
  have h01 := congrFun (congrFun hu 0) 1
  have h02 := congrFun (congrFun hu 0) 2
  have h12 := congrFun (congrFun hu 1) 2
  simp [rotHecCombineJacobians] at h01 h02 h12
  rcases hx with h | h | h <;> apply h <;> linarith

/-- **C52 (refuted)** Velocity integration does not return a unit quaternion for ordinary velocities. -/
theorem C52_velocity_unit_refuted :
    ∃ (dt : ℝ) (v : Vec ℝ 3), let q := rotationVelocityIntegration dt v
      q 0 ^ 2 + q 1 ^ 2 + q 2 ^ 2 + q 3 ^ 2 > 1 := by
  refine ⟨2, ![1, 0, 0], ?_⟩
  have hc : 0 < Real.cos 1 := Real.cos_one_pos
  have h1 : ¬ |(1 : ℝ) * 2| > 1e12 := by norm_num
  have e : Real.sqrt ((![1, 0, 0] : Vec ℝ 3) 0 * (![1, 0, 0] : Vec ℝ 3) 0 + (![1, 0, 0] : Vec ℝ 3) 1 * (![1, 0, 0] : Vec ℝ 3) 1
      + (![1, 0, 0] : Vec ℝ 3) 2 * (![1, 0, 0] : Vec ℝ 3) 2) = 1 := by simp
  have h2 : (1 : ℝ) * 2 * 0.5 = 1 := by norm_num
  have h3 : (2 : ℝ) * 0.5 = 1 := by norm_num
  simp only [rotationVelocityIntegration, e, h1, ↓reduceIte, h2, h3]
  simp
  positivity

/-- **C52 (partial)** The Jacobian of the velocity integration is exact at zero velocity. Missing: other velocities, see
`C52_velocity_jacobian_refuted`. -/
theorem C52_velocity_zero_partial (dt : ℝ) :
    IsJacobian (rotationVelocityIntegration dt) 0 (rotationVelocityIntegrationJacobian dt 0) := by
  let r : Vec ℝ 3 → ℝ := fun h => Real.sqrt (h 0 * h 0 + h 1 * h 1 + h 2 * h 2)
  have hr : Continuous r := by fun_prop
  have hM := isJacobian_of_mulVec
    (f := fun h : Vec ℝ 3 => ![h 0 * (dt * 0.5), h 1 * (dt * 0.5), h 2 * (dt * 0.5), Real.cos (r h * dt * 0.5)]) (c := ![0, 0, 0, 1])
    (M := fun h => !![dt * 0.5, 0, 0; 0, dt * 0.5, 0; 0, 0, dt * 0.5;
      -(dt ^ 2 / 8 * Real.sinc (r h * dt / 4) ^ 2 * h 0), -(dt ^ 2 / 8 * Real.sinc (r h * dt / 4) ^ 2 * h 1),
      -(dt ^ 2 / 8 * Real.sinc (r h * dt / 4) ^ 2 * h 2)]) ?_ ?_
  · have h0 : (!![dt * 0.5, 0, 0; 0, dt * 0.5, 0; 0, 0, dt * 0.5;
      -(dt ^ 2 / 8 * Real.sinc (r 0 * dt / 4) ^ 2 * (0 : Vec ℝ 3) 0), -(dt ^ 2 / 8 * Real.sinc (r 0 * dt / 4) ^ 2 * (0 : Vec ℝ 3) 1),
      -(dt ^ 2 / 8 * Real.sinc (r 0 * dt / 4) ^ 2 * (0 : Vec ℝ 3) 2)] : Mat ℝ 4 3) = rotationVelocityIntegrationJacobian dt 0 := by
      ext i j
      fin_cases i <;> fin_cases j <;> simp [rotationVelocityIntegrationJacobian]
    rw [← h0]
    unfold IsJacobian at *
    refine hM.congr_of_eventuallyEq ?_
    have hcont : ContinuousAt (fun y => |r y * dt|) 0 := by fun_prop
    have : ∀ᶠ z in nhds (0 : Vec ℝ 3), |r z * dt| < 1e12 :=
      hcont.eventually (gt_mem_nhds (by simp [r]; norm_num))
    refine this.mono fun z hz => ?_
    have hz' : ¬ |Real.sqrt (z 0 * z 0 + z 1 * z 1 + z 2 * z 2) * dt| > 1e12 := not_lt.mpr hz.le
    unfold rotationVelocityIntegration
    simp only [hz', ↓reduceIte, r]
  · intro h
    have hs : Real.cos (r h * dt * 0.5) = 1 - dt ^ 2 / 8 * Real.sinc (r h * dt / 4) ^ 2 * (r h * r h) := by
      have h1 : Real.cos (r h * dt * 0.5) = 1 - 2 * Real.sin (r h * dt / 4) ^ 2 := by
        have h1 := Real.sin_sq_add_cos_sq (r h * dt / 4)
        have h3 := Real.cos_two_mul (r h * dt / 4)
        rw [show 2 * (r h * dt / 4) = r h * dt * 0.5 by ring] at h3
        linear_combination h3 + 2 * h1
      have h2 : Real.sin (r h * dt / 4) = (r h * dt / 4) * Real.sinc (r h * dt / 4) := by
        by_cases hz : r h * dt / 4 = 0
        · rw [hz]; simp
        · rw [Real.sinc_of_ne_zero hz, mul_div_cancel₀ _ hz]
      rw [h1, h2]
      ring
    have h2 : r h * r h = h 0 * h 0 + h 1 * h 1 + h 2 * h 2 :=
      Real.mul_self_sqrt (by nlinarith [sq_nonneg (h 0), sq_nonneg (h 1), sq_nonneg (h 2)])
    rw [h2] at hs
    ext i
    fin_cases i <;> simp [dotProduct, Fin.sum_univ_three, hs] <;> ring
  · intro i j
    have h1 : Continuous fun h => Real.sinc (r h * dt / 4) := Real.continuous_sinc.comp ((hr.mul continuous_const).div_const 4)
    apply Continuous.continuousAt
    fin_cases i <;> fin_cases j <;> simp <;> fun_prop

/-- **C52 (partial)** At every velocity, up to the limit `10^12` in the code, the first three rows of the Jacobian are right, and the true last row is the one
computed times `dt` times the sine of half of the angle over half of the angle. Missing: these two factors, see `C52_velocity_jacobian_refuted`. -/
theorem C52_velocity_jacobian_partial (dt : ℝ) (v : Vec ℝ 3) (hv : |Real.sqrt (v 0 * v 0 + v 1 * v 1 + v 2 * v 2) * dt| < 1e12) :
    ∃ J, IsJacobian (rotationVelocityIntegration dt) v J ∧
      (∀ i : Fin 4, i ≠ 3 → ∀ j, J i j = rotationVelocityIntegrationJacobian dt v i j) ∧
      ∀ j, J 3 j = dt * Real.sinc (Real.sqrt (v 0 * v 0 + v 1 * v 1 + v 2 * v 2) * dt / 2) * rotationVelocityIntegrationJacobian dt v 3 j := by
  by_cases h0 : v = 0
  · subst h0
    refine ⟨_, C52_velocity_zero_partial dt, fun i hi j => rfl, fun j => ?_⟩
    fin_cases j <;> simp [rotationVelocityIntegrationJacobian]
  · have hpos : 0 < v 0 * v 0 + v 1 * v 1 + v 2 * v 2 := by
      by_contra hn
      apply h0
      have a0 := mul_self_nonneg (v 0)
      have a1 := mul_self_nonneg (v 1)
      have a2 := mul_self_nonneg (v 2)
      have b0 : v 0 = 0 := mul_self_eq_zero.mp (by linarith)
      have b1 : v 1 = 0 := mul_self_eq_zero.mp (by linarith)
      have b2 : v 2 = 0 := mul_self_eq_zero.mp (by linarith)
      ext i
      fin_cases i
      · exact b0
      · exact b1
      · exact b2
    let r : ℝ := Real.sqrt (v 0 * v 0 + v 1 * v 1 + v 2 * v 2)
    have hr : 0 < r := Real.sqrt_pos.mpr hpos
    refine ⟨!![dt * 0.5, 0, 0; 0, dt * 0.5, 0; 0, 0, dt * 0.5;
      -(dt ^ 2 / 4 * Real.sinc (r * dt / 2) * v 0), -(dt ^ 2 / 4 * Real.sinc (r * dt / 2) * v 1),
      -(dt ^ 2 / 4 * Real.sinc (r * dt / 2) * v 2)], ?_, ?_, ?_⟩
    · have hM : IsJacobian (fun h : Vec ℝ 3 => ![h 0 * (dt * 0.5), h 1 * (dt * 0.5), h 2 * (dt * 0.5),
          Real.cos (Real.sqrt (h 0 * h 0 + h 1 * h 1 + h 2 * h 2) * dt * 0.5)]) v
          !![dt * 0.5, 0, 0; 0, dt * 0.5, 0; 0, 0, dt * 0.5;
      -(dt ^ 2 / 4 * Real.sinc (r * dt / 2) * v 0), -(dt ^ 2 / 4 * Real.sinc (r * dt / 2) * v 1),
      -(dt ^ 2 / 4 * Real.sinc (r * dt / 2) * v 2)] := by
        have hsin : Real.sin (r * dt * 0.5) = r * dt / 2 * Real.sinc (r * dt / 2) := by
          rw [show r * dt * 0.5 = r * dt / 2 by ring]
          by_cases hz : r * dt / 2 = 0
          · rw [hz]; simp
          · rw [Real.sinc_of_ne_zero hz, mul_div_cancel₀ _ hz]
        have hd : ∀ f : ℝ → ℝ, ∀ x f', HasDerivAt f f' x → f x = v 0 * v 0 + v 1 * v 1 + v 2 * v 2 →
            HasDerivAt (fun s => Real.cos (Real.sqrt (f s) * dt * 0.5)) (-(dt ^ 2 / 4 * Real.sinc (r * dt / 2) * (f' / 2))) x := by
          intro f x f' hf hx
          have h1 := (((hf.sqrt (by rw [hx]; exact hpos.ne')).mul_const dt).mul_const (0.5 : ℝ)).cos
          refine h1.congr_deriv ?_
          rw [hx]
          change -Real.sin (r * dt * 0.5) * (f' / (2 * r) * dt * 0.5) = _
          rw [hsin]
          field_simp
          ring
        apply isJacobian_of_partials
        · rw [differentiableAt_pi]
          intro i
          have hs : DifferentiableAt ℝ (fun h : Vec ℝ 3 => Real.sqrt (h 0 * h 0 + h 1 * h 1 + h 2 * h 2)) v :=
            DifferentiableAt.sqrt (by fun_prop) hpos.ne'
          fin_cases i
          · simp; fun_prop
          · simp; fun_prop
          · simp; fun_prop
          · exact ((hs.mul_const dt).mul_const _).cos
        · intro i j
          fin_cases i
          · fin_cases j <;> simp <;> (refine HasDerivAt.congr_deriv (by hasderiv) ?_; ring)
          · fin_cases j <;> simp <;> (refine HasDerivAt.congr_deriv (by hasderiv) ?_; ring)
          · fin_cases j <;> simp <;> (refine HasDerivAt.congr_deriv (by hasderiv) ?_; ring)
          · fin_cases j <;> simp
            · refine (hd (fun s => s * s + v 1 * v 1 + v 2 * v 2) (v 0) (2 * v 0) (HasDerivAt.congr_deriv (by hasderiv) (by ring)) rfl).congr_deriv ?_
              ring
            · refine (hd (fun s => v 0 * v 0 + s * s + v 2 * v 2) (v 1) (2 * v 1) (HasDerivAt.congr_deriv (by hasderiv) (by ring)) rfl).congr_deriv ?_
              ring
            · refine (hd (fun s => v 0 * v 0 + v 1 * v 1 + s * s) (v 2) (2 * v 2) (HasDerivAt.congr_deriv (by hasderiv) (by ring)) rfl).congr_deriv ?_
              ring
      unfold IsJacobian at *
      refine hM.congr_of_eventuallyEq ?_
      have hcont : ContinuousAt (fun h : Vec ℝ 3 => |Real.sqrt (h 0 * h 0 + h 1 * h 1 + h 2 * h 2) * dt|) v := by fun_prop
      refine (hcont.eventually (gt_mem_nhds hv)).mono fun z hz => ?_
      have hz' : ¬ |Real.sqrt (z 0 * z 0 + z 1 * z 1 + z 2 * z 2) * dt| > 1e12 := not_lt.mpr hz.le
      unfold rotationVelocityIntegration
      simp only [hz', ↓reduceIte]
    · intro i hi j
      fin_cases i <;> fin_cases j <;> first | (exact absurd rfl hi) | simp [rotationVelocityIntegrationJacobian]
    · intro j
      change _ = dt * Real.sinc (r * dt / 2) * _
      fin_cases j <;> simp [rotationVelocityIntegrationJacobian] <;> ring

/-- A velocity of length five for a tenth of a second. -/
example : |Real.sqrt ((![3, 4, 0] : Vec ℝ 3) 0 * (![3, 4, 0] : Vec ℝ 3) 0 + (![3, 4, 0] : Vec ℝ 3) 1 * (![3, 4, 0] : Vec ℝ 3) 1 +
    (![3, 4, 0] : Vec ℝ 3) 2 * (![3, 4, 0] : Vec ℝ 3) 2) * 0.1| < 1e12 := by
  have : ((![3, 4, 0] : Vec ℝ 3) 0 * (![3, 4, 0] : Vec ℝ 3) 0 + (![3, 4, 0] : Vec ℝ 3) 1 * (![3, 4, 0] : Vec ℝ 3) 1 +
    (![3, 4, 0] : Vec ℝ 3) 2 * (![3, 4, 0] : Vec ℝ 3) 2) = 5 ^ 2 := by simp; norm_num
  rw [this, Real.sqrt_sq (by norm_num)]
  norm_num [abs_of_pos]

/-- **C52 (refuted)** The Jacobian of the velocity integration is wrong in the last row for non-zero velocities. -/
theorem C52_velocity_jacobian_refuted :
    ∃ (dt : ℝ) (v : Vec ℝ 3),
      ¬ IsJacobian (rotationVelocityIntegration dt) v (rotationVelocityIntegrationJacobian dt v) := by
  refine ⟨Real.pi, ![1, 0, 0], fun h => ?_⟩
  have h1 := h.line 3 0
  have h2 : HasDerivAt (fun s : ℝ => rotationVelocityIntegration Real.pi (Function.update ![1, 0, 0] 0 s) 3) (-(Real.pi / 2)) 1 := by
    have hd : HasDerivAt (fun s : ℝ => Real.cos (s * (Real.pi / 2))) (-(Real.pi / 2)) 1 := by
      have := ((hasDerivAt_id (1 : ℝ)).mul_const (Real.pi / 2)).cos
      refine this.congr_deriv ?_
      simp
    refine hd.congr_of_eventuallyEq ?_
    have : ∀ᶠ s in nhds (1 : ℝ), 0 < s := lt_mem_nhds one_pos
    refine this.mono fun s hs => ?_
    simp [rotationVelocityIntegration, Real.sqrt_mul_self hs.le]
    congr 1
    ring
  have := h1.unique (by simpa using h2)
  simp [rotationVelocityIntegrationJacobian] at this
  have hp := Real.pi_pos
  norm_num at this
  linarith

/-- Non-vacuity: a rotation vector of angle five. -/
example : Real.sqrt ((![3, 4, 0] : Vec ℝ 3) 0 ^ 2 + (![3, 4, 0] : Vec ℝ 3) 1 ^ 2 + (![3, 4, 0] : Vec ℝ 3) 2 ^ 2) ≥ 1e-6 := by
  have : ((![3, 4, 0] : Vec ℝ 3) 0 ^ 2 + (![3, 4, 0] : Vec ℝ 3) 1 ^ 2 + (![3, 4, 0] : Vec ℝ 3) 2 ^ 2) = 5 ^ 2 := by simp; norm_num
  rw [this, Real.sqrt_sq (by norm_num)]
  norm_num

end Ubitrack.RotationFunction
