import Verif.Model.BackwardPropagation
import Verif.Spec.BackwardPropagation
import Verif.Spec.Solver
import Verif.Proofs.FullSVD
import Verif.Props.MatrixOperations
import Verif.Props.AbsoluteOrientation
import Mathlib.LinearAlgebra.Matrix.PosDef
import Mathlib.Analysis.Real.Sqrt
import Mathlib.Algebra.Order.Star.Real

/-!
# Backward propagation of covariance
-/

namespace Ubitrack
open Spec BackwardPropagation MatrixOperations
open scoped Matrix

variable {m n : ℕ} [NeZero n]

lemma fillLower_syrkUpper (A R : Mat ℝ n n) : fillLower (syrkUpper A R) = Aᵀ * A := by
  ext r c
  have hs : (Aᵀ * A) c r = (Aᵀ * A) r c := by
    simp only [Matrix.mul_apply, Matrix.transpose_apply]
    exact Finset.sum_congr rfl fun i _ => mul_comm _ _
  unfold fillLower syrkUpper
  by_cases h : c < r
  · rw [if_pos h, if_pos h.le, hs]
  · rw [if_neg h, if_pos (not_lt.mp h)]

lemma scaleRows_eq (w : Vec ℝ n) (A : Mat ℝ n n) : scaleRows w A = Matrix.diagonal w * A := by
  ext r c
  rw [Matrix.diagonal_mul, scaleRows, mul_comm]

lemma gram_scaleRows (w : Vec ℝ n) (A R : Mat ℝ n n) :
    fillLower (syrkUpper (scaleRows w A) R) = Aᵀ * Matrix.diagonal (fun i => w i * w i) * A := by
  rw [fillLower_syrkUpper, scaleRows_eq, Matrix.transpose_mul, Matrix.diagonal_transpose, ← Matrix.diagonal_mul_diagonal]
  simp only [Matrix.mul_assoc]

/-- The three functions end in the same way. -/
noncomputable def finish (gesvd : Mat ℝ m n → Vec ℝ n × Mat ℝ m n × Mat ℝ n n) (c : ℝ) (R : Mat ℝ n n) (J : Mat ℝ m n) :
    Option (Mat ℝ n n) :=
  (pseudoValues c (gesvd J).1).map fun w => fillLower (syrkUpper (scaleRows w (gesvd J).2.2) R)

lemma identity_eq (gesvd : Mat ℝ m n → Vec ℝ n × Mat ℝ m n × Mat ℝ n n) (R : Mat ℝ n n) {s : ℝ} (hs : 0 ≤ s) (J : Mat ℝ m n) :
    backwardPropagationIdentity gesvd R s J = finish gesvd (Real.sqrt s) R J := by
  unfold backwardPropagationIdentity finish
  simp only [if_neg (not_lt.mpr hs)]

section svd

variable {v : Vec ℝ n} {U : Mat ℝ m n} {V : Mat ℝ n n}

lemma svd_mulVec_sq (hU : Uᵀ * U = 1) (x : Vec ℝ n) :
    (U * Matrix.diagonal v * V) *ᵥ x ⬝ᵥ (U * Matrix.diagonal v * V) *ᵥ x = ∑ i, (v i * (V *ᵥ x) i) ^ 2 := by
  have h1 : (U * Matrix.diagonal v * V) *ᵥ x = U *ᵥ (Matrix.diagonal v *ᵥ (V *ᵥ x)) := by simp [Matrix.mulVec_mulVec, Matrix.mul_assoc]
  rw [h1, Matrix.dotProduct_mulVec, ← Matrix.mulVec_transpose, Matrix.mulVec_mulVec, hU, Matrix.one_mulVec, dotProduct]
  refine Finset.sum_congr rfl fun i _ => ?_
  rw [Matrix.mulVec_diagonal]
  ring

lemma row_of_orthogonal (hV : V * Vᵀ = 1) (i : Fin n) : V *ᵥ V i = Pi.single i 1 := by
  funext j
  have : (V * Vᵀ) j i = (1 : Mat ℝ n n) j i := by rw [hV]
  rw [Matrix.mul_apply] at this
  simp only [Matrix.transpose_apply] at this
  rw [Matrix.mulVec, dotProduct, this, Matrix.one_apply, Pi.single_apply]

lemma svd_row_sq (hU : Uᵀ * U = 1) (hV : V * Vᵀ = 1) (i : Fin n) :
    (U * Matrix.diagonal v * V) *ᵥ V i ⬝ᵥ (U * Matrix.diagonal v * V) *ᵥ V i = v i ^ 2 := by
  rw [svd_mulVec_sq hU, row_of_orthogonal hV, Finset.sum_eq_single i]
  · simp
  · intro j _ hj; simp [hj]
  · simp

lemma svd_ker (hU : Uᵀ * U = 1) (z : Vec ℝ n) (hz : (U * Matrix.diagonal v * V) *ᵥ z = 0) (i : Fin n) : v i * (V *ᵥ z) i = 0 := by
  have h := svd_mulVec_sq (v := v) (V := V) hU z
  rw [hz, dotProduct_zero] at h
  have := (Finset.sum_eq_zero_iff_of_nonneg fun j _ => sq_nonneg _).mp h.symm i (Finset.mem_univ i)
  exact pow_eq_zero_iff (two_ne_zero) |>.mp this

lemma row_unit (hV : V * Vᵀ = 1) (i : Fin n) : V i ⬝ᵥ V i = 1 := by
  have := congrFun (row_of_orthogonal hV i) i
  simpa [Matrix.mulVec] using this

lemma pseudoValues_resolvable (hd : Antitone v) (h0 : ∀ i, 0 ≤ v i) (hU : Uᵀ * U = 1) (hV : V * Vᵀ = 1)
    (hr : Resolvable (U * Matrix.diagonal v * V)) (hv : v 0 ≠ 0) (c : ℝ) :
    pseudoValues c v = some fun i => c * (v i)⁻¹ := by
  unfold pseudoValues
  rw [if_neg hv]
  have hp : 0 < v 0 := lt_of_le_of_ne (h0 0) (Ne.symm hv)
  refine congrArg some ?_
  funext i
  by_cases hi : v i = 0
  · rw [if_pos (by rw [hi]; positivity), hi, inv_zero, mul_zero]
  · have := hr (V i) (V 0) (row_unit hV i) (row_unit hV 0) (fun z hz => by
      have := svd_ker hU z hz i
      rcases mul_eq_zero.mp this with h | h
      · exact absurd h hi
      · exact h)
    rw [svd_row_sq hU hV, svd_row_sq hU hV] at this
    rw [if_neg, div_eq_mul_inv]
    rw [not_lt]
    have h1 : (v 0 * 1e-8) ^ 2 ≤ v i ^ 2 := by
      calc (v 0 * 1e-8) ^ 2 = 1e-16 * v 0 ^ 2 := by ring
        _ ≤ _ := this
    exact (sq_le_sq₀ (by positivity) (h0 i)).mp h1

end svd

lemma svd_zero_iff {v : Vec ℝ n} {U : Mat ℝ m n} {V : Mat ℝ n n} (hd : Antitone v) (h0 : ∀ i, 0 ≤ v i) (hU : Uᵀ * U = 1)
    (hV : V * Vᵀ = 1) : v 0 = 0 ↔ U * Matrix.diagonal v * V = 0 := by
  constructor
  · intro h
    have : v = 0 := by
      funext i
      have h1 : v i ≤ v 0 := hd (Fin.zero_le i)
      exact le_antisymm (h1.trans h.le) (h0 i)
    rw [this]
    simp
  · intro h
    have := svd_row_sq (v := v) hU hV 0
    rw [h] at this
    simpa using this.symm

/-- The result for a resolvable Jacobian, by the pseudo-inverse. -/
lemma finish_eq (gesvd : Mat ℝ m n → Vec ℝ n × Mat ℝ m n × Mat ℝ n n) (hg : ThinSVD gesvd) (c : ℝ) (R : Mat ℝ n n) (J : Mat ℝ m n)
    (hJ : J ≠ 0) (hr : Resolvable J) (P : Mat ℝ n m) (hP : MoorePenrose J P) :
    finish gesvd c R J = some (c ^ 2 • (P * Pᵀ)) := by
  obtain ⟨hd, h0, hU, hV, hA⟩ := hg J
  have hP' := C60_unique J P _ hP (C60_pseudo_inverse gesvd hg J)
  unfold finish
  generalize hv : (gesvd J).1 = v at *
  generalize hu : (gesvd J).2.1 = U at *
  generalize hw : (gesvd J).2.2 = V at *
  have hV' : Vᵀ * V = 1 := mul_eq_one_comm.mp hV
  have hP2 : P = Vᵀ * Matrix.diagonal (fun i => (v i)⁻¹) * Uᵀ := by
    refine C60_unique J P _ hP ?_
    rw [hA]
    have hvi : ∀ i, v i * (v i)⁻¹ * v i = v i := fun i => by
      by_cases h : v i = 0
      · simp [h]
      · field_simp
    have hvi2 : ∀ i, (v i)⁻¹ * v i * (v i)⁻¹ = (v i)⁻¹ := fun i => by
      by_cases h : v i = 0
      · simp [h]
      · field_simp
    have e1 : U * Matrix.diagonal v * V * (Vᵀ * Matrix.diagonal (fun i => (v i)⁻¹) * Uᵀ) =
        U * Matrix.diagonal (fun i => v i * (v i)⁻¹) * Uᵀ := by
      rw [← Matrix.diagonal_mul_diagonal]
      calc _ = U * Matrix.diagonal v * (V * Vᵀ) * Matrix.diagonal (fun i => (v i)⁻¹) * Uᵀ := by simp only [Matrix.mul_assoc]
        _ = _ := by rw [hV, Matrix.mul_one]; simp only [Matrix.mul_assoc]
    have e2 : Vᵀ * Matrix.diagonal (fun i => (v i)⁻¹) * Uᵀ * (U * Matrix.diagonal v * V) =
        Vᵀ * Matrix.diagonal (fun i => (v i)⁻¹ * v i) * V := by
      rw [← Matrix.diagonal_mul_diagonal]
      calc _ = Vᵀ * Matrix.diagonal (fun i => (v i)⁻¹) * (Uᵀ * U) * Matrix.diagonal v * V := by simp only [Matrix.mul_assoc]
        _ = _ := by rw [hU, Matrix.mul_one]; simp only [Matrix.mul_assoc]
    refine ⟨?_, ?_, ?_, ?_⟩
    · rw [e1]
      calc _ = U * Matrix.diagonal (fun i => v i * (v i)⁻¹) * (Uᵀ * U) * Matrix.diagonal v * V := by simp only [Matrix.mul_assoc]
        _ = U * (Matrix.diagonal (fun i => v i * (v i)⁻¹) * Matrix.diagonal v) * V := by
          rw [hU, Matrix.mul_one]; simp only [Matrix.mul_assoc]
        _ = _ := by rw [Matrix.diagonal_mul_diagonal]; simp only [hvi]
    · rw [e2]
      calc _ = Vᵀ * Matrix.diagonal (fun i => (v i)⁻¹ * v i) * (V * Vᵀ) * Matrix.diagonal (fun i => (v i)⁻¹) * Uᵀ := by
            simp only [Matrix.mul_assoc]
        _ = Vᵀ * (Matrix.diagonal (fun i => (v i)⁻¹ * v i) * Matrix.diagonal (fun i => (v i)⁻¹)) * Uᵀ := by
          rw [hV, Matrix.mul_one]; simp only [Matrix.mul_assoc]
        _ = _ := by rw [Matrix.diagonal_mul_diagonal]; simp only [hvi2]
    · rw [e1]; simp [Matrix.transpose_mul, Matrix.mul_assoc]
    · rw [e2]; simp [Matrix.transpose_mul, Matrix.mul_assoc]
  have hv0 : v 0 ≠ 0 := fun h => hJ (by rw [hA]; exact (svd_zero_iff hd h0 hU hV).mp h)
  rw [hA] at hr
  rw [pseudoValues_resolvable hd h0 hU hV hr hv0, Option.map_some, gram_scaleRows, hP2]
  congr 1
  have e : Vᵀ * Matrix.diagonal (fun i => (v i)⁻¹) * Uᵀ * (Vᵀ * Matrix.diagonal (fun i => (v i)⁻¹) * Uᵀ)ᵀ =
      Vᵀ * Matrix.diagonal (fun i => (v i)⁻¹ * (v i)⁻¹) * V := by
    rw [← Matrix.diagonal_mul_diagonal]
    simp only [Matrix.transpose_mul, Matrix.transpose_transpose, Matrix.diagonal_transpose]
    calc _ = Vᵀ * Matrix.diagonal (fun i => (v i)⁻¹) * (Uᵀ * U) * Matrix.diagonal (fun i => (v i)⁻¹) * V := by simp only [Matrix.mul_assoc]
      _ = _ := by rw [hU, Matrix.mul_one]; simp only [Matrix.mul_assoc]
  rw [e]
  have : (fun i => c * (v i)⁻¹ * (c * (v i)⁻¹)) = c ^ 2 • fun i => (v i)⁻¹ * (v i)⁻¹ := by
    funext i
    simp only [Pi.smul_apply, smul_eq_mul]
    ring
  rw [this, Matrix.diagonal_smul, Matrix.mul_smul, Matrix.smul_mul]

/-- **C72** Whatever the Jacobian and the previous content of the result: there is a result exactly when the factor is not
negative and the Jacobian is not zero, and it is symmetric and positive semidefinite. A direction that does not change the
measurement has no variance in it. -/
theorem C72_identity_valid (gesvd : Mat ℝ m n → Vec ℝ n × Mat ℝ m n × Mat ℝ n n) (hg : ThinSVD gesvd) (R : Mat ℝ n n) (s : ℝ)
    (J : Mat ℝ m n) :
    ((backwardPropagationIdentity gesvd R s J).isSome ↔ 0 ≤ s ∧ J ≠ 0) ∧
    ∀ C ∈ backwardPropagationIdentity gesvd R s J, C.PosSemidef ∧ ∀ x, J *ᵥ x = 0 → C *ᵥ x = 0 := by
  obtain ⟨hd, h0, hU, hV, hA⟩ := hg J
  have hz : (gesvd J).1 0 = 0 ↔ J = 0 := by
    conv_rhs => rw [hA]
    exact svd_zero_iff hd h0 hU hV
  by_cases hs : s < 0
  · have e : backwardPropagationIdentity gesvd R s J = none := by simp [backwardPropagationIdentity, hs]
    rw [e]
    simp [hs]
  · rw [identity_eq gesvd R (not_lt.mp hs)]
    unfold finish
    constructor
    · rw [Option.isSome_map]
      unfold pseudoValues
      split_ifs with h
      · simp [hz.mp h]
      · simp only [Option.isSome_some, true_iff]
        exact ⟨not_lt.mp hs, fun h' => h (hz.mpr h')⟩
    · intro C hC
      rw [Option.mem_def, Option.map_eq_some_iff] at hC
      obtain ⟨w, hw, rfl⟩ := hC
      constructor
      · rw [fillLower_syrkUpper]
        have := Matrix.posSemidef_conjTranspose_mul_self (scaleRows w (gesvd J).2.2)
        simpa using this
      · intro x hx
        rw [gram_scaleRows, ← Matrix.mulVec_mulVec, ← Matrix.mulVec_mulVec]
        have : Matrix.diagonal (fun i => w i * w i) *ᵥ ((gesvd J).2.2 *ᵥ x) = 0 := by
          funext i
          rw [Matrix.mulVec_diagonal]
          rw [hA] at hx
          have h2 := svd_ker hU x hx i
          rcases mul_eq_zero.mp h2 with h | h
          · unfold pseudoValues at hw
            split_ifs at hw with h3
            have : w i = 0 := by
              have := Option.some_injective _ hw
              rw [← this]
              have hp : 0 < (gesvd J).1 0 := lt_of_le_of_ne (h0 0) (Ne.symm h3)
              dsimp only
              rw [if_pos (by rw [h]; positivity)]
            simp [this]
          · simp [h]
        rw [this, Matrix.mulVec_zero]

/-- **C72** When all directions that matter are resolved, the covariance is that of the measurement, `s` times the identity,
carried over by the pseudo-inverse of the Jacobian: the covariance of the least squares estimate. -/
theorem C72_identity (gesvd : Mat ℝ m n → Vec ℝ n × Mat ℝ m n × Mat ℝ n n) (hg : ThinSVD gesvd) (R : Mat ℝ n n) (s : ℝ) (hs : 0 ≤ s)
    (J : Mat ℝ m n) (hJ : J ≠ 0) (hr : Resolvable J) (P : Mat ℝ n m) (hP : MoorePenrose J P) :
    backwardPropagationIdentity gesvd R s J = some (P * (s • (1 : Mat ℝ m m)) * Pᵀ) := by
  rw [identity_eq gesvd R hs, finish_eq gesvd hg _ R J hJ hr P hP, Real.sq_sqrt hs]
  simp

lemma gram_of_determined {J : Mat ℝ m n} (hd : Determined J) (P : Mat ℝ n m) (hP : MoorePenrose J P) : P * J = 1 := by
  obtain ⟨h1, _, _, _⟩ := hP
  have : ∀ x, (P * J - 1) *ᵥ x = 0 := fun x => by
    apply hd
    rw [Matrix.mulVec_mulVec, Matrix.mul_sub, Matrix.mul_one, ← Matrix.mul_assoc, h1, sub_self, Matrix.zero_mulVec]
  have h : P * J - 1 = 0 := by
    ext i j
    have := congrFun (this (Pi.single j 1)) i
    simpa using this
  exact sub_eq_zero.mp h

lemma gram_inverse {J : Mat ℝ m n} (hd : Determined J) (P : Mat ℝ n m) (hP : MoorePenrose J P) : P * Pᵀ * (Jᵀ * J) = 1 := by
  have h := gram_of_determined hd P hP
  obtain ⟨h1, h2, h3, h4⟩ := hP
  calc P * Pᵀ * (Jᵀ * J) = P * (J * P)ᵀ * J := by rw [Matrix.transpose_mul]; simp only [Matrix.mul_assoc]
    _ = P * J * (P * J) := by rw [h3]; simp only [Matrix.mul_assoc]
    _ = 1 := by rw [h, Matrix.mul_one]

lemma ne_zero_of_determined {J : Mat ℝ m n} (hd : Determined J) : J ≠ 0 := by
  intro h
  have := hd (Pi.single 0 1) (by rw [h, Matrix.zero_mulVec])
  have := congrFun this 0
  simp at this

/-- The pseudo-inverse exists. -/
lemma exists_pinv (gesvd : Mat ℝ m n → Vec ℝ n × Mat ℝ m n × Mat ℝ n n) (hg : ThinSVD gesvd) (J : Mat ℝ m n) : ∃ P, MoorePenrose J P :=
  ⟨_, C60_pseudo_inverse gesvd hg J⟩

/-- **C72** When the measurements determine the parameters, the result is the inverse of the information. -/
theorem C72_identity_inverse (gesvd : Mat ℝ m n → Vec ℝ n × Mat ℝ m n × Mat ℝ n n) (hg : ThinSVD gesvd) (R : Mat ℝ n n) (s : ℝ)
    (hs : 0 < s) (J : Mat ℝ m n) (hr : Resolvable J) (hd : Determined J) :
    ∃ C, backwardPropagationIdentity gesvd R s J = some C ∧ ParameterCovariance J (s • 1) C := by
  obtain ⟨P, hP⟩ := exists_pinv gesvd hg J
  refine ⟨_, C72_identity gesvd hg R s hs.le J (ne_zero_of_determined hd) hr P hP, ?_⟩
  unfold ParameterCovariance
  have hi : (s • (1 : Mat ℝ m m))⁻¹ = s⁻¹ • 1 := by
    apply Matrix.inv_eq_right_inv
    simp only [Matrix.mul_smul, Matrix.mul_one, smul_smul]
    rw [inv_mul_cancel₀ hs.ne', one_smul]
  rw [hi]
  simp only [Matrix.mul_smul, Matrix.smul_mul, Matrix.mul_one, smul_smul]
  rw [inv_mul_cancel₀ hs.ne', one_smul]
  exact gram_inverse hd P hP

lemma scaleFirst_eq (k : ℕ) (w : Vec ℝ m) (A : Mat ℝ m n) :
    scaleFirstRows k w A = Matrix.diagonal (fun i : Fin m => if i.val < k then w i else 1) * A := by
  ext r c
  rw [Matrix.diagonal_mul, scaleFirstRows]
  split_ifs
  · rw [mul_comm]
  · rw [one_mul]

lemma determined_scale {d : Vec ℝ m} (hd : ∀ i, d i ≠ 0) {J : Mat ℝ m n} (h : Determined J) : Determined (Matrix.diagonal d * J) := by
  intro x hx
  apply h
  funext i
  rw [← Matrix.mulVec_mulVec] at hx
  have := congrFun hx i
  rw [Matrix.mulVec_diagonal, Pi.zero_apply, mul_eq_zero] at this
  exact this.resolve_left (hd i)

/-- **C72** Diagonal covariance, under the condition the code needs: all measurements from the number of parameters on have
variance one (in particular when there are as many measurements as parameters). Missing: other variances, which the code does
not read. -/
theorem C72_diagonal_partial (gesvd : Mat ℝ m n → Vec ℝ n × Mat ℝ m n × Mat ℝ n n) (hg : ThinSVD gesvd) (R : Mat ℝ n n)
    (e : Vec ℝ m) (he : ∀ i, 0 < e i) (he1 : ∀ i : Fin m, n ≤ i.val → e i = 1) (J : Mat ℝ m n)
    (hr : Resolvable (Matrix.diagonal (fun i => 1 / Real.sqrt (e i)) * J)) (hd : Determined J) :
    ∃ C, backwardPropagationDiagonal gesvd R e J = some C ∧ ParameterCovariance J (Matrix.diagonal e) C := by
  have hfull : scaleFirstRows n (fun i => 1 / Real.sqrt (e i)) J = Matrix.diagonal (fun i => 1 / Real.sqrt (e i)) * J := by
    rw [scaleFirst_eq]
    congr 2
    funext i
    split_ifs with h
    · rfl
    · rw [he1 i (not_lt.mp h), Real.sqrt_one, div_one]
  have hdd : Determined (Matrix.diagonal (fun i => 1 / Real.sqrt (e i)) * J) :=
    determined_scale (fun i => by have := Real.sqrt_pos.mpr (he i); positivity) hd
  obtain ⟨P, hP⟩ := exists_pinv gesvd hg (Matrix.diagonal (fun i => 1 / Real.sqrt (e i)) * J)
  have h1 := finish_eq gesvd hg 1 R _ (ne_zero_of_determined hdd) hr P hP
  refine ⟨P * Pᵀ, ?_, ?_⟩
  · unfold backwardPropagationDiagonal
    rw [if_neg (by push Not; intro i _; exact he i), hfull]
    unfold finish at h1
    simp only [one_pow, one_smul] at h1
    exact h1
  · unfold ParameterCovariance
    have := gram_inverse hdd P hP
    rw [← this]
    congr 1
    rw [Matrix.transpose_mul, Matrix.diagonal_transpose]
    have hi : (Matrix.diagonal e)⁻¹ = Matrix.diagonal (fun i => 1 / Real.sqrt (e i)) * Matrix.diagonal (fun i => 1 / Real.sqrt (e i)) := by
      apply Matrix.inv_eq_right_inv
      rw [Matrix.diagonal_mul_diagonal, Matrix.diagonal_mul_diagonal, ← Matrix.diagonal_one]
      congr 1
      funext i
      have h2 := Real.mul_self_sqrt (he i).le
      have h3 := Real.sqrt_pos.mpr (he i)
      field_simp
      rw [sq]
      exact h2.symm
    rw [hi]
    simp only [Matrix.mul_assoc]

lemma finish_inverse (gesvd : Mat ℝ m n → Vec ℝ n × Mat ℝ m n × Mat ℝ n n) (hg : ThinSVD gesvd) (R : Mat ℝ n n) (J : Mat ℝ m n)
    (hr : Resolvable J) (hd : Determined J) : ∃ C, finish gesvd 1 R J = some C ∧ C * (Jᵀ * J) = 1 := by
  obtain ⟨P, hP⟩ := exists_pinv gesvd hg J
  refine ⟨P * Pᵀ, ?_, gram_inverse hd P hP⟩
  have := finish_eq gesvd hg 1 R J (ne_zero_of_determined hd) hr P hP
  simpa using this

lemma resolvable_one_column (J : Mat ℝ m 1) : Resolvable J := by
  intro x y hx hy _
  have hm : ∀ z : Vec ℝ 1, J *ᵥ z ⬝ᵥ J *ᵥ z = (z ⬝ᵥ z) * ∑ i, J i 0 * J i 0 := by
    intro z
    simp only [dotProduct, Matrix.mulVec, Finset.univ_unique, Fin.default_eq_zero, Fin.isValue, Finset.sum_singleton]
    rw [Finset.mul_sum]
    exact Finset.sum_congr rfl fun i _ => by ring
  rw [hm, hm, hx, hy, one_mul]
  have : 0 ≤ ∑ i, J i 0 * J i 0 := Finset.sum_nonneg fun i _ => mul_self_nonneg _
  linarith

/-- **C72** (refuted) Two measurements of one parameter, each with variance four: the variance of the parameter is two, the
code returns 4/5, because it only divides the first measurement by its standard deviation. -/
theorem C72_diagonal_refuted (gesvd : Mat ℝ 2 1 → Vec ℝ 1 × Mat ℝ 2 1 × Mat ℝ 1 1) (hg : ThinSVD gesvd) (R : Mat ℝ 1 1) :
    backwardPropagationDiagonal gesvd R ![4, 4] !![1; 1] = some !![4 / 5] ∧
    ParameterCovariance (!![1; 1] : Mat ℝ 2 1) (Matrix.diagonal ![4, 4]) !![2] ∧
    ¬ ParameterCovariance (!![1; 1] : Mat ℝ 2 1) (Matrix.diagonal ![4, 4]) !![4 / 5] := by
  have hs : Real.sqrt 4 = 2 := by
    rw [show (4 : ℝ) = 2 ^ 2 by norm_num]
    exact Real.sqrt_sq (by norm_num)
  have hi : (Matrix.diagonal ![4, 4] : Mat ℝ 2 2)⁻¹ = Matrix.diagonal ![1 / 4, 1 / 4] := by
    apply Matrix.inv_eq_right_inv
    rw [Matrix.diagonal_mul_diagonal, ← Matrix.diagonal_one]
    congr 1
    funext i
    fin_cases i <;> norm_num
  refine ⟨?_, ?_, ?_⟩
  · have hJ : scaleFirstRows 1 (fun i => 1 / Real.sqrt ((![4, 4] : Vec ℝ 2) i)) (!![1; 1] : Mat ℝ 2 1) = !![1 / 2; 1] := by
      ext i j
      fin_cases i <;> fin_cases j <;> simp [scaleFirstRows, hs]
    obtain ⟨C, h1, h2⟩ := finish_inverse gesvd hg R (!![1 / 2; 1] : Mat ℝ 2 1) (resolvable_one_column _) (by
      intro x hx
      have := congrFun hx 1
      simp [Matrix.mulVec, dotProduct] at this
      funext i
      fin_cases i
      exact this)
    unfold backwardPropagationDiagonal
    rw [if_neg (by push Not; intro i _; fin_cases i <;> norm_num), hJ]
    unfold finish at h1
    refine h1.trans ?_
    have h3 := congrFun (congrFun h2 0) 0
    simp [Matrix.mul_apply, Fin.sum_univ_two] at h3
    refine congrArg some ?_
    ext i j
    fin_cases i
    fin_cases j
    simp
    linarith
  · unfold ParameterCovariance
    rw [hi]
    ext i j
    fin_cases i
    fin_cases j
    simp [Matrix.mul_apply, Fin.sum_univ_two]
    norm_num
  · unfold ParameterCovariance
    rw [hi]
    intro h
    have h3 := congrFun (congrFun h 0) 0
    simp [Matrix.mul_apply, Fin.sum_univ_two] at h3
    norm_num at h3

/-- **C72** The general function, for a covariance that is a multiple of the identity and as many measurements as parameters
(or the identity itself). Missing: every other covariance, see `C72_general_refuted`. -/
theorem C72_general_partial (syev : Mat ℝ m m → Option (Vec ℝ m × Mat ℝ m m)) (he : SymmetricEigensolver syev)
    (hc : SymmetricConvergent syev) (gesvd : Mat ℝ m n → Vec ℝ n × Mat ℝ m n × Mat ℝ n n) (hg : ThinSVD gesvd) (hm : n ≤ m)
    (R : Mat ℝ n n) (s : ℝ) (hs : 0 < s) (hms : m = n ∨ s = 1) (J : Mat ℝ m n) (hr : Resolvable J) (hd : Determined J) :
    ∃ C, backwardPropagation syev gesvd hm R (s • 1) J = some C ∧ ParameterCovariance J (s • 1) C := by
  have hsym : (s • (1 : Mat ℝ m m)).IsSymm := by simp [Matrix.IsSymm]
  obtain ⟨⟨W, Q⟩, hWQ⟩ := hc _ hsym
  obtain ⟨_, hQ, hE⟩ := he _ hsym W Q hWQ
  have hW : ∀ k, W k = s := by
    intro k
    have h1 := hE k
    rw [Matrix.smul_mulVec, Matrix.one_mulVec] at h1
    have h2 : (fun i => Q i k) ⬝ᵥ (fun i => Q i k) = 1 := by
      have := congrFun (congrFun hQ k) k
      simpa [Matrix.mul_apply, dotProduct] using this
    have h3 := congrArg (fun z => z ⬝ᵥ (fun i => Q i k)) h1
    simp only [smul_dotProduct, h2, smul_eq_mul, mul_one] at h3
    exact h3.symm
  have hq := Real.sqrt_pos.mpr hs
  have hJ : scaleFirstRows n (fun i => if W i < W (Fin.castLE hm 0) * 1e-8 then 0 else 1 / Real.sqrt (W i)) (Q * J) =
      (1 / Real.sqrt s) • (Q * J) := by
    ext r c
    simp only [scaleFirstRows, hW, Matrix.smul_apply, smul_eq_mul]
    rw [if_neg (by linarith : ¬ s < s * 1e-8)]
    split_ifs with h
    · ring
    · rcases hms with h' | h'
      · exact absurd (h' ▸ r.isLt) h
      · rw [h', Real.sqrt_one]; ring
  have hnorm : ∀ x, ((1 / Real.sqrt s) • (Q * J)) *ᵥ x ⬝ᵥ ((1 / Real.sqrt s) • (Q * J)) *ᵥ x = 1 / s * (J *ᵥ x ⬝ᵥ J *ᵥ x) := by
    intro x
    rw [Matrix.smul_mulVec, smul_dotProduct, dotProduct_smul, ← Matrix.mulVec_mulVec, Matrix.dotProduct_mulVec, ← Matrix.mulVec_transpose,
      Matrix.mulVec_mulVec, hQ, Matrix.one_mulVec, smul_eq_mul, smul_eq_mul, ← mul_assoc]
    congr 1
    have := Real.mul_self_sqrt hs.le
    rw [div_mul_div_comm, this, one_mul]
  have hker : ∀ x, ((1 / Real.sqrt s) • (Q * J)) *ᵥ x = 0 → J *ᵥ x = 0 := by
    intro x hx
    have h1 := hnorm x
    rw [hx, dotProduct_zero] at h1
    have h2 : J *ᵥ x ⬝ᵥ J *ᵥ x = 0 := by
      rcases mul_eq_zero.mp h1.symm with h | h
      · exact absurd h (by positivity)
      · exact h
    exact dotProduct_self_eq_zero.mp h2
  obtain ⟨C, h1, h2⟩ := finish_inverse gesvd hg R ((1 / Real.sqrt s) • (Q * J)) (by
    intro x y hx hy hz
    rw [hnorm, hnorm]
    have := hr x y hx hy (fun z h => hz z (by rw [Matrix.smul_mulVec, ← Matrix.mulVec_mulVec, h, Matrix.mulVec_zero, smul_zero]))
    have h3 : 0 < 1 / s := by positivity
    nlinarith) (fun x hx => hd x (hker x hx))
  refine ⟨C, ?_, ?_⟩
  · unfold backwardPropagation
    rw [hWQ]
    simp only [Option.bind_eq_bind, Option.bind_some]
    rw [if_neg (by push Not; intro i _ _; rw [hW]; exact hs), hJ]
    exact h1
  · unfold ParameterCovariance
    rw [← h2]
    congr 1
    have hi : (s • (1 : Mat ℝ m m))⁻¹ = s⁻¹ • 1 := by
      apply Matrix.inv_eq_right_inv
      simp only [Matrix.mul_smul, Matrix.mul_one, smul_smul]
      rw [inv_mul_cancel₀ hs.ne', one_smul]
    rw [hi]
    simp only [Matrix.transpose_smul, Matrix.transpose_mul, Matrix.mul_smul, Matrix.smul_mul, Matrix.mul_one, smul_smul]
    rw [div_mul_div_comm, Real.mul_self_sqrt hs.le, one_mul, one_div]
    congr 1
    calc Jᵀ * J = Jᵀ * (Qᵀ * Q) * J := by rw [hQ, Matrix.mul_one]
      _ = _ := by simp only [Matrix.mul_assoc]

/-- **C72** (refuted) Three parameters measured directly with variances 2, 3 and 1. The covariance of the parameters is that of
the measurements; the code returns the variances 3, 1 and 2, whatever eigenvectors LAPACK chooses. -/
theorem C72_general_refuted (syev : Mat ℝ 3 3 → Option (Vec ℝ 3 × Mat ℝ 3 3)) (he : SymmetricEigensolver syev)
    (hc : SymmetricConvergent syev) (gesvd : Mat ℝ 3 3 → Vec ℝ 3 × Mat ℝ 3 3 × Mat ℝ 3 3) (hg : ThinSVD gesvd) (R : Mat ℝ 3 3) :
    backwardPropagation syev gesvd le_rfl R (Matrix.diagonal ![2, 3, 1]) 1 = some (Matrix.diagonal ![3, 1, 2]) ∧
    ParameterCovariance (1 : Mat ℝ 3 3) (Matrix.diagonal ![2, 3, 1]) (Matrix.diagonal ![2, 3, 1]) ∧
    ¬ ParameterCovariance (1 : Mat ℝ 3 3) (Matrix.diagonal ![2, 3, 1]) (Matrix.diagonal ![3, 1, 2]) := by
  have hi : (Matrix.diagonal ![2, 3, 1] : Mat ℝ 3 3)⁻¹ = Matrix.diagonal ![1 / 2, 1 / 3, 1] := by
    apply Matrix.inv_eq_right_inv
    rw [Matrix.diagonal_mul_diagonal, ← Matrix.diagonal_one]
    congr 1
    funext i
    fin_cases i <;> norm_num
  refine ⟨?_, ?_, ?_⟩
  · have hsym : (Matrix.diagonal ![2, 3, 1] : Mat ℝ 3 3).IsSymm := by simp [Matrix.IsSymm]
    obtain ⟨⟨W, Q⟩, hWQ⟩ := hc _ hsym
    obtain ⟨hmono, hQ, hE⟩ := he _ hsym W Q hWQ
    have hQ' : Q * Qᵀ = 1 := mul_eq_one_comm.mp hQ
    have hz : ∀ i k, ((![2, 3, 1] : Vec ℝ 3) i - W k) * Q i k = 0 := by
      intro i k
      have := congrFun (hE k) i
      rw [Matrix.mulVec_diagonal, Pi.smul_apply, smul_eq_mul] at this
      linarith
    have hcol : ∀ k, Q 0 k * Q 0 k + Q 1 k * Q 1 k + Q 2 k * Q 2 k = 1 := by
      intro k
      have := congrFun (congrFun hQ k) k
      simpa [Matrix.mul_apply, Fin.sum_univ_three] using this
    have hrow : ∀ k, Q k 0 * Q k 0 + Q k 1 * Q k 1 + Q k 2 * Q k 2 = 1 := by
      intro k
      have := congrFun (congrFun hQ' k) k
      simpa [Matrix.mul_apply, Fin.sum_univ_three] using this
    have m01 : W 0 ≤ W 1 := hmono (by decide)
    have m12 : W 1 ≤ W 2 := hmono (by decide)
    have hval : ∀ i, ∃ k, W k = (![2, 3, 1] : Vec ℝ 3) i := by
      intro i
      by_contra h
      push Not at h
      have hz' : ∀ k, Q i k = 0 := fun k => by
        rcases mul_eq_zero.mp (hz i k) with h' | h'
        · exact absurd (sub_eq_zero.mp h').symm (h k)
        · exact h'
      have := hrow i
      simp [hz'] at this
    obtain ⟨a, ha⟩ := hval 0
    obtain ⟨b, hb⟩ := hval 1
    obtain ⟨c, hc'⟩ := hval 2
    change W a = 2 at ha
    change W b = 3 at hb
    change W c = 1 at hc'
    have hW : W 0 = 1 ∧ W 1 = 2 ∧ W 2 = 3 := by
      fin_cases a <;> fin_cases b <;> fin_cases c <;> simp at ha hb hc' <;> constructor <;> (try constructor) <;> linarith
    obtain ⟨w0, w1, w2⟩ := hW
    have z := hz
    have e0 : (![2, 3, 1] : Vec ℝ 3) 0 = 2 := rfl
    have e1 : (![2, 3, 1] : Vec ℝ 3) 1 = 3 := rfl
    have e2 : (![2, 3, 1] : Vec ℝ 3) 2 = 1 := rfl
    have q00 : Q 0 0 = 0 := by have := z 0 0; rw [e0, w0] at this; linarith
    have q10 : Q 1 0 = 0 := by have := z 1 0; rw [e1, w0] at this; linarith
    have q11 : Q 1 1 = 0 := by have := z 1 1; rw [e1, w1] at this; linarith
    have q21 : Q 2 1 = 0 := by have := z 2 1; rw [e2, w1] at this; linarith
    have q02 : Q 0 2 = 0 := by have := z 0 2; rw [e0, w2] at this; linarith
    have q22 : Q 2 2 = 0 := by have := z 2 2; rw [e2, w2] at this; linarith
    have s20 : Q 2 0 * Q 2 0 = 1 := by have := hcol 0; rw [q00, q10] at this; linarith
    have s01 : Q 0 1 * Q 0 1 = 1 := by have := hcol 1; rw [q11, q21] at this; linarith
    have s12 : Q 1 2 * Q 1 2 = 1 := by have := hcol 2; rw [q02, q22] at this; linarith
    have r2 : 1 / Real.sqrt 2 * (1 / Real.sqrt 2) = 1 / 2 := by
      rw [div_mul_div_comm, Real.mul_self_sqrt (by norm_num)]; norm_num
    have r3 : 1 / Real.sqrt 3 * (1 / Real.sqrt 3) = 1 / 3 := by
      rw [div_mul_div_comm, Real.mul_self_sqrt (by norm_num)]; norm_num
    obtain ⟨u, hu⟩ : ∃ u, u = 1 / Real.sqrt 2 := ⟨_, rfl⟩
    obtain ⟨t, ht⟩ : ∃ t, t = 1 / Real.sqrt 3 := ⟨_, rfl⟩
    rw [← hu] at r2
    rw [← ht] at r3
    have hJ : scaleFirstRows 3 (fun i => if W i < W (Fin.castLE le_rfl 0) * 1e-8 then 0 else 1 / Real.sqrt (W i)) (Q * 1) =
        !![0, Q 0 1, 0; 0, 0, u * Q 1 2; t * Q 2 0, 0, 0] := by
      have c0 : (Fin.castLE (le_refl 3) 0 : Fin 3) = 0 := rfl
      rw [c0, w0, Matrix.mul_one]
      ext i j
      unfold scaleFirstRows
      rw [if_pos i.isLt]
      fin_cases i
      · change Q 0 j * (if W 0 < 1 * 1e-8 then 0 else 1 / Real.sqrt (W 0)) =
          (!![0, Q 0 1, 0; 0, 0, u * Q 1 2; t * Q 2 0, 0, 0] : Mat ℝ 3 3) 0 j
        rw [w0, if_neg (by norm_num), Real.sqrt_one]
        fin_cases j <;> simp [q00, q02]
      · change Q 1 j * (if W 1 < 1 * 1e-8 then 0 else 1 / Real.sqrt (W 1)) =
          (!![0, Q 0 1, 0; 0, 0, u * Q 1 2; t * Q 2 0, 0, 0] : Mat ℝ 3 3) 1 j
        rw [w1, if_neg (by norm_num), ← hu]
        fin_cases j <;> simp [q10, q11, mul_comm]
      · change Q 2 j * (if W 2 < 1 * 1e-8 then 0 else 1 / Real.sqrt (W 2)) =
          (!![0, Q 0 1, 0; 0, 0, u * Q 1 2; t * Q 2 0, 0, 0] : Mat ℝ 3 3) 2 j
        rw [w2, if_neg (by norm_num), ← ht]
        fin_cases j <;> simp [q21, q22, mul_comm]
    obtain ⟨J, hJ'⟩ : ∃ J : Mat ℝ 3 3, J = !![0, Q 0 1, 0; 0, 0, u * Q 1 2; t * Q 2 0, 0, 0] := ⟨_, rfl⟩
    have hnorm : ∀ x, J *ᵥ x ⬝ᵥ J *ᵥ x = 1 / 3 * x 0 ^ 2 + x 1 ^ 2 + 1 / 2 * x 2 ^ 2 := by
      intro x
      rw [hJ']
      simp only [dotProduct, Matrix.mulVec, Fin.sum_univ_three]
      simp
      linear_combination (x 1) ^ 2 * s01 + (u * u * x 2 ^ 2) * s12 + (t * t * x 0 ^ 2) * s20 + (x 2) ^ 2 * r2 + x 0 ^ 2 * r3
    obtain ⟨C, h1, h2⟩ := finish_inverse gesvd hg R J (by
      intro x y hx hy _
      rw [hnorm, hnorm]
      simp only [dotProduct, Fin.sum_univ_three] at hx hy
      nlinarith [sq_nonneg (x 0), sq_nonneg (x 1), sq_nonneg (x 2), sq_nonneg (y 0), sq_nonneg (y 1), sq_nonneg (y 2)]) (by
      intro x hx
      have := hnorm x
      rw [hx, dotProduct_zero] at this
      funext i
      have p0 := sq_nonneg (x 0)
      have p1 := sq_nonneg (x 1)
      have p2 := sq_nonneg (x 2)
      fin_cases i
      · exact pow_eq_zero_iff two_ne_zero |>.mp (by linarith : x 0 ^ 2 = 0)
      · exact pow_eq_zero_iff two_ne_zero |>.mp (by linarith : x 1 ^ 2 = 0)
      · exact pow_eq_zero_iff two_ne_zero |>.mp (by linarith : x 2 ^ 2 = 0))
    unfold backwardPropagation
    rw [hWQ]
    simp only [Option.bind_eq_bind, Option.bind_some]
    rw [if_neg (by push Not; intro i _ _; fin_cases i <;> simp [w0, w1, w2]), hJ, ← hJ']
    refine (show _ = some C from h1).trans ?_
    have hg3 : Jᵀ * J = Matrix.diagonal ![1 / 3, 1, 1 / 2] := by
      rw [hJ']
      ext i j
      fin_cases i <;> fin_cases j <;> simp [Matrix.mul_apply, Fin.sum_univ_three]
      · linear_combination (t * t) * s20 + r3
      · exact s01
      · linear_combination (u * u) * s12 + r2
    have h5 : Matrix.diagonal ![1 / 3, 1, 1 / 2] * Matrix.diagonal ![3, 1, 2] = (1 : Mat ℝ 3 3) := by
      rw [Matrix.diagonal_mul_diagonal, ← Matrix.diagonal_one]
      congr 1
      funext i
      fin_cases i <;> norm_num
    rw [hg3] at h2
    refine congrArg some ?_
    calc C = C * (Matrix.diagonal ![1 / 3, 1, 1 / 2] * Matrix.diagonal ![3, 1, 2]) := by rw [h5, Matrix.mul_one]
      _ = _ := by rw [← Matrix.mul_assoc, h2, Matrix.one_mul]
  · unfold ParameterCovariance
    rw [hi]
    simp only [Matrix.transpose_one, Matrix.one_mul, Matrix.mul_one]
    rw [Matrix.diagonal_mul_diagonal, ← Matrix.diagonal_one]
    congr 1
    funext i
    fin_cases i <;> norm_num
  · unfold ParameterCovariance
    rw [hi]
    intro h
    simp only [Matrix.transpose_one, Matrix.one_mul, Matrix.mul_one] at h
    rw [Matrix.diagonal_mul_diagonal] at h
    have := congrFun (congrFun h 0) 0
    rw [Matrix.diagonal_apply_eq, Matrix.one_apply_eq] at this
    norm_num at this

/-- A measurement of two parameters by three numbers that meets the conditions. -/
lemma example_jacobian (a b : ℝ) (ha : 1 / 10 ≤ a) (ha' : a ≤ 1) (hb : 1 / 10 ≤ b) (hb' : b ≤ 1) :
    Resolvable (!![a, 0; 0, b; 0, 0] : Mat ℝ 3 2) ∧ Determined (!![a, 0; 0, b; 0, 0] : Mat ℝ 3 2) := by
  have hn : ∀ x, (!![a, 0; 0, b; 0, 0] : Mat ℝ 3 2) *ᵥ x ⬝ᵥ (!![a, 0; 0, b; 0, 0] : Mat ℝ 3 2) *ᵥ x = a ^ 2 * x 0 ^ 2 + b ^ 2 * x 1 ^ 2 := by
    intro x
    simp [dotProduct, Matrix.mulVec, Fin.sum_univ_three, Fin.sum_univ_two]
    ring
  constructor
  · intro x y hx hy _
    rw [hn, hn]
    simp only [dotProduct, Fin.sum_univ_two] at hx hy
    have h1 : a ^ 2 ≤ 1 := by nlinarith
    have h2 : b ^ 2 ≤ 1 := by nlinarith
    have h3 : 1 / 100 ≤ a ^ 2 := by nlinarith
    have h4 : 1 / 100 ≤ b ^ 2 := by nlinarith
    nlinarith [sq_nonneg (x 0), sq_nonneg (x 1), sq_nonneg (y 0), sq_nonneg (y 1)]
  · intro x hx
    have h0 := congrFun hx 0
    have h1 := congrFun hx 1
    simp [Matrix.mulVec, dotProduct] at h0 h1
    funext i
    fin_cases i
    · exact h0.resolve_left (by linarith)
    · exact h1.resolve_left (by linarith)

/-- Routines that meet the contracts exist, and the hypotheses of the theorems can be met. -/
example : ∃ gesvd : Mat ℝ 3 2 → Vec ℝ 2 × Mat ℝ 3 2 × Mat ℝ 2 2, ThinSVD gesvd ∧
    (∃ C, backwardPropagationIdentity gesvd 0 3 !![1, 0; 0, 1 / 2; 0, 0] = some C ∧
      ParameterCovariance !![1, 0; 0, 1 / 2; 0, 0] ((3 : ℝ) • 1) C) ∧
    ∃ C, backwardPropagationDiagonal gesvd 0 ![4, 9, 1] !![1, 0; 0, 1; 0, 0] = some C ∧
      ParameterCovariance !![1, 0; 0, 1; 0, 0] (Matrix.diagonal ![4, 9, 1]) C := by
  obtain ⟨gesvd, hg⟩ := exists_thinSVD_tall (n := 3) (m := 2) (by norm_num)
  obtain ⟨h1, h2⟩ := example_jacobian 1 (1 / 2) (by norm_num) (by norm_num) (by norm_num) (by norm_num)
  obtain ⟨h3, h4⟩ := example_jacobian 1 1 (by norm_num) (by norm_num) (by norm_num) (by norm_num)
  obtain ⟨h5, h6⟩ := example_jacobian (1 / 2) (1 / 3) (by norm_num) (by norm_num) (by norm_num) (by norm_num)
  refine ⟨gesvd, hg, C72_identity_inverse gesvd hg 0 3 (by norm_num) _ h1 h2, ?_⟩
  refine C72_diagonal_partial gesvd hg 0 _ (by intro i; fin_cases i <;> norm_num) (by intro i hi; fin_cases i <;> simp at hi ⊢) _ ?_ h4
  convert h5
  have s4 : Real.sqrt 4 = 2 := by
    rw [show (4 : ℝ) = 2 ^ 2 by norm_num]
    exact Real.sqrt_sq (by norm_num)
  have s9 : Real.sqrt 9 = 3 := by
    rw [show (9 : ℝ) = 3 ^ 2 by norm_num]
    exact Real.sqrt_sq (by norm_num)
  ext i j
  rw [Matrix.diagonal_mul]
  fin_cases i <;> fin_cases j <;> simp [s4, s9]

end Ubitrack
