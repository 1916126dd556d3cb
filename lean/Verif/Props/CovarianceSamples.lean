import Verif.Props.Kalman

/-! # C28: propagated covariances are the covariances of the propagated samples -/

namespace Ubitrack.Stochastic

open Spec
open scoped Matrix

/-- The mean of finitely many samples. -/
noncomputable def sampleMean {ι : Type} [Fintype ι] {n : ℕ} (x : ι → Vec ℝ n) : Vec ℝ n :=
  fun a => (∑ i, x i a) / Fintype.card ι

/-- The covariance matrix of finitely many samples. -/
noncomputable def sampleCov {ι : Type} [Fintype ι] {n : ℕ} (x : ι → Vec ℝ n) : Mat ℝ n n :=
  Matrix.of fun a b => (∑ i, (x i a - sampleMean x a) * (x i b - sampleMean x b)) / Fintype.card ι

variable {ι κ : Type} [Fintype ι] [Fintype κ] [Nonempty ι] [Nonempty κ] {k m n : ℕ}

private theorem card_ne (ι : Type) [Fintype ι] [Nonempty ι] : (Fintype.card ι : ℝ) ≠ 0 := by
  exact_mod_cast Fintype.card_ne_zero

private theorem dev_sum (x : ι → Vec ℝ n) (a : Fin n) : ∑ i, (x i a - sampleMean x a) = 0 := by
  rw [Finset.sum_sub_distrib, Finset.sum_const, Finset.card_univ, nsmul_eq_mul, sampleMean, mul_div_cancel₀ _ (card_ne ι), sub_self]

private theorem mean_pair (x : ι → Vec ℝ n) (y : κ → Vec ℝ k) (A : Mat ℝ m n) (B : Mat ℝ m k) (c : Vec ℝ m) :
    sampleMean (fun i : ι × κ => A.mulVec (x i.1) + B.mulVec (y i.2) + c) = A.mulVec (sampleMean x) + B.mulVec (sampleMean y) + c := by
  have h1 := card_ne ι
  have h2 := card_ne κ
  funext a
  have e1 : ∑ i : ι, A.mulVec (x i) a = Fintype.card ι * A.mulVec (sampleMean x) a := by
    simp only [Matrix.mulVec, dotProduct, sampleMean, Finset.mul_sum]
    rw [Finset.sum_comm]
    refine Finset.sum_congr rfl fun b _ => ?_
    rw [← Finset.mul_sum]
    field_simp
  have e2 : ∑ i : κ, B.mulVec (y i) a = Fintype.card κ * B.mulVec (sampleMean y) a := by
    simp only [Matrix.mulVec, dotProduct, sampleMean, Finset.mul_sum]
    rw [Finset.sum_comm]
    refine Finset.sum_congr rfl fun b _ => ?_
    rw [← Finset.mul_sum]
    field_simp
  rw [sampleMean, Fintype.sum_prod_type]
  simp only [Pi.add_apply, Finset.sum_add_distrib, Finset.sum_const, Finset.card_univ, nsmul_eq_mul, Fintype.card_prod, ← Finset.mul_sum, e1, e2]
  push_cast
  field_simp

private theorem quad (x : ι → Vec ℝ n) (A : Mat ℝ m n) (a b : Fin m) :
    (∑ i, A.mulVec (x i - sampleMean x) a * A.mulVec (x i - sampleMean x) b) / Fintype.card ι = (A * sampleCov x * Aᵀ) a b := by
  have h : ∀ i, A.mulVec (x i - sampleMean x) a * A.mulVec (x i - sampleMean x) b =
      (A * (Matrix.of fun p q => (x i p - sampleMean x p) * (x i q - sampleMean x q)) * Aᵀ) a b := by
    intro i
    simp only [Matrix.mul_apply, Matrix.mulVec, dotProduct, Matrix.of_apply, Matrix.transpose_apply, Pi.sub_apply, Finset.sum_mul, Finset.mul_sum]
    refine Finset.sum_congr rfl fun p _ => Finset.sum_congr rfl fun q _ => ?_
    ring
  have hs : sampleCov x = (Fintype.card ι : ℝ)⁻¹ • ∑ i, (Matrix.of fun p q => (x i p - sampleMean x p) * (x i q - sampleMean x q) : Mat ℝ n n) := by
    ext p q
    simp [sampleCov, Matrix.sum_apply, div_eq_inv_mul]
  rw [hs, Matrix.mul_smul, Matrix.smul_mul, Matrix.mul_sum, Matrix.sum_mul, Matrix.smul_apply, Matrix.sum_apply, smul_eq_mul, div_eq_inv_mul]
  congr 1
  exact Finset.sum_congr rfl fun i _ => h i

private theorem cross (x : ι → Vec ℝ n) (A : Mat ℝ m n) (a : Fin m) : ∑ i, A.mulVec (x i - sampleMean x) a = 0 := by
  simp only [Matrix.mulVec, dotProduct, Pi.sub_apply]
  rw [Finset.sum_comm]
  refine Finset.sum_eq_zero fun b _ => ?_
  rw [← Finset.mul_sum, dev_sum, mul_zero]

/-- **C28** For a function of two vectors that is linear up to a constant, propagating the means and covariances of two sets of samples
gives exactly the mean and the covariance of the function's values on all combinations of the samples. -/
theorem C28_binary_samples (x : ι → Vec ℝ n) (y : κ → Vec ℝ k) (A : Mat ℝ m n) (B : Mat ℝ m k) (c : Vec ℝ m) :
    binarytransformWithCovariance (fun u v => (A.mulVec u + B.mulVec v + c, A, B)) ⟨sampleMean x, sampleCov x⟩ ⟨sampleMean y, sampleCov y⟩ =
      ⟨sampleMean fun i : ι × κ => A.mulVec (x i.1) + B.mulVec (y i.2) + c,
       sampleCov fun i : ι × κ => A.mulVec (x i.1) + B.mulVec (y i.2) + c⟩ := by
  have h1 := card_ne ι
  have h2 := card_ne κ
  apply ErrorVector.ext
  · exact (mean_pair x y A B c).symm
  · show A * sampleCov x * Aᵀ + B * sampleCov y * Bᵀ = _
    ext a b
    rw [Matrix.add_apply, ← quad, ← quad]
    have hd : ∀ (i : ι) (j : κ) (a : Fin m), (A.mulVec (x i) + B.mulVec (y j) + c) a -
        (A.mulVec (sampleMean x) + B.mulVec (sampleMean y) + c) a = A.mulVec (x i - sampleMean x) a + B.mulVec (y j - sampleMean y) a := by
      intro i j a
      rw [Matrix.mulVec_sub, Matrix.mulVec_sub]
      simp only [Pi.add_apply, Pi.sub_apply]
      ring
    simp only [sampleCov, Matrix.of_apply, mean_pair x y A B c, hd, Fintype.sum_prod_type, Fintype.card_prod]
    have hin : ∀ i : ι, ∑ j : κ, (A.mulVec (x i - sampleMean x) a + B.mulVec (y j - sampleMean y) a) *
        (A.mulVec (x i - sampleMean x) b + B.mulVec (y j - sampleMean y) b) =
        Fintype.card κ * (A.mulVec (x i - sampleMean x) a * A.mulVec (x i - sampleMean x) b) +
          ∑ j : κ, B.mulVec (y j - sampleMean y) a * B.mulVec (y j - sampleMean y) b := by
      intro i
      have e : ∀ j : κ, (A.mulVec (x i - sampleMean x) a + B.mulVec (y j - sampleMean y) a) *
        (A.mulVec (x i - sampleMean x) b + B.mulVec (y j - sampleMean y) b) =
        A.mulVec (x i - sampleMean x) a * A.mulVec (x i - sampleMean x) b + A.mulVec (x i - sampleMean x) a * B.mulVec (y j - sampleMean y) b +
        A.mulVec (x i - sampleMean x) b * B.mulVec (y j - sampleMean y) a + B.mulVec (y j - sampleMean y) a * B.mulVec (y j - sampleMean y) b :=
        fun j => by ring
      simp only [e, Finset.sum_add_distrib, ← Finset.mul_sum, cross, Finset.sum_const, Finset.card_univ, nsmul_eq_mul]
      ring
    simp only [hin, Finset.sum_add_distrib, ← Finset.mul_sum, Finset.sum_const, Finset.card_univ, nsmul_eq_mul]
    push_cast
    field_simp

private theorem mean_map (x : ι → Vec ℝ n) (A : Mat ℝ m n) (c : Vec ℝ m) :
    sampleMean (fun i => A.mulVec (x i) + c) = A.mulVec (sampleMean x) + c := by
  have h1 := card_ne ι
  funext a
  have e1 : ∑ i : ι, A.mulVec (x i) a = Fintype.card ι * A.mulVec (sampleMean x) a := by
    simp only [Matrix.mulVec, dotProduct, sampleMean, Finset.mul_sum]
    rw [Finset.sum_comm]
    refine Finset.sum_congr rfl fun b _ => ?_
    rw [← Finset.mul_sum]
    field_simp
  rw [sampleMean]
  simp only [Pi.add_apply, Finset.sum_add_distrib, Finset.sum_const, Finset.card_univ, nsmul_eq_mul, e1]
  field_simp

private theorem cov_map (x : ι → Vec ℝ n) (A : Mat ℝ m n) (c : Vec ℝ m) :
    sampleCov (fun i => A.mulVec (x i) + c) = A * sampleCov x * Aᵀ := by
  ext a b
  rw [← quad]
  simp only [sampleCov, Matrix.of_apply, mean_map]
  congr 1
  refine Finset.sum_congr rfl fun i _ => ?_
  rw [Matrix.mulVec_sub]
  simp only [Pi.add_apply, Pi.sub_apply]
  ring

/-- **C28** For a function that is linear up to a constant, propagating the mean and the covariance of samples gives exactly the mean and
the covariance of the function's values on the samples. -/
theorem C28_samples (x : ι → Vec ℝ n) (A : Mat ℝ m n) (c : Vec ℝ m) :
    transformWithCovariance (fun u => (A.mulVec u + c, A)) ⟨sampleMean x, sampleCov x⟩ =
      ⟨sampleMean fun i => A.mulVec (x i) + c, sampleCov fun i => A.mulVec (x i) + c⟩ := by
  rw [mean_map, cov_map]; rfl

/-- **C28** The same when the function reads a part of the vectors and replaces a part of them: the result has the mean and the covariance
of the samples with that part replaced. -/
theorem C28_range_samples (x : ι → Vec ℝ n) (A : Mat ℝ m k) (c : Vec ℝ m) (ob ib : ℕ) (hi : ib + k ≤ n) :
    let replaced : ι → Vec ℝ n := fun s i => if h : ob ≤ i.val ∧ i.val < ob + m then
      (A.mulVec (fun j : Fin k => x s ⟨ib + j, by omega⟩) + c) ⟨i.val - ob, by omega⟩ else x s i
    transformRange (fun u => (A.mulVec u + c, A)) ⟨sampleMean x, sampleCov x⟩ ob ib hi = ⟨sampleMean replaced, sampleCov replaced⟩ := by
  intro replaced
  have hsym : (sampleCov x).IsSymm := by
    ext a b
    simp only [sampleCov, Matrix.transpose_apply, Matrix.of_apply]
    congr 1
    exact Finset.sum_congr rfl fun i _ => mul_comm _ _
  let J : Mat ℝ n n := replacesRange A ob ib
  let d : Vec ℝ n := fun i => if h : ob ≤ i.val ∧ i.val < ob + m then c ⟨i.val - ob, by omega⟩ else 0
  have hlin : ∀ v : Vec ℝ n, (fun i : Fin n => if h : ob ≤ i.val ∧ i.val < ob + m then
      (A.mulVec (fun j : Fin k => v ⟨ib + j, by omega⟩) + c) ⟨i.val - ob, by omega⟩ else v i) = J.mulVec v + d := by
    intro v
    funext i
    by_cases h : ob ≤ i.val ∧ i.val < ob + m
    · simp only [J, d, Pi.add_apply, Matrix.mulVec, dotProduct, dif_pos h, replacesRange]
      exact congrArg (· + c ⟨i.val - ob, by omega⟩) (sum_range ib hi (A ⟨i.val - ob, by omega⟩) v).symm
    · simp only [J, d, Pi.add_apply, Matrix.mulVec, dotProduct, dif_neg h, replacesRange]
      simp
  obtain ⟨hv, hc⟩ := C28_range (fun u => (A.mulVec u + c, A)) ⟨sampleMean x, sampleCov x⟩ ob ib hi hsym
  have hr : replaced = fun s => J.mulVec (x s) + d := funext fun s => hlin (x s)
  rw [hr, mean_map, cov_map]
  apply ErrorVector.ext
  · rw [← hlin]
    exact funext hv
  · exact hc

/-- Two samples in the plane with a covariance that is not zero. -/
example : sampleMean (fun i : Fin 2 => (![(i : ℕ), 2 * (i : ℕ)] : Vec ℝ 2)) = ![1 / 2, 1] ∧
    sampleCov (fun i : Fin 2 => (![(i : ℕ), 2 * (i : ℕ)] : Vec ℝ 2)) 0 1 = 1 / 2 := by
  have h : sampleMean (fun i : Fin 2 => (![(i : ℕ), 2 * (i : ℕ)] : Vec ℝ 2)) = ![1 / 2, 1] := by
    funext a; fin_cases a <;> simp [sampleMean, Fin.sum_univ_two]
  refine ⟨h, ?_⟩
  simp only [sampleCov, Matrix.of_apply, h, Fin.sum_univ_two]
  norm_num

end Ubitrack.Stochastic
