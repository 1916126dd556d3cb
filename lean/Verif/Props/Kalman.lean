import Verif.Model.Kalman
import Verif.Spec.Kalman
import Mathlib.LinearAlgebra.Matrix.PosDef
import Mathlib.Algebra.Order.Star.Real
import Mathlib.Tactic.Linarith
import Mathlib.Tactic.NoncommRing

/-!
# C28: covariance propagation; C29: Kalman measurement update
-/

namespace Ubitrack.Stochastic

open Spec
open scoped Matrix

variable {k l m n : ℕ}

theorem sum_range {K : Type*} [CommRing K] (b : ℕ) (h : b + k ≤ n) (f : Fin k → K) (g : Fin n → K) :
    ∑ j : Fin n, (if hj : b ≤ j.val ∧ j.val < b + k then f ⟨j.val - b, by omega⟩ else 0) * g j =
      ∑ i : Fin k, f i * g (sub b h i) := by
  symm
  refine Fintype.sum_of_injective (sub b h) ?_ _ _ ?_ ?_
  · intro i j hij
    simp only [sub, Fin.mk.injEq] at hij
    ext; omega
  · intro j hj
    rw [dif_neg, zero_mul]
    intro hb
    apply hj
    refine ⟨⟨j.val - b, by omega⟩, ?_⟩
    ext
    simp only [sub]
    omega
  · intro i
    rw [dif_pos (by simp only [sub]; omega)]
    congr 1
    congr 1
    ext
    simp only [sub]
    omega

theorem readsRange_mul {K : Type*} [CommRing K] (jac : Mat K m k) (b : ℕ) (h : b + k ≤ n) (C : Mat K n l) :
    (readsRange jac b : Mat K m n) * C = jac * C.submatrix (sub b h) id := by
  ext i j
  rw [Matrix.mul_apply, Matrix.mul_apply]
  exact sum_range b h (jac i) (fun x => C x j)

theorem mul_readsRange {K : Type*} [CommRing K] (jac : Mat K m k) (b : ℕ) (h : b + k ≤ n) (C : Mat K l n) :
    C * (readsRange jac b : Mat K m n)ᵀ = C.submatrix id (sub b h) * jacᵀ := by
  ext i j
  rw [Matrix.mul_apply, Matrix.mul_apply]
  have := sum_range b h (jac j) (fun x => C i x)
  simp only [Matrix.transpose_apply, Matrix.submatrix_apply, id_eq, readsRange]
  rw [← Finset.sum_congr rfl (fun x _ => mul_comm _ _), this]
  exact Finset.sum_congr rfl (fun x _ => mul_comm _ _)

/-- **C28** Forward propagation of a covariance through a function with Jacobian `J` gives the value of the function
and the covariance `J C Jᵀ`; for two independent inputs the two contributions are added. -/
theorem C28_transform {K : Type*} [CommRing K] (f : Functor K m n) (v : ErrorVector K n)
    (g : Vec K n → Vec K k → Vec K m × Mat K m n × Mat K m k) (w : ErrorVector K k) :
    (transformWithCovariance f v).value = (f v.value).1 ∧
    (transformWithCovariance f v).covariance = (f v.value).2 * v.covariance * (f v.value).2ᵀ ∧
    (binarytransformWithCovariance g v w).value = (g v.value w.value).1 ∧
    (binarytransformWithCovariance g v w).covariance =
      (g v.value w.value).2.1 * v.covariance * (g v.value w.value).2.1ᵀ +
      (g v.value w.value).2.2 * w.covariance * (g v.value w.value).2.2ᵀ :=
  ⟨rfl, rfl, rfl, rfl⟩

/-- **C28** The result is symmetric and positive semi-definite whenever the inputs are. -/
theorem C28_psd (f : Functor ℝ m n) (v : ErrorVector ℝ n) (hv : v.covariance.PosSemidef)
    (g : Vec ℝ n → Vec ℝ k → Vec ℝ m × Mat ℝ m n × Mat ℝ m k) (w : ErrorVector ℝ k) (hw : w.covariance.PosSemidef) :
    (transformWithCovariance f v).covariance.PosSemidef ∧ (binarytransformWithCovariance g v w).covariance.PosSemidef := by
  have h1 := hv.mul_mul_conjTranspose_same (f v.value).2
  have h2 := hv.mul_mul_conjTranspose_same (g v.value w.value).2.1
  have h3 := hw.mul_mul_conjTranspose_same (g v.value w.value).2.2
  rw [Matrix.conjTranspose_eq_transpose_of_trivial] at h1 h2 h3
  exact ⟨h1, h2.add h3⟩

/-- **C28** The in-place version on a part of the vector: entries outside of the output range are unchanged, those in
it are the function of the input range, and the covariance is `J C Jᵀ` with the Jacobian `J` of the operation on
the whole vector. -/
theorem C28_range {K : Type*} [CommRing K] (f : Functor K m k) (v : ErrorVector K n) (ob ib : ℕ)
    (hi : ib + k ≤ n) (hsym : v.covariance.IsSymm) :
    let inp : Vec K k := fun i => v.value ⟨ib + i, by omega⟩
    let J : Mat K n n := replacesRange (f inp).2 ob ib
    (∀ i : Fin n, (transformRange f v ob ib hi).value i =
      if h : ob ≤ i.val ∧ i.val < ob + m then (f inp).1 ⟨i.val - ob, by omega⟩ else v.value i) ∧
    (transformRange f v ob ib hi).covariance = J * v.covariance * Jᵀ := by
  intro inp J
  constructor
  · intro i
    simp only [transformRange, loc]
    split_ifs <;> rfl
  · set C := v.covariance with hC
    set jac := (f inp).2 with hjac
    set im : Mat K m n := jac * C.submatrix (sub ib hi) id with him
    -- rows of J * C
    have hJC : ∀ i j, (J * C) i j =
        if h : ob ≤ i.val ∧ i.val < ob + m then im ⟨i.val - ob, by omega⟩ j else C i j := by
      intro i j
      rw [Matrix.mul_apply]
      split_ifs with h
      · rw [him, ← readsRange_mul jac ib hi C, Matrix.mul_apply]
        refine Finset.sum_congr rfl fun x _ => ?_
        simp only [J, replacesRange]
        rw [dif_pos h]
      · simp only [J, replacesRange]
        rw [Finset.sum_eq_single i]
        · rw [dif_neg h, if_pos rfl, one_mul]
        · intro b _ hb
          rw [dif_neg h, if_neg (Ne.symm hb), zero_mul]
        · intro h'; exact absurd (Finset.mem_univ _) h'
    -- columns of (J * C) * Jᵀ
    have hcol : ∀ (A : Mat K n n) i j, (A * Jᵀ) i j =
        if h : ob ≤ j.val ∧ j.val < ob + m then (A.submatrix id (sub ib hi) * jacᵀ) i ⟨j.val - ob, by omega⟩ else A i j := by
      intro A i j
      rw [Matrix.mul_apply]
      split_ifs with h
      · rw [← mul_readsRange jac ib hi A, Matrix.mul_apply]
        refine Finset.sum_congr rfl fun x _ => ?_
        simp only [J, replacesRange, Matrix.transpose_apply]
        rw [dif_pos h]
      · simp only [J, replacesRange, Matrix.transpose_apply]
        rw [Finset.sum_eq_single j]
        · rw [dif_neg h, if_pos rfl, mul_one]
        · intro b _ hb
          rw [dif_neg h, if_neg (Ne.symm hb), mul_zero]
        · intro h'; exact absurd (Finset.mem_univ _) h'
    have hs : ∀ i j, C i j = C j i := fun i j => (hsym.apply i j).symm
    -- im is C * jacᵀ transposed
    have hsymm : ∀ (i : Fin n) (b : Fin m), (C.submatrix id (sub ib hi) * jacᵀ) i b = im b i := by
      intro i b
      rw [him, Matrix.mul_apply, Matrix.mul_apply]
      refine Finset.sum_congr rfl fun x _ => ?_
      simp only [Matrix.submatrix_apply, id_eq, Matrix.transpose_apply]
      rw [hs, mul_comm]
    ext i j
    rw [hcol]
    have hjv : (f fun i => v.value (sub ib hi i)).2 = jac := rfl
    simp only [transformRange, loc, hjv]
    by_cases hi' : ob ≤ i.val ∧ i.val < ob + m
    · by_cases hj' : ob ≤ j.val ∧ j.val < ob + m
      · simp only [dif_pos hi', dif_pos hj']
        rw [if_neg (by omega), if_neg (by omega)]
        rw [Matrix.mul_apply, Matrix.mul_apply]
        refine Finset.sum_congr rfl fun x _ => ?_
        simp only [Matrix.submatrix_apply, id_eq]
        rw [hJC, dif_pos hi']
      · simp only [dif_pos hi', dif_neg hj']
        rw [hJC, dif_pos hi']
        by_cases hlt : j.val < ob
        · rw [if_neg (by omega), if_pos hlt]
        · rw [if_pos (by omega)]
    · by_cases hj' : ob ≤ j.val ∧ j.val < ob + m
      · simp only [dif_neg hi', dif_pos hj']
        have : ((J * C).submatrix id (sub ib hi) * jacᵀ) i ⟨j.val - ob, by omega⟩ =
            (C.submatrix id (sub ib hi) * jacᵀ) i ⟨j.val - ob, by omega⟩ := by
          rw [Matrix.mul_apply, Matrix.mul_apply]
          refine Finset.sum_congr rfl fun x _ => ?_
          simp only [Matrix.submatrix_apply, id_eq]
          rw [hJC, dif_neg hi']
        rw [this, hsymm]
        by_cases hlt : i.val < ob
        · rw [if_neg (by omega), if_pos hlt]
        · rw [if_pos (by omega)]
      · simp only [dif_neg hi', dif_neg hj']
        rw [hJC, dif_neg hi']

/-- **C28** The in-place version keeps the covariance symmetric and positive semi-definite. -/
theorem C28_range_psd (f : Functor ℝ m k) (v : ErrorVector ℝ n) (ob ib : ℕ) (hi : ib + k ≤ n)
    (h : v.covariance.PosSemidef) : (transformRange f v ob ib hi).covariance.PosSemidef := by
  have hs : v.covariance.IsSymm := by
    have := h.isHermitian
    unfold Matrix.IsHermitian at this
    rwa [Matrix.conjTranspose_eq_transpose_of_trivial] at this
  rw [(C28_range f v ob ib hi hs).2]
  set J : Mat ℝ n n := replacesRange (f fun i => v.value ⟨ib + i, by omega⟩).2 ob ib
  have := h.mul_mul_conjTranspose_same J
  rwa [Matrix.conjTranspose_eq_transpose_of_trivial] at this

/-- Non-vacuity: a 3-vector with unit covariance, of which entry 2 is replaced by the sum of entries 0 and 1. -/
example : ∃ v : ErrorVector ℝ 3, v.covariance.PosSemidef ∧
    (transformRange (m := 1) (k := 2) (fun x => (fun _ => x 0 + x 1, fun _ _ => 1)) v 2 0 (by omega)).covariance 2 2 = 2 := by
  refine ⟨⟨![1, 2, 3], 1⟩, Matrix.PosSemidef.one, ?_⟩
  have h := (C28_range (m := 1) (k := 2) (n := 3) (K := ℝ) (fun x => (fun _ => x 0 + x 1, fun _ _ => 1)) ⟨![1, 2, 3], 1⟩ 2 0 (by omega)
    Matrix.isSymm_one).2
  rw [h]
  simp [Matrix.mul_apply, Fin.sum_univ_three, replacesRange, readsRange]
  norm_num

/-! ## Kalman measurement update -/

theorem symmRU_of_symm {K : Type*} [CommRing K] (a : Mat K m m) (b : Mat K n m) (h : a.IsSymm) : symmRU a b = b * a := by
  unfold symmRU
  congr 1
  ext i j
  simp only [Matrix.of_apply]
  split_ifs
  · rfl
  · exact h.apply i j

/-- The innovation covariance `H P Hᵀ + R`. -/
abbrev innovation {K : Type*} [CommRing K] (P : Mat K n n) (H : Mat K m n) (R : Mat K m m) : Mat K m m := H * P * Hᵀ + R

/-- The textbook gain `P Hᵀ (H P Hᵀ + R)⁻¹`. -/
noncomputable abbrev gain {K : Type*} [CommRing K] (P : Mat K n n) (H : Mat K m n) (R : Mat K m m) : Mat K n m :=
  P * Hᵀ * (innovation P H R)⁻¹

/-- **C29** The measurement update is the textbook one: with `H` the Jacobian with respect to the whole state and
`K = P Hᵀ (H P Hᵀ + R)⁻¹`, the new state is `x + K (z - h(x))` and the new covariance `P - K H P`. -/
theorem C29_textbook {K : Type*} [CommRing K] (f : Functor K m k) (state : ErrorVector K n) (meas : ErrorVector K m)
    (ib : ℕ) (hi : ib + k ≤ n) (hP : state.covariance.IsSymm) (hR : meas.covariance.IsSymm) :
    let inp : Vec K k := fun i => state.value ⟨ib + i, by omega⟩
    let H : Mat K m n := readsRange (f inp).2 ib
    let G := gain state.covariance H meas.covariance
    (kalmanUpdate f state meas ib hi).value = state.value + G.mulVec (meas.value - (f inp).1) ∧
    (kalmanUpdate f state meas ib hi).covariance = state.covariance - G * H * state.covariance := by
  intro inp H G
  set P := state.covariance with hPdef
  set R := meas.covariance with hRdef
  set jac := (f inp).2 with hjac
  have e1 : P * Hᵀ = P.submatrix id (sub ib hi) * jacᵀ := mul_readsRange jac ib hi P
  have e2 : H * P * Hᵀ = jac * P.submatrix (sub ib hi) (sub ib hi) * jacᵀ := by
    rw [readsRange_mul jac ib hi P, mul_readsRange jac ib hi]
    rfl
  have hS : (innovation P H R).IsSymm := by
    unfold Matrix.IsSymm innovation
    rw [Matrix.transpose_add, Matrix.transpose_mul, Matrix.transpose_mul, Matrix.transpose_transpose, hP.eq, hR.eq,
      Matrix.mul_assoc]
  have hSi : ((innovation P H R)⁻¹).IsSymm := by
    unfold Matrix.IsSymm
    rw [Matrix.transpose_nonsing_inv, hS.eq]
  have hG : symmRU (jac * P.submatrix (sub ib hi) (sub ib hi) * jacᵀ + R)⁻¹ (P.submatrix id (sub ib hi) * jacᵀ) = G := by
    rw [← e1, ← e2]
    exact symmRU_of_symm _ _ hSi
  have hT : (P.submatrix id (sub ib hi) * jacᵀ)ᵀ = H * P := by
    rw [← e1, Matrix.transpose_mul, Matrix.transpose_transpose, hP.eq]
  constructor
  · change state.value + (symmRU (jac * P.submatrix (sub ib hi) (sub ib hi) * jacᵀ + R)⁻¹ (P.submatrix id (sub ib hi) * jacᵀ)).mulVec
      (meas.value - (f inp).1) = _
    rw [hG]
  · change P - symmRU (jac * P.submatrix (sub ib hi) (sub ib hi) * jacᵀ + R)⁻¹ (P.submatrix id (sub ib hi) * jacᵀ) *
      (P.submatrix id (sub ib hi) * jacᵀ)ᵀ = _
    rw [hG, hT, ← Matrix.mul_assoc]

/-- **C29** A measurement that equals its prediction leaves the state unchanged. -/
theorem C29_perfect_prediction {K : Type*} [CommRing K] (f : Functor K m k) (state : ErrorVector K n) (meas : ErrorVector K m)
    (ib : ℕ) (hi : ib + k ≤ n) (h : meas.value = (f fun i => state.value ⟨ib + i, by omega⟩).1) :
    (kalmanUpdate f state meas ib hi).value = state.value := by
  have h' : meas.value - (f fun i => state.value (sub ib hi i)).1 = 0 := by rw [h]; exact sub_self _
  simp only [kalmanUpdate, h', Matrix.mulVec_zero, add_zero]

/-- **C29** The variant for direct measurement of a range of the state equals the general one with the function that
extracts the range. -/
theorem C29_identity {K : Type*} [CommRing K] (state : ErrorVector K n) (meas : ErrorVector K m) (ib : ℕ) (hi : ib + m ≤ n) :
    kalmanUpdateIdentity state meas ib hi = kalmanUpdate (fun x => (x, 1)) state meas ib hi := by
  simp only [kalmanUpdateIdentity, kalmanUpdate, Matrix.one_mul, Matrix.transpose_one, Matrix.mul_one]

theorem joseph (P : Mat ℝ n n) (H : Mat ℝ m n) (R : Mat ℝ m m) (hP : P.IsSymm) (hR : R.IsSymm)
    (hS : IsUnit (innovation P H R).det) (A : Mat ℝ n m) :
    (1 - A * H) * P * (1 - A * H)ᵀ + A * R * Aᵀ =
      (P - gain P H R * H * P) + (A - gain P H R) * innovation P H R * (A - gain P H R)ᵀ := by
  set S := innovation P H R with hSdef
  have hST : Sᵀ = S := by
    rw [hSdef]; unfold innovation
    rw [Matrix.transpose_add, Matrix.transpose_mul, Matrix.transpose_mul, Matrix.transpose_transpose, hP.eq, hR.eq,
      Matrix.mul_assoc]
  have hSiT : (S⁻¹)ᵀ = S⁻¹ := by rw [Matrix.transpose_nonsing_inv, hST]
  have hGT : (gain P H R)ᵀ = S⁻¹ * (H * P) := by
    unfold gain
    rw [Matrix.transpose_mul, Matrix.transpose_mul, Matrix.transpose_transpose, hP.eq, hSiT]
  have h1 : gain P H R * S = P * Hᵀ := by
    unfold gain
    rw [Matrix.mul_assoc, Matrix.nonsing_inv_mul _ hS, Matrix.mul_one]
  have h2 : S * (gain P H R)ᵀ = H * P := by
    rw [hGT, ← Matrix.mul_assoc, Matrix.mul_nonsing_inv _ hS, Matrix.one_mul]
  have h3 : (A - gain P H R) * S * (A - gain P H R)ᵀ =
      A * S * Aᵀ - A * (H * P) - P * Hᵀ * Aᵀ + gain P H R * (H * P) := by
    rw [Matrix.transpose_sub, Matrix.sub_mul, Matrix.sub_mul, Matrix.mul_sub, Matrix.mul_sub, h1,
      Matrix.mul_assoc A S (gain P H R)ᵀ, h2, ← h2, ← Matrix.mul_assoc (gain P H R), h1]
    abel
  rw [h3, hSdef]
  unfold innovation
  rw [Matrix.transpose_sub, Matrix.transpose_one, Matrix.transpose_mul]
  simp only [Matrix.sub_mul, Matrix.mul_sub, Matrix.one_mul, Matrix.mul_one, Matrix.mul_add, Matrix.add_mul, Matrix.mul_assoc]
  abel

/-- **C29** For symmetric positive semi-definite covariances with invertible innovation covariance, the new covariance is
symmetric positive semi-definite and never larger than the old one (the difference is positive semi-definite). -/
theorem C29_psd_and_shrinks (f : Functor ℝ m k) (state : ErrorVector ℝ n) (meas : ErrorVector ℝ m) (ib : ℕ) (hi : ib + k ≤ n)
    (hP : state.covariance.PosSemidef) (hR : meas.covariance.PosSemidef)
    (hS : IsUnit (innovation state.covariance (readsRange (f fun i => state.value ⟨ib + i, by omega⟩).2 ib) meas.covariance).det) :
    (kalmanUpdate f state meas ib hi).covariance.PosSemidef ∧
    (state.covariance - (kalmanUpdate f state meas ib hi).covariance).PosSemidef := by
  have symm : ∀ {r : ℕ} {M : Mat ℝ r r}, M.PosSemidef → M.IsSymm := by
    intro r M h
    have := h.isHermitian
    unfold Matrix.IsHermitian at this
    rwa [Matrix.conjTranspose_eq_transpose_of_trivial] at this
  have hPs := symm hP
  have hRs := symm hR
  rw [(C29_textbook f state meas ib hi hPs hRs).2]
  set P := state.covariance
  set R := meas.covariance
  set H : Mat ℝ m n := readsRange (f fun i => state.value ⟨ib + i, by omega⟩).2 ib
  have hj := joseph P H R hPs hRs hS (gain P H R)
  have hz : (gain P H R - gain P H R) * innovation P H R * (gain P H R - gain P H R)ᵀ = 0 := by
    rw [sub_self, Matrix.zero_mul, Matrix.zero_mul]
  rw [hz, add_zero] at hj
  constructor
  · rw [← hj]
    have a := hP.mul_mul_conjTranspose_same (1 - gain P H R * H)
    have b := hR.mul_mul_conjTranspose_same (gain P H R)
    rw [Matrix.conjTranspose_eq_transpose_of_trivial] at a b
    exact a.add b
  · rw [sub_sub_cancel]
    have hSps : (innovation P H R).PosSemidef := by
      have a := hP.mul_mul_conjTranspose_same H
      rw [Matrix.conjTranspose_eq_transpose_of_trivial] at a
      exact a.add hR
    have c := hSps.mul_mul_conjTranspose_same (gain P H R)
    rw [Matrix.conjTranspose_eq_transpose_of_trivial] at c
    have hGT : (gain P H R)ᵀ = (innovation P H R)⁻¹ * (H * P) := by
      unfold gain
      rw [Matrix.transpose_mul, Matrix.transpose_mul, Matrix.transpose_transpose, hPs.eq, Matrix.transpose_nonsing_inv,
        (symm hSps).eq]
    rw [hGT, Matrix.mul_assoc, ← Matrix.mul_assoc (innovation P H R), Matrix.mul_nonsing_inv _ hS, Matrix.one_mul,
      ← Matrix.mul_assoc] at c
    exact c

/-- **C29** The gain is optimal: the covariance after the update is at most the covariance
`(1 - A H) P (1 - A H)ᵀ + A R Aᵀ` of the estimate `x + A (z - h(x))` for every other gain `A`. -/
theorem C29_optimal (f : Functor ℝ m k) (state : ErrorVector ℝ n) (meas : ErrorVector ℝ m) (ib : ℕ) (hi : ib + k ≤ n)
    (hP : state.covariance.PosSemidef) (hR : meas.covariance.PosSemidef)
    (hS : IsUnit (innovation state.covariance (readsRange (f fun i => state.value ⟨ib + i, by omega⟩).2 ib) meas.covariance).det)
    (A : Mat ℝ n m) :
    let H : Mat ℝ m n := readsRange (f fun i => state.value ⟨ib + i, by omega⟩).2 ib
    ((1 - A * H) * state.covariance * (1 - A * H)ᵀ + A * meas.covariance * Aᵀ -
      (kalmanUpdate f state meas ib hi).covariance).PosSemidef := by
  intro H
  have symm : ∀ {r : ℕ} {M : Mat ℝ r r}, M.PosSemidef → M.IsSymm := by
    intro r M h
    have := h.isHermitian
    unfold Matrix.IsHermitian at this
    rwa [Matrix.conjTranspose_eq_transpose_of_trivial] at this
  have hPs := symm hP
  have hRs := symm hR
  rw [(C29_textbook f state meas ib hi hPs hRs).2]
  rw [joseph state.covariance H meas.covariance hPs hRs hS A, add_sub_cancel_left]
  have hSps : (innovation state.covariance H meas.covariance).PosSemidef := by
    have a := hP.mul_mul_conjTranspose_same H
    rw [Matrix.conjTranspose_eq_transpose_of_trivial] at a
    exact a.add hR
  have c := hSps.mul_mul_conjTranspose_same (A - gain state.covariance H meas.covariance)
  rwa [Matrix.conjTranspose_eq_transpose_of_trivial] at c

/-- **C29** The innovation covariance is invertible whenever the measurement covariance is positive definite. -/
theorem C29_invertible (P : Mat ℝ n n) (H : Mat ℝ m n) (R : Mat ℝ m m) (hP : P.PosSemidef) (hR : R.PosDef) :
    IsUnit (innovation P H R).det := by
  have a := hP.mul_mul_conjTranspose_same H
  rw [Matrix.conjTranspose_eq_transpose_of_trivial] at a
  have : (innovation P H R).PosDef := Matrix.PosDef.posSemidef_add a hR
  exact (Matrix.isUnit_iff_isUnit_det _).mp this.isUnit

/-- Non-vacuity: a scalar state 0 with variance 1, measured as 2 with variance 1, becomes 1 with variance 1/2. -/
example : (1 : Mat ℝ 1 1).PosSemidef ∧ (1 : Mat ℝ 1 1).PosDef ∧
    (kalmanUpdateIdentity (n := 1) (m := 1) ⟨fun _ => 0, 1⟩ ⟨fun _ => 2, 1⟩ 0 (by omega)).value 0 = (1 : ℝ) ∧
    (kalmanUpdateIdentity (n := 1) (m := 1) ⟨fun _ => 0, 1⟩ ⟨fun _ => 2, 1⟩ 0 (by omega)).covariance 0 0 = (1 / 2 : ℝ) := by
  have h1 : ∀ a b : Fin 1, (1 : Mat ℝ 1 1) a b = 1 := by
    intro a b; rw [Subsingleton.elim a b, Matrix.one_apply_eq]
  refine ⟨Matrix.PosSemidef.one, Matrix.PosDef.one, ?_, ?_⟩
  · simp [kalmanUpdateIdentity, symmRU, Matrix.mulVec, dotProduct, Matrix.mul_apply, h1]
    norm_num
  · simp [kalmanUpdateIdentity, symmRU, Matrix.mul_apply, h1]
    norm_num

end Ubitrack.Stochastic
