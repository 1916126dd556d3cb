import Verif.Model.PoseFilter
import Verif.Props.MotionModel
import Verif.Props.Kalman
import Mathlib.Analysis.Matrix.Order

/-!
# Helper lemmas for the Kalman filters of utTracking
-/

namespace Ubitrack.Tracking

open Spec RotationFunction FunctionComposition Stochastic
open scoped Matrix

variable {n m k : ℕ}

theorem symm_of_psd {r : ℕ} {M : Mat ℝ r r} (h : M.PosSemidef) : M.IsSymm := by
  have := h.isHermitian
  unfold Matrix.IsHermitian at this
  rwa [Matrix.conjTranspose_eq_transpose_of_trivial] at this

theorem innovation_eq (jac : Mat ℝ m k) (P : Mat ℝ n n) (R : Mat ℝ m m) (ib : ℕ) (hi : ib + k ≤ n) :
    innovation P (readsRange jac ib) R = jac * P.submatrix (sub ib hi) (sub ib hi) * jacᵀ + R := by
  unfold innovation
  rw [Matrix.mul_assoc, mul_readsRange jac ib hi, readsRange_mul jac ib hi, Matrix.mul_assoc]
  congr 2

theorem checkedUpdate_psd {f : Functor ℝ m k} {state : ErrorVector ℝ n} {meas : ErrorVector ℝ m} {ib : ℕ} {hi : ib + k ≤ n}
    {s : ErrorVector ℝ n} (h : checkedUpdate f state meas ib hi = some s) (hP : state.covariance.PosSemidef) (hR : meas.covariance.PosSemidef) :
    s.covariance.PosSemidef := by
  unfold checkedUpdate at h
  dsimp only at h
  split_ifs at h with hd
  simp only [Option.some.injEq] at h
  rw [← h]
  refine (C29_psd_and_shrinks f state meas ib hi hP hR ?_).1
  rw [innovation_eq _ _ _ ib hi]
  exact isUnit_iff_ne_zero.mpr hd

theorem checkedUpdateIdentity_eq (state : ErrorVector ℝ n) (meas : ErrorVector ℝ m) (ib : ℕ) (hi : ib + m ≤ n) :
    checkedUpdateIdentity state meas ib hi = checkedUpdate (fun x => (x, 1)) state meas ib hi := by
  unfold checkedUpdateIdentity checkedUpdate
  simp only [Matrix.one_mul, Matrix.transpose_one, Matrix.mul_one]
  rw [C29_identity]

theorem checkedUpdate_isSome {f : Functor ℝ m k} {state : ErrorVector ℝ n} {meas : ErrorVector ℝ m} {ib : ℕ} {hi : ib + k ≤ n}
    (hP : state.covariance.PosSemidef) (hR : meas.covariance.PosDef) :
    checkedUpdate f state meas ib hi = some (kalmanUpdate f state meas ib hi) := by
  unfold checkedUpdate
  rw [if_neg]
  rw [← innovation_eq _ _ _ ib hi]
  exact isUnit_iff_ne_zero.mp (C29_invertible _ _ _ hP hR)

theorem smul_one_posDef {r : ℕ} {c : ℝ} (hc : 0 < c) : ((c • 1 : Mat ℝ r r)).PosDef := by
  have : (c • 1 : Mat ℝ r r) = Matrix.diagonal fun _ => c := by
    ext i j
    simp [Matrix.diagonal_apply, Matrix.one_apply]
  rw [this]
  exact Matrix.PosDef.diagonal fun _ => hc

/-- The length of a four-vector is zero only for the zero vector. -/
theorem norm2_ne_zero {x : Vec ℝ 4} (h : ¬ ∀ i, x i = 0) : norm2 x ≠ 0 := by
  intro h0
  apply h
  intro i
  unfold norm2 at h0
  rw [Real.sqrt_eq_zero (Finset.sum_nonneg fun i _ => mul_self_nonneg (x i))] at h0
  have := (Finset.sum_eq_zero_iff_of_nonneg fun i _ => mul_self_nonneg (x i)).mp h0 i (Finset.mem_univ i)
  exact mul_self_eq_zero.mp this

theorem unit_vectorNormalize {x : Vec ℝ 4} (h : ¬ ∀ i, x i = 0) : UnitQ (Quat.fromVector (vectorNormalize x)) := by
  have hn := norm2_ne_zero h
  have hs : norm2 x ^ 2 = x 0 * x 0 + x 1 * x 1 + x 2 * x 2 + x 3 * x 3 := by
    unfold norm2
    rw [Real.sq_sqrt (Finset.sum_nonneg fun i _ => mul_self_nonneg (x i)), Fin.sum_univ_four]
  unfold UnitQ Quat.fromVector vectorNormalize
  field_simp
  rw [hs]
  ring

theorem vectorNormalize_of_unit {x : Vec ℝ 4} (h : UnitQ (Quat.fromVector x)) : vectorNormalize x = x := by
  have hs : norm2 x = 1 := by
    unfold norm2
    rw [Fin.sum_univ_four]
    unfold UnitQ Quat.fromVector at h
    simp only at h
    rw [show x 0 * x 0 + x 1 * x 1 + x 2 * x 2 + x 3 * x 3 = 1 by rw [← h]; ring, Real.sqrt_one]
  funext i
  unfold vectorNormalize
  rw [hs]
  ring

theorem normalizeQuat_spec {state s : ErrorVector ℝ n} {ib : ℕ} {hi : ib + 4 ≤ n} (h : normalizeQuat state ib hi = some s)
    (hP : state.covariance.PosSemidef) :
    s.covariance.PosSemidef ∧ UnitQ (Quat.fromVector fun i => s.value (sub ib hi i)) ∧
    (∀ i : Fin n, ¬ (ib ≤ i.val ∧ i.val < ib + 4) → s.value i = state.value i) ∧
    (UnitQ (Quat.fromVector fun i => state.value (sub ib hi i)) → s.value = state.value) := by
  unfold normalizeQuat at h
  split_ifs at h with h0
  simp only [Option.some.injEq] at h
  set F : Functor ℝ 4 4 := fun x : Vec ℝ 4 => (vectorNormalize x, vectorNormalizeJacobian x) with hF
  have hr := (C28_range F state ib ib hi (symm_of_psd hP)).1
  have hv : ∀ i : Fin 4, s.value (sub ib hi i) = vectorNormalize (fun i => state.value (sub ib hi i)) i := by
    intro i
    have hi' := i.isLt
    rw [← h]
    refine (hr (sub ib hi i)).trans ?_
    rw [dif_pos (by simp only [sub]; omega)]
    show vectorNormalize (fun i => state.value (sub ib hi i)) _ = _
    congr 1
    exact Fin.ext (by simp [sub])
  have ho : ∀ i : Fin n, ¬ (ib ≤ i.val ∧ i.val < ib + 4) → s.value i = state.value i := by
    intro i hi'
    rw [← h]
    refine (hr i).trans ?_
    rw [dif_neg hi']
  refine ⟨h ▸ C28_range_psd F state ib ib hi hP, ?_, ho, ?_⟩
  · have e : (fun i => s.value (sub ib hi i)) = vectorNormalize (fun i => state.value (sub ib hi i)) := funext hv
    rw [e]
    exact unit_vectorNormalize h0
  · intro hu
    funext i
    by_cases hc : ib ≤ i.val ∧ i.val < ib + 4
    · have e : i = sub ib hi ⟨i.val - ib, by omega⟩ := Fin.ext (by simp [sub]; omega)
      rw [e, hv, vectorNormalize_of_unit hu]
    · exact ho i hc

theorem normalizeQuat_isSome {state : ErrorVector ℝ n} {ib : ℕ} {hi : ib + 4 ≤ n} (h : ¬ ∀ i : Fin 4, state.value (sub ib hi i) = 0) :
    ∃ s, normalizeQuat state ib hi = some s := by
  unfold normalizeQuat
  rw [if_neg h]
  exact ⟨_, rfl⟩

/-- Fusing a non-zero quaternion with a measurement from the same hemisphere never gives zero. -/
theorem fused_ne_zero (P : Mat ℝ 4 4) (hP : P.PosSemidef) (r : ℝ) (hr : 0 < r) (q z : Vec ℝ 4) (hq : ¬ ∀ i, q i = 0)
    (hz : 0 ≤ q ⬝ᵥ z) (hzero : q + (P * (P + r • 1)⁻¹).mulVec (z - q) = 0) : False := by
  have hS : (P + r • 1).PosDef := Matrix.PosDef.posSemidef_add hP (smul_one_posDef hr)
  have hdet : IsUnit (P + r • 1).det := (Matrix.isUnit_iff_isUnit_det _).mp hS.isUnit
  set y := ((P + r • 1)⁻¹).mulVec (z - q) with hy
  have h1 : (P + r • 1).mulVec y = z - q := by
    rw [hy, Matrix.mulVec_mulVec, Matrix.mul_nonsing_inv _ hdet, Matrix.one_mulVec]
  rw [← Matrix.mulVec_mulVec, ← hy] at hzero
  rw [Matrix.add_mulVec, Matrix.smul_mulVec, Matrix.one_mulVec] at h1
  have hPy : P.mulVec y = -q := by
    have := eq_neg_of_add_eq_zero_right hzero
    exact this
  have hzy : z = r • y := by
    rw [hPy] at h1
    have : r • y - q = z - q := by rw [← h1]; abel
    exact (sub_left_injective this).symm
  have hq2 : q ⬝ᵥ z = -(r * (y ⬝ᵥ P.mulVec y)) := by
    have : q = -(P.mulVec y) := by rw [hPy, neg_neg]
    rw [hzy, this, dotProduct_smul, neg_dotProduct, smul_eq_mul, dotProduct_comm]
    ring
  have hnn : 0 ≤ y ⬝ᵥ P.mulVec y := by
    have := hP.dotProduct_mulVec_nonneg y
    simpa using this
  have h0 : y ⬝ᵥ P.mulVec y = 0 := by nlinarith
  have h3 : P.mulVec y = 0 := by
    have := (hP.dotProduct_mulVec_zero_iff y).mp (by simpa using h0)
    exact this
  apply hq
  intro i
  have := congrFun (hPy.symm.trans h3) i
  simpa using this

/-- The measured range of the state after a direct measurement. -/
theorem kalmanUpdateIdentity_range (state : ErrorVector ℝ n) (meas : ErrorVector ℝ m) (ib : ℕ) (hi : ib + m ≤ n)
    (hP : state.covariance.PosSemidef) (hR : meas.covariance.PosSemidef) :
    (fun i => (kalmanUpdateIdentity state meas ib hi).value (sub ib hi i))
      = (fun i => state.value (sub ib hi i)) + (state.covariance.submatrix (sub ib hi) (sub ib hi) *
          (state.covariance.submatrix (sub ib hi) (sub ib hi) + meas.covariance)⁻¹).mulVec (meas.value - fun i => state.value (sub ib hi i)) := by
  have hs : ((state.covariance.submatrix (sub ib hi) (sub ib hi) + meas.covariance)⁻¹).IsSymm := by
    unfold Matrix.IsSymm
    rw [Matrix.transpose_nonsing_inv, Matrix.transpose_add, Matrix.transpose_submatrix, (symm_of_psd hP).eq, (symm_of_psd hR).eq]
  funext i
  unfold kalmanUpdateIdentity
  simp only
  rw [symmRU_of_symm _ _ hs]
  rfl

end Ubitrack.Tracking
