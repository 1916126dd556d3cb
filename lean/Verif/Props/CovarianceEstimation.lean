import Verif.Model.CovarianceEstimation
import Verif.Spec.CovarianceEstimation
import Verif.Props.BackwardPropagation
import Verif.Props.ProjectionFunction

/-!
# Covariance of a pose estimated from 3D point correspondences
-/

namespace Ubitrack.CovarianceEstimation
open Spec RotationFunction ProjectionFunction BackwardPropagation
open scoped Matrix

variable {n : ℕ}

theorem foldl_rows3 {α : Type*} (step : (Fin (3 * n) → α) → Fin n → Fin (3 * n) → α) (g : Fin n → Fin 3 → α)
    (h1 : ∀ J i r, r.val / 3 = i.val → step J i r = g i ⟨r.val % 3, by omega⟩)
    (h2 : ∀ J i r, r.val / 3 ≠ i.val → step J i r = J r) (J : Fin (3 * n) → α) :
    (List.finRange n).foldl step J = stack3 g := by
  have key : ∀ (l : List (Fin n)) (J : Fin (3 * n) → α) (r : Fin (3 * n)),
      l.foldl step J r = if (⟨r.val / 3, by omega⟩ : Fin n) ∈ l then stack3 g r else J r := by
    intro l
    induction l with
    | nil => intro J r; simp
    | cons a l ih =>
      intro J r
      rw [List.foldl_cons, ih]
      by_cases hl : (⟨r.val / 3, by omega⟩ : Fin n) ∈ l
      · simp [hl]
      · by_cases ha : (⟨r.val / 3, by omega⟩ : Fin n) = a
        · have hm : (⟨r.val / 3, by omega⟩ : Fin n) ∈ a :: l := by rw [ha]; exact List.mem_cons_self
          rw [if_neg hl, if_pos hm, h1 J a r (by rw [← ha])]
          subst ha
          rfl
        · rw [if_neg hl, if_neg (by simp [hl, ha]), h2]
          intro h
          exact ha (Fin.ext h)
  funext r
  rw [key, if_pos (List.mem_finRange _)]

theorem jacobian_eq (p : Fin n → Vec ℝ 3) (J : Mat ℝ (3 * n) (3 + 3)) (x : Vec ℝ (3 + 4)) :
    multiplePointTransformationErrorJacobian p J x =
      stack3 fun i => hcat 1 (quaternionRotationErrorJacobian (p i) (inputR x)) := by
  unfold multiplePointTransformationErrorJacobian
  apply foldl_rows3 (step := fun (J : Fin (3 * n) → Fin (3 + 3) → ℝ) i =>
    setBlock (setBlock J (i * 3) 0 (1 : Mat ℝ 3 3)) (i * 3) 3 (quaternionRotationErrorJacobian (p i) (inputR x)))
  · intro J i r h
    funext c
    simp only [setBlock, hcat]
    have hr : (⟨r.val - i.val * 3, by omega⟩ : Fin 3) = ⟨r.val % 3, by omega⟩ :=
      Fin.ext (by show r.val - i.val * 3 = r.val % 3; omega)
    by_cases hc : c.val < 3
    · rw [dif_neg (by omega), dif_pos (by omega)]
      have : c = Fin.castAdd 3 ⟨c.val, hc⟩ := rfl
      conv_rhs => rw [this, Fin.append_left]
      exact congrFun (congrArg _ hr) _
    · rw [dif_pos (by omega)]
      have : c = Fin.natAdd 3 ⟨c.val - 3, by omega⟩ := Fin.ext (by simp; omega)
      conv_rhs => rw [this, Fin.append_right]
      exact congrFun (congrArg _ hr) _
  · intro J i r h
    funext c
    simp only [setBlock]
    rw [dif_neg (by omega), dif_neg (by omega)]

theorem IsJacobian.stack3 {k : ℕ} {f : Fin n → Vec ℝ k → Vec ℝ 3} {x : Vec ℝ k} {J : Fin n → Mat ℝ 3 k}
    (h : ∀ i, IsJacobian (f i) x (J i)) : IsJacobian (fun x => Spec.stack3 fun i => f i x) x (Spec.stack3 fun i => J i) := by
  unfold IsJacobian at *
  rw [hasFDerivAt_pi']
  intro r
  have h1 := (hasFDerivAt_pi'.mp (h ⟨r.val / 3, by omega⟩)) ⟨r.val % 3, by omega⟩
  refine h1.congr_fderiv ?_
  ext v
  rfl

lemma inputR_toVector (pose : Pose ℝ) : inputR (k := 4) pose.toVector = pose.rotation.toVector := by
  ext i
  fin_cases i <;> rfl

/-- **C73** The matrix the covariance is computed from is the derivative of the transformed points, one below the other, with
respect to an additional translation and a rotation error `(x, y, z, 1)` applied before the rotation. -/
theorem C73_jacobian (p : Fin n → Vec ℝ 3) (J : Mat ℝ (3 * n) (3 + 3)) (pose : Pose ℝ) (hq : UnitQ pose.rotation) :
    IsJacobian (fun x : Vec ℝ 6 => stack3 fun i =>
        sandwich (pose.rotation.mul ⟨x 3, x 4, x 5, 1⟩).toVector (p i) + pose.translation + ![x 0, x 1, x 2]) 0
      (multiplePointTransformationErrorJacobian p J pose.toVector) := by
  rw [jacobian_eq, inputR_toVector]
  apply IsJacobian.stack3
  intro i
  have hq' : pose.rotation.toVector 0 ^ 2 + pose.rotation.toVector 1 ^ 2 + pose.rotation.toVector 2 ^ 2 + pose.rotation.toVector 3 ^ 2 = 1 := by
    have : UnitQ pose.rotation := hq
    unfold UnitQ at this
    simp only [Quat.toVector]
    simp
    linarith
  have h1 := C32_wrt_error pose.rotation.toVector (p i) hq'
  have h2 := IsJacobian.inner (k := 3) (x := 0) (R := quaternionRotationErrorJacobian (p i) pose.rotation.toVector) h1
  have e : (fun x : Vec ℝ 6 => sandwich (pose.rotation.mul ⟨x 3, x 4, x 5, 1⟩).toVector (p i) + pose.translation + ![x 0, x 1, x 2]) =
      fun x : Vec ℝ (3 + 3) => (sandwich ((Quat.fromVector pose.rotation.toVector).mul ⟨inputR x 0, inputR x 1, inputR x 2, 1⟩).toVector (p i)
        + inputT x) + pose.translation := by
    funext x
    rw [← inputT_eq6, add_right_comm]
    rfl
  rw [e]
  unfold IsJacobian at *
  exact h2.add_const _

/-- The effect of an error on one point: the rotation of twice the cross product. -/
lemma rotJ_mulVec (q : Quat ℝ) (hq : UnitQ q) (v e : Vec ℝ 3) :
    quaternionRotationErrorJacobian v q.toVector *ᵥ e = q.toMatrix *ᵥ ((2 : ℝ) • crossProduct e v) := by
  unfold UnitQ at hq
  ext i
  fin_cases i <;>
    simp [quaternionRotationErrorJacobian, Quat.toVector, Quat.toMatrix, Matrix.mulVec, dotProduct, Fin.sum_univ_three, cross_apply] <;>
    ring

lemma toMatrix_orthogonal (q : Quat ℝ) (hq : UnitQ q) : q.toMatrixᵀ * q.toMatrix = 1 := by
  unfold UnitQ at hq
  ext i j
  fin_cases i <;> fin_cases j <;>
    simp [Quat.toMatrix, Matrix.mul_apply, Fin.sum_univ_three] <;>
    grind

lemma sum_stack3 (f : Fin n → Fin 3 → ℝ) : ∑ r, stack3 f r = ∑ i, ∑ j, f i j := by
  rw [← Fintype.sum_prod_type' (f := f)]
  refine (Fintype.sum_equiv (finProdFinEquiv.trans (finCongr (Nat.mul_comm n 3))) _ _ ?_).symm
  rintro ⟨i, j⟩
  simp only [stack3]
  congr 1
  · apply Fin.ext
    simp only [Equiv.trans_apply, finProdFinEquiv_apply_val, finCongr_apply, Fin.val_cast]
    omega
  · apply Fin.ext
    simp only [Equiv.trans_apply, finProdFinEquiv_apply_val, finCongr_apply, Fin.val_cast]
    omega

lemma stack3_dot (f g : Fin n → Vec ℝ 3) : stack3 f ⬝ᵥ stack3 g = ∑ i, f i ⬝ᵥ g i := by
  have : stack3 f ⬝ᵥ stack3 g = ∑ r, stack3 (fun i j => f i j * g i j) r := rfl
  rw [this, sum_stack3]
  rfl

lemma stack3_eq_zero (f : Fin n → Vec ℝ 3) : stack3 f = 0 ↔ ∀ i, f i = 0 := by
  constructor
  · intro h i
    have h1 := stack3_dot f f
    rw [h, dotProduct_zero] at h1
    have h2 := (Finset.sum_eq_zero_iff_of_nonneg fun i _ => Finset.sum_nonneg fun j _ => mul_self_nonneg (f i j)).mp h1.symm i (Finset.mem_univ i)
    exact dotProduct_self_eq_zero.mp h2
  · intro h
    funext r
    simp [stack3, h]

/-- The matrix applied to an error. -/
lemma jacobian_mulVec (p : Fin n → Vec ℝ 3) (J : Mat ℝ (3 * n) (3 + 3)) (pose : Pose ℝ) (hq : UnitQ pose.rotation) (x : Vec ℝ (3 + 3)) :
    multiplePointTransformationErrorJacobian p J pose.toVector *ᵥ x =
      stack3 fun i => pose.rotation.toMatrix *ᵥ (pose.rotation.toMatrixᵀ *ᵥ inputT x + (2 : ℝ) • crossProduct (inputR x) (p i)) := by
  have hR : pose.rotation.toMatrix * pose.rotation.toMatrixᵀ = 1 := mul_eq_one_comm.mp (toMatrix_orthogonal _ hq)
  have h : ∀ i, (hcat 1 (quaternionRotationErrorJacobian (p i) pose.rotation.toVector) : Mat ℝ 3 (3 + 3)) *ᵥ x =
      pose.rotation.toMatrix *ᵥ (pose.rotation.toMatrixᵀ *ᵥ inputT x + (2 : ℝ) • crossProduct (inputR x) (p i)) := by
    intro i
    rw [Matrix.mulVec_add, Matrix.mulVec_mulVec, hR, Matrix.one_mulVec, ← rotJ_mulVec _ hq]
    funext j
    rw [Matrix.mulVec, dotProduct, Fin.sum_univ_add]
    simp only [hcat, Fin.append_left, Fin.append_right]
    have h1 : ∑ k : Fin 3, (1 : Mat ℝ 3 3) j k * x (Fin.castAdd 3 k) = inputT x j := congrFun (Matrix.one_mulVec (inputT x)) j
    rw [h1]
    rfl
  rw [jacobian_eq, inputR_toVector]
  funext r
  exact congrFun (h _) _

lemma jacobian_sq (p : Fin n → Vec ℝ 3) (J : Mat ℝ (3 * n) (3 + 3)) (pose : Pose ℝ) (hq : UnitQ pose.rotation) (x : Vec ℝ (3 + 3)) :
    multiplePointTransformationErrorJacobian p J pose.toVector *ᵥ x ⬝ᵥ multiplePointTransformationErrorJacobian p J pose.toVector *ᵥ x =
      ∑ i, (pose.rotation.toMatrixᵀ *ᵥ inputT x + (2 : ℝ) • crossProduct (inputR x) (p i)) ⬝ᵥ
        (pose.rotation.toMatrixᵀ *ᵥ inputT x + (2 : ℝ) • crossProduct (inputR x) (p i)) := by
  rw [jacobian_mulVec p J pose hq, stack3_dot]
  refine Finset.sum_congr rfl fun i _ => ?_
  rw [Matrix.dotProduct_mulVec, ← Matrix.mulVec_transpose, Matrix.mulVec_mulVec, toMatrix_orthogonal _ hq, Matrix.one_mulVec]

lemma cross_zero_smul {e a b : Vec ℝ 3} (he : e ≠ 0) (ha : crossProduct e a = 0) (hb : crossProduct e b = 0) : crossProduct a b = 0 := by
  have h0 : e 0 ≠ 0 ∨ e 1 ≠ 0 ∨ e 2 ≠ 0 := by
    by_contra h
    push Not at h
    exact he (by funext i; fin_cases i; exacts [h.1, h.2.1, h.2.2])
  have a0 := congrFun ha 0
  have a1 := congrFun ha 1
  have a2 := congrFun ha 2
  have b0 := congrFun hb 0
  have b1 := congrFun hb 1
  have b2 := congrFun hb 2
  simp [cross_apply] at a0 a1 a2 b0 b1 b2
  rw [cross_apply]
  funext i
  rcases h0 with h | h | h <;> fin_cases i <;> simp <;> refine mul_left_cancel₀ h ?_ <;> grind

/-- **C73** The points determine the pose, to first order, exactly when three of them are not on one line. -/
theorem C73_determined (p : Fin n → Vec ℝ 3) (J : Mat ℝ (3 * n) (3 + 3)) (pose : Pose ℝ) (hq : UnitQ pose.rotation) :
    Determined (multiplePointTransformationErrorJacobian p J pose.toVector) ↔ NotCollinear (List.ofFn p) := by
  have hR := toMatrix_orthogonal _ hq
  have hR' : pose.rotation.toMatrix * pose.rotation.toMatrixᵀ = 1 := mul_eq_one_comm.mp hR
  have hker : ∀ x, multiplePointTransformationErrorJacobian p J pose.toVector *ᵥ x = 0 ↔
      ∀ i, pose.rotation.toMatrixᵀ *ᵥ inputT x + (2 : ℝ) • crossProduct (inputR x) (p i) = 0 := by
    intro x
    rw [jacobian_mulVec p J pose hq, stack3_eq_zero]
    refine forall_congr' fun i => ⟨fun h => ?_, fun h => by rw [h, Matrix.mulVec_zero]⟩
    have := congrArg (fun z => pose.rotation.toMatrixᵀ *ᵥ z) h
    simpa only [Matrix.mulVec_mulVec, hR, Matrix.one_mulVec, Matrix.mulVec_zero] using this
  constructor
  · intro hd
    by_contra hcol
    -- an error along the line, or any error if all points are the same
    obtain ⟨e, he, a, hc⟩ : ∃ e : Vec ℝ 3, e ≠ 0 ∧ ∃ a, ∀ i, crossProduct e (p i) = crossProduct e a := by
      unfold NotCollinear at hcol
      push Not at hcol
      by_cases hsame : ∀ i j, p i = p j
      · refine ⟨![1, 0, 0], fun h => by have := congrFun h 0; simp at this, ?_⟩
        rcases n with _ | n
        · exact ⟨0, fun i => i.elim0⟩
        · exact ⟨p 0, fun i => by rw [hsame i 0]⟩
      · push Not at hsame
        obtain ⟨i, j, hij⟩ := hsame
        refine ⟨p j - p i, fun h => hij (sub_eq_zero.mp h).symm, p i, fun k => ?_⟩
        have := hcol (p i) (by simp) (p j) (by simp) (p k) (by simp)
        rw [map_sub] at this
        exact sub_eq_zero.mp this
    have hx := hd (Fin.append (-((2 : ℝ) • (pose.rotation.toMatrix *ᵥ crossProduct e a))) e) ((hker _).mpr fun i => by
      have h1 : inputT (Fin.append (-((2 : ℝ) • (pose.rotation.toMatrix *ᵥ crossProduct e a))) e) =
          -((2 : ℝ) • (pose.rotation.toMatrix *ᵥ crossProduct e a)) := by
        funext k; exact Fin.append_left _ _ _
      have h2 : inputR (Fin.append (-((2 : ℝ) • (pose.rotation.toMatrix *ᵥ crossProduct e a))) e) = e := by
        funext k; exact Fin.append_right _ _ _
      rw [h1, h2, hc i, Matrix.mulVec_neg, Matrix.mulVec_smul, Matrix.mulVec_mulVec, hR, Matrix.one_mulVec, neg_add_cancel])
    apply he
    funext k
    have := congrFun hx (Fin.natAdd 3 k)
    rw [Fin.append_right] at this
    exact this
  · rintro ⟨a, ha, b, hb, c, hc, hne⟩ x hx
    obtain ⟨i, rfl⟩ := List.mem_ofFn.mp ha
    obtain ⟨j, rfl⟩ := List.mem_ofFn.mp hb
    obtain ⟨k, rfl⟩ := List.mem_ofFn.mp hc
    have h := (hker x).mp hx
    have hd : ∀ l, crossProduct (inputR x) (p l - p i) = 0 := by
      intro l
      rw [map_sub]
      have h1 := (h l).trans (h i).symm
      have h2 := add_left_cancel h1
      rw [sub_eq_zero]
      exact smul_right_injective _ (two_ne_zero) h2
    have he : inputR x = 0 := by
      by_contra he
      exact hne (cross_zero_smul he (hd j) (hd k))
    have ht : inputT x = 0 := by
      have h1 := h i
      rw [he] at h1
      simp only [map_zero, LinearMap.zero_apply, smul_zero, add_zero] at h1
      have := congrArg (fun z => pose.rotation.toMatrix *ᵥ z) h1
      simpa only [Matrix.mulVec_mulVec, hR', Matrix.one_mulVec, Matrix.mulVec_zero] using this
    funext r
    induction r using Fin.addCases with
    | left r => exact congrFun ht r
    | right r => exact congrFun he r

lemma residual_nonneg (a b : List (Vec ℝ 3)) (pose : Pose ℝ) : 0 ≤ AbsoluteOrientation.residual a b pose := by
  by_cases h : a = []
  · subst h; simp [AbsoluteOrientation.residual]
  · rw [(C38_residual a b h pose).1]
    refine div_nonneg (List.sum_nonneg fun x hx => ?_) (by positivity)
    obtain ⟨y, _, rfl⟩ := List.mem_map.mp hx
    exact Real.sqrt_nonneg _

section covariance

variable (gesvd : Mat ℝ (3 * n) (3 + 3) → Vec ℝ (3 + 3) × Mat ℝ (3 * n) (3 + 3) × Mat ℝ (3 + 3) (3 + 3))

/-- **C73** For points that are not on one line and a pose that does not map them exactly, the result is the covariance of the
pose when every coordinate of a point has the residual as variance; it depends neither on the previous content of the result
nor on that of the new matrix. -/
theorem C73_covariance (hg : ThinSVD gesvd) (J : Mat ℝ (3 * n) (3 + 3)) (a b : Fin n → Vec ℝ 3) (pose : Pose ℝ)
    (hq : UnitQ pose.rotation) (R : Mat ℝ (3 + 3) (3 + 3)) (hcol : NotCollinear (List.ofFn b))
    (hr : Resolvable (multiplePointTransformationErrorJacobian b 0 pose.toVector))
    (hres : AbsoluteOrientation.residual (List.ofFn a) (List.ofFn b) pose ≠ 0) :
    ∃ C, estimatePose6DCovariance gesvd J a pose b R = some C ∧ C.PosSemidef ∧
      ParameterCovariance (multiplePointTransformationErrorJacobian b 0 pose.toVector)
        (AbsoluteOrientation.residual (List.ofFn a) (List.ofFn b) pose • 1) C := by
  have h0 := residual_nonneg (List.ofFn a) (List.ofFn b) pose
  have hd := (C73_determined b 0 pose hq).mpr hcol
  obtain ⟨C, h1, h2⟩ := C72_identity_inverse gesvd hg R _ (lt_of_le_of_ne h0 (Ne.symm hres)) _ hr hd
  have hJ : multiplePointTransformationErrorJacobian b J pose.toVector = multiplePointTransformationErrorJacobian b 0 pose.toVector := by
    rw [jacobian_eq, jacobian_eq]
  have h3 : estimatePose6DCovariance gesvd J a pose b R = some C := by
    unfold estimatePose6DCovariance
    simp only []
    rw [hJ]
    exact h1
  exact ⟨C, h3, ((C72_identity_valid gesvd hg R _ _).2 C h1).1, h2⟩

/-- **C73** The covariance is zero exactly when the pose maps the points exactly. -/
theorem C73_exact (hg : ThinSVD gesvd) (J : Mat ℝ (3 * n) (3 + 3)) (a b : Fin n → Vec ℝ 3) (pose : Pose ℝ)
    (hq : UnitQ pose.rotation) (R : Mat ℝ (3 + 3) (3 + 3)) (hcol : NotCollinear (List.ofFn b))
    (hr : Resolvable (multiplePointTransformationErrorJacobian b 0 pose.toVector)) :
    estimatePose6DCovariance gesvd J a pose b R = some 0 ↔ ∀ i, pose.apply (b i) = a i := by
  have hn : n ≠ 0 := by
    rintro rfl
    obtain ⟨x, hx, _⟩ := hcol
    simp at hx
  have hiff : AbsoluteOrientation.residual (List.ofFn a) (List.ofFn b) pose = 0 ↔ ∀ i, pose.apply (b i) = a i := by
    rw [(C38_residual (List.ofFn a) (List.ofFn b) (by simpa using hn) pose).2]
    constructor
    · intro h i
      refine h (a i, b i) ?_
      rw [List.mem_iff_getElem]
      exact ⟨i.val, by simp, by simp⟩
    · intro h q hq
      rw [List.mem_iff_getElem] at hq
      obtain ⟨i, hi, rfl⟩ := hq
      simp only [List.length_zip, List.length_ofFn, lt_min_iff] at hi
      have := h ⟨i, hi.1⟩
      simpa using this
  rw [← hiff]
  constructor
  · intro h
    by_contra hres
    obtain ⟨C, h1, _, h2⟩ := C73_covariance gesvd hg J a b pose hq R hcol hr hres
    rw [h] at h1
    rw [← Option.some_injective _ h1] at h2
    unfold ParameterCovariance at h2
    rw [Matrix.zero_mul] at h2
    have := congrFun (congrFun h2 0) 0
    simp at this
  · intro hres
    have hd := (C73_determined b 0 pose hq).mpr hcol
    obtain ⟨P, hP⟩ := exists_pinv gesvd hg (multiplePointTransformationErrorJacobian b 0 pose.toVector)
    have := C72_identity gesvd hg R 0 le_rfl _ (ne_zero_of_determined hd) hr P hP
    unfold estimatePose6DCovariance
    simp only []
    rw [hres, jacobian_eq, ← jacobian_eq b 0, this]
    simp

lemma residual_scale (a b : List (Vec ℝ 3)) (pose : Pose ℝ) (c : ℝ) (hc : 0 < c) :
    AbsoluteOrientation.residual (a.map (c • ·)) (b.map (c • ·)) ⟨pose.rotation, c • pose.translation⟩ =
      c * AbsoluteOrientation.residual a b pose := by
  by_cases h : a = []
  · subst h; simp [AbsoluteOrientation.residual]
  · rw [(C38_residual _ _ (by simpa using h) _).1, (C38_residual a b h pose).1, List.zip_map, List.map_map, List.length_map,
      ← mul_div_assoc, ← List.sum_map_mul_left]
    congr 2
    refine List.map_congr_left fun q _ => ?_
    simp only [Function.comp_apply, Prod.map_apply]
    have e : c • q.1 - (⟨pose.rotation, c • pose.translation⟩ : Pose ℝ).apply (c • q.2) = c • (q.1 - pose.apply q.2) := by
      have hl : pose.rotation.rotate (c • q.2) = c • pose.rotation.rotate q.2 := by
        ext i
        fin_cases i <;> simp [Quat.rotate] <;> ring
      simp only [Pose.apply]
      rw [hl, smul_sub, smul_add]
    have e2 : lenSq (c • (q.1 - pose.apply q.2)) = c ^ 2 * lenSq (q.1 - pose.apply q.2) := by
      simp [lenSq]; ring
    change Real.sqrt (lenSq (c • q.1 - (⟨pose.rotation, c • pose.translation⟩ : Pose ℝ).apply (c • q.2))) = _
    rw [e, e2, Real.sqrt_mul (sq_nonneg c), Real.sqrt_sq hc.le]

lemma jacobian_scale (b : Fin n → Vec ℝ 3) (pose : Pose ℝ) (c : ℝ) (hc : c ≠ 0) :
    multiplePointTransformationErrorJacobian (fun i => c • b i) 0 (⟨pose.rotation, c • pose.translation⟩ : Pose ℝ).toVector =
      multiplePointTransformationErrorJacobian b 0 pose.toVector * (c • (unitChange c)⁻¹) := by
  have hinv : (unitChange c)⁻¹ = Matrix.diagonal (Fin.append (fun _ : Fin 3 => c⁻¹) (fun _ : Fin 3 => 1)) := by
    apply Matrix.inv_eq_right_inv
    unfold unitChange
    rw [Matrix.diagonal_mul_diagonal, ← Matrix.diagonal_one]
    congr 1
    funext i
    induction i using Fin.addCases with
    | left i => rw [Fin.append_left, Fin.append_left, mul_inv_cancel₀ hc]
    | right i => rw [Fin.append_right, Fin.append_right, mul_one]
  rw [hinv, ← Matrix.diagonal_smul, jacobian_eq, jacobian_eq, inputR_toVector, inputR_toVector]
  ext r k
  refine Eq.trans ?_ (Matrix.mul_diagonal _ _ _ _).symm
  simp only [stack3, hcat, Pi.smul_apply, smul_eq_mul]
  induction k using Fin.addCases with
  | left k => rw [Fin.append_left, Fin.append_left, Fin.append_left, mul_inv_cancel₀ hc, mul_one]
  | right k =>
    rw [Fin.append_right, Fin.append_right, Fin.append_right, mul_one]
    generalize (⟨r.val % 3, _⟩ : Fin 3) = r'
    fin_cases r' <;> fin_cases k <;> simp [quaternionRotationErrorJacobian] <;> ring

/-- **C73** (refuted) A covariance must follow a change of the unit of length: the same points in a unit `c` times smaller have
coordinates `c` times larger, and their covariance is `D C D`. The code returns `1/c` of it, because it uses the mean distance
as a variance. -/
theorem C73_units_refuted (hg : ThinSVD gesvd) (J J' : Mat ℝ (3 * n) (3 + 3)) (a b : Fin n → Vec ℝ 3) (pose : Pose ℝ)
    (hq : UnitQ pose.rotation) (R R' : Mat ℝ (3 + 3) (3 + 3)) (hcol : NotCollinear (List.ofFn b)) (c : ℝ) (hc : 0 < c) (hc1 : c ≠ 1)
    (hr : Resolvable (multiplePointTransformationErrorJacobian b 0 pose.toVector))
    (hr' : Resolvable (multiplePointTransformationErrorJacobian (fun i => c • b i) 0 (⟨pose.rotation, c • pose.translation⟩ : Pose ℝ).toVector))
    (hres : AbsoluteOrientation.residual (List.ofFn a) (List.ofFn b) pose ≠ 0) :
    ∃ C C', estimatePose6DCovariance gesvd J a pose b R = some C ∧
      estimatePose6DCovariance gesvd J' (fun i => c • a i) ⟨pose.rotation, c • pose.translation⟩ (fun i => c • b i) R' = some C' ∧
      C' = c⁻¹ • (unitChange c * C * unitChange c) ∧ C' ≠ unitChange c * C * unitChange c := by
  have hc0 : c ≠ 0 := hc.ne'
  obtain ⟨C, h1, _, h2⟩ := C73_covariance gesvd hg J a b pose hq R hcol hr hres
  have hof : ∀ f : Fin n → Vec ℝ 3, (List.ofFn fun i => c • f i) = (List.ofFn f).map (c • ·) := fun f => by
    rw [List.map_ofFn]; rfl
  have hcol' : NotCollinear (List.ofFn fun i => c • b i) := by
    rw [hof]
    obtain ⟨x, hx, y, hy, z, hz, hne⟩ := hcol
    refine ⟨c • x, List.mem_map_of_mem hx, c • y, List.mem_map_of_mem hy, c • z, List.mem_map_of_mem hz, ?_⟩
    rw [← smul_sub, ← smul_sub, map_smul, map_smul, LinearMap.smul_apply, smul_smul]
    exact smul_ne_zero (mul_ne_zero hc0 hc0) hne
  have hres' := residual_scale (List.ofFn a) (List.ofFn b) pose c hc
  rw [← hof, ← hof] at hres'
  obtain ⟨C', h1', _, h2'⟩ := C73_covariance gesvd hg J' (fun i => c • a i) (fun i => c • b i) ⟨pose.rotation, c • pose.translation⟩ hq R'
    hcol' hr' (by rw [hres']; exact mul_ne_zero hc0 hres)
  generalize AbsoluteOrientation.residual (List.ofFn a) (List.ofFn b) pose = e at *
  rw [hres'] at h2'
  rw [jacobian_scale b pose c hc0] at h2'
  generalize multiplePointTransformationErrorJacobian b 0 pose.toVector = M at *
  have hinv : ∀ {m : ℕ} (s : ℝ), s ≠ 0 → (s • (1 : Mat ℝ m m))⁻¹ = s⁻¹ • 1 := fun s hs => by
    apply Matrix.inv_eq_right_inv
    simp only [Matrix.mul_smul, Matrix.mul_one, smul_smul]
    rw [inv_mul_cancel₀ hs, one_smul]
  unfold ParameterCovariance at h2 h2'
  rw [hinv _ hres] at h2
  rw [hinv _ (mul_ne_zero hc0 hres)] at h2'
  simp only [Matrix.mul_smul, Matrix.smul_mul, Matrix.mul_one, Matrix.transpose_mul, Matrix.transpose_smul, smul_smul] at h2 h2'
  have hsym : ((unitChange c)⁻¹)ᵀ = (unitChange c)⁻¹ := by
    rw [Matrix.transpose_nonsing_inv]
    unfold unitChange
    rw [Matrix.diagonal_transpose]
  have hU : unitChange c * (unitChange c)⁻¹ = 1 := by
    apply Matrix.mul_nonsing_inv
    unfold unitChange
    rw [Matrix.det_diagonal, isUnit_iff_ne_zero, Finset.prod_ne_zero_iff]
    intro i _
    induction i using Fin.addCases with
    | left i => rw [Fin.append_left]; exact hc0
    | right i => rw [Fin.append_right]; exact one_ne_zero
  rw [hsym] at h2'
  have hU' : (unitChange c)⁻¹ * unitChange c = 1 := mul_eq_one_comm.mp hU
  generalize unitChange c = U at *
  -- both are inverses of the same matrix
  have hG : (e⁻¹ • (Mᵀ * M)) * C = 1 := mul_eq_one_comm.mp (by rw [Matrix.mul_smul]; exact h2)
  have key : C' = c⁻¹ • (U * C * U) := by
    have h3 : C' * (U⁻¹ * (Mᵀ * (M * U⁻¹))) = (e * c⁻¹) • 1 := by
      have : (c * (c * (c * e)⁻¹)) • (C' * (U⁻¹ * (Mᵀ * (M * U⁻¹)))) = 1 := by
        rw [← h2']
        congr 1
        · ring
        · simp only [Matrix.mul_assoc]
      have h4 := congrArg (fun z => (e * c⁻¹) • z) this
      simp only [smul_smul] at h4
      rw [← h4]
      have : e * c⁻¹ * (c * (c * (c * e)⁻¹)) = 1 := by field_simp
      rw [this, one_smul]
    calc C' = C' * (U⁻¹ * ((e⁻¹ • (Mᵀ * M)) * (U⁻¹ * U) * C)) * U := by
          rw [hU', Matrix.mul_one, hG, Matrix.mul_one, Matrix.mul_assoc, hU', Matrix.mul_one]
      _ = e⁻¹ • (C' * (U⁻¹ * (Mᵀ * (M * U⁻¹)))) * (U * C * U) := by
          simp only [Matrix.smul_mul, Matrix.mul_smul, Matrix.mul_assoc]
      _ = _ := by
          rw [h3, smul_smul, Matrix.smul_mul, Matrix.one_mul]
          congr 1
          field_simp
  refine ⟨C, C', h1, h1', key, fun h => ?_⟩
  rw [key] at h
  have h5 : (c⁻¹ - 1) • (U * C * U) = 0 := by rw [sub_smul, h, one_smul, sub_self]
  have hne : c⁻¹ - 1 ≠ 0 := by
    intro h6
    have : c⁻¹ = 1 := by linarith
    exact hc1 (inv_eq_one.mp this)
  have h6 : U * C * U = 0 := (smul_eq_zero.mp h5).resolve_left hne
  have h7 : C = 0 := by
    calc C = U⁻¹ * (U * C * U) * U⁻¹ := by
          simp only [Matrix.mul_assoc]
          rw [hU, Matrix.mul_one, ← Matrix.mul_assoc, hU', Matrix.one_mul]
      _ = 0 := by rw [h6]; simp
  rw [h7] at h2
  simp only [Matrix.zero_mul, smul_zero] at h2
  have := congrFun (congrFun h2 0) 0
  simp at this

end covariance

/-- Four points in a plane, as an example. -/
def square (c : ℝ) : Fin 4 → Vec ℝ 3 := fun i => c • (![![1, 0, 0], ![-1, 0, 0], ![0, 1, 0], ![0, -1, 0]] : Fin 4 → Vec ℝ 3) i

lemma square_resolvable (c : ℝ) (h1 : 1 ≤ c) (h2 : c ≤ 2) (t : Vec ℝ 3) :
    Resolvable (multiplePointTransformationErrorJacobian (square c) 0 (⟨Quat.one, t⟩ : Pose ℝ).toVector) := by
  have hn : ∀ x : Vec ℝ (3 + 3), multiplePointTransformationErrorJacobian (square c) 0 (⟨Quat.one, t⟩ : Pose ℝ).toVector *ᵥ x ⬝ᵥ
      multiplePointTransformationErrorJacobian (square c) 0 (⟨Quat.one, t⟩ : Pose ℝ).toVector *ᵥ x =
      4 * (x 0 ^ 2 + x 1 ^ 2 + x 2 ^ 2) + 8 * c ^ 2 * (x 3 ^ 2 + x 4 ^ 2 + 2 * x 5 ^ 2) := by
    intro x
    rw [jacobian_sq _ _ _ (by norm_num [UnitQ, Quat.one])]
    have e0 : inputT x = ![x 0, x 1, x 2] := (inputT_eq6 x).symm
    have e1 : inputR x = ![x 3, x 4, x 5] := (inputR_eq6 x).symm
    have e2 : (Quat.one : Quat ℝ).toMatrix = 1 := by
      ext i j
      fin_cases i <;> fin_cases j <;> simp [Quat.one, Quat.toMatrix]
    rw [e0, e1]
    simp only [e2, Matrix.transpose_one, Matrix.one_mulVec, Fin.sum_univ_four, dotProduct, Fin.sum_univ_three, square, cross_apply]
    simp
    ring
  intro x y hx hy _
  rw [hn, hn]
  have hc : 1 ≤ c ^ 2 := by nlinarith
  have hc' : c ^ 2 ≤ 4 := by nlinarith
  have hxe : x 0 * x 0 + x 1 * x 1 + x 2 * x 2 + x 3 * x 3 + x 4 * x 4 + x 5 * x 5 = 1 := (Fin.sum_univ_six fun i : Fin 6 => x i * x i).symm.trans hx
  have hye : y 0 * y 0 + y 1 * y 1 + y 2 * y 2 + y 3 * y 3 + y 4 * y 4 + y 5 * y 5 = 1 := (Fin.sum_univ_six fun i : Fin 6 => y i * y i).symm.trans hy
  have hA : 4 ≤ 4 * (x 0 ^ 2 + x 1 ^ 2 + x 2 ^ 2) + 8 * c ^ 2 * (x 3 ^ 2 + x 4 ^ 2 + 2 * x 5 ^ 2) := by
    have : 8 * (x 3 ^ 2 + x 4 ^ 2 + 2 * x 5 ^ 2) ≤ 8 * c ^ 2 * (x 3 ^ 2 + x 4 ^ 2 + 2 * x 5 ^ 2) := by
      have hp : 0 ≤ x 3 ^ 2 + x 4 ^ 2 + 2 * x 5 ^ 2 := by positivity
      nlinarith
    nlinarith [sq_nonneg (x 3), sq_nonneg (x 4), sq_nonneg (x 5)]
  have hB : 4 * (y 0 ^ 2 + y 1 ^ 2 + y 2 ^ 2) + 8 * c ^ 2 * (y 3 ^ 2 + y 4 ^ 2 + 2 * y 5 ^ 2) ≤ 64 := by
    have : 8 * c ^ 2 * (y 3 ^ 2 + y 4 ^ 2 + 2 * y 5 ^ 2) ≤ 32 * (y 3 ^ 2 + y 4 ^ 2 + 2 * y 5 ^ 2) := by
      have hp : 0 ≤ y 3 ^ 2 + y 4 ^ 2 + 2 * y 5 ^ 2 := by positivity
      nlinarith
    nlinarith [sq_nonneg (y 0), sq_nonneg (y 1), sq_nonneg (y 2), sq_nonneg (y 3), sq_nonneg (y 4)]
  linarith

/-- The hypotheses of the theorems are met by a square of points, moved by the pose up to an error. -/
example : ∃ gesvd : Mat ℝ (3 * 4) (3 + 3) → Vec ℝ (3 + 3) × Mat ℝ (3 * 4) (3 + 3) × Mat ℝ (3 + 3) (3 + 3), ThinSVD gesvd ∧
    ∃ C C', estimatePose6DCovariance gesvd 0 (fun i => square 1 i + ![1, 0, 0]) ⟨Quat.one, 0⟩ (square 1) 0 = some C ∧
      estimatePose6DCovariance gesvd 0 (fun i => (2 : ℝ) • (square 1 i + ![1, 0, 0])) ⟨Quat.one, (2 : ℝ) • 0⟩
        (fun i => (2 : ℝ) • square 1 i) 0 = some C' ∧
      C' = (2 : ℝ)⁻¹ • (unitChange 2 * C * unitChange 2) ∧ C' ≠ unitChange 2 * C * unitChange 2 := by
  obtain ⟨gesvd, hg⟩ := exists_thinSVD_tall (n := 3 * 4) (m := 3 + 3) (by norm_num)
  refine ⟨gesvd, hg, C73_units_refuted gesvd hg 0 0 _ _ ⟨Quat.one, 0⟩ (by norm_num [UnitQ, Quat.one]) 0 0 ?_ 2 (by norm_num)
    (by norm_num) (square_resolvable 1 le_rfl (by norm_num) 0) ?_ ?_⟩
  · refine ⟨square 1 0, by simp, square 1 1, by simp, square 1 2, by simp, fun h => ?_⟩
    have := congrFun h 2
    simp [cross_apply, square] at this
    norm_num at this
  · have : (fun i => (2 : ℝ) • square 1 i) = square 2 := by
      funext i
      simp [square]
    rw [this]
    exact square_resolvable 2 (by norm_num) le_rfl _
  · intro h
    rw [(C38_residual _ _ (by simp) _).2] at h
    have := h (square 1 0 + ![1, 0, 0], square 1 0) (by simp [List.ofFn_succ])
    have := congrFun this 0
    simp [Pose.apply, Quat.rotate, square, Quat.one] at this
    norm_num at this

end Ubitrack.CovarianceEstimation
