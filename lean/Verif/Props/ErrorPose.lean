import Verif.Model.ErrorPose
import Verif.Spec.ErrorPose
import Verif.Spec.Rotation
import Verif.Proofs.Rotation
import Verif.Proofs.Deriv
import Verif.Props.Kalman

/-!
# C33: error propagation for poses
-/

namespace Ubitrack.ErrorPose

open Spec Stochastic
open scoped Matrix

/-- The specification is consistent: the error of a disturbed pose is the disturbance. -/
theorem errorOf_perturb (p : Pose ℝ) (hp : UnitQ p.rotation) (e : Vec ℝ 6) : errorOf p (perturb p e) = e := by
  unfold UnitQ at hp
  ext i
  fin_cases i <;> simp [errorOf, perturb, Quat.mul, Quat.conj] <;> first | ring1 | grind

theorem perturb_rot (p : Pose ℝ) (e : Vec ℝ 6) :
    HasDerivQ (fun s : ℝ => (perturb p (s • e)).rotation) (p.rotation.mul ⟨e 3, e 4, e 5, 0⟩) 0 := by
  have hl : ∀ c : ℝ, HasDerivAt (fun s : ℝ => s * c) c 0 := fun c => by
    simpa using (hasDerivAt_id (0 : ℝ)).mul_const c
  have h : HasDerivQ (fun s : ℝ => (⟨(s • e) 3, (s • e) 4, (s • e) 5, 1⟩ : Quat ℝ)) ⟨e 3, e 4, e 5, 0⟩ 0 :=
    ⟨hl _, hl _, hl _, hasDerivAt_const _ _⟩
  have h2 := (HasDerivQ.const p.rotation 0).mul h
  have e : ∀ r : Quat ℝ, ((⟨0, 0, 0, 0⟩ : Quat ℝ).mul r).add (p.rotation.mul ⟨e 3, e 4, e 5, 0⟩) = p.rotation.mul ⟨e 3, e 4, e 5, 0⟩ := by
    intro r; ext <;> simp [Quat.add, Quat.mul]
  rw [e] at h2
  exact h2

theorem perturb_tr (p : Pose ℝ) (e : Vec ℝ 6) (i : Fin 3) :
    HasDerivAt (fun s : ℝ => (perturb p (s • e)).translation i) ((![e 0, e 1, e 2] : Vec ℝ 3) i) 0 := by
  have hl : ∀ a c : ℝ, HasDerivAt (fun s : ℝ => a + s * c) c 0 := fun a c => by
    simpa using ((hasDerivAt_id (0 : ℝ)).mul_const c).const_add a
  fin_cases i
  · exact hl _ _
  · exact hl _ _
  · exact hl _ _

theorem perturb_zero (p : Pose ℝ) (e : Vec ℝ 6) : perturb p ((0 : ℝ) • e) = p := by
  ext i
  · simp [perturb, Quat.mul]
  · simp [perturb, Quat.mul]
  · simp [perturb, Quat.mul]
  · simp [perturb, Quat.mul]
  · fin_cases i <;> simp [perturb]

/-- The derivative of `errorOf`. -/
theorem errorOf_deriv (p : Pose ℝ) {c : ℝ → Pose ℝ} {q' : Quat ℝ} {t' : Vec ℝ 3} (hq : HasDerivQ (fun s => (c s).rotation) q' 0)
    (ht : ∀ i, HasDerivAt (fun s => (c s).translation i) (t' i) 0) (i : Fin 6) :
    HasDerivAt (fun s => errorOf p (c s) i)
      ((![t' 0, t' 1, t' 2, (p.rotation.conj.mul q').x, (p.rotation.conj.mul q').y, (p.rotation.conj.mul q').z] : Vec ℝ 6) i) 0 := by
  have hr := (HasDerivQ.const p.rotation.conj 0).mul hq
  have e : ∀ r : Quat ℝ, ((⟨0, 0, 0, 0⟩ : Quat ℝ).mul r).add (p.rotation.conj.mul q') = p.rotation.conj.mul q' := by
    intro r; ext <;> simp [Quat.add, Quat.mul]
  rw [e] at hr
  fin_cases i
  · exact (ht 0).sub_const _
  · exact (ht 1).sub_const _
  · exact (ht 2).sub_const _
  · exact hr.x
  · exact hr.y
  · exact hr.z

/-- **C33** The two Jacobians used to multiply poses are the derivatives of the error of the product with respect to
the errors of the factors. -/
theorem C33_multiplication (a b : Pose ℝ) (ha : UnitQ a.rotation) (hb : UnitQ b.rotation) :
    IsErrorJacobian₂ Pose.mul a b (multiplicationJacobian1 a b) (multiplicationJacobian2 a) := by
  intro e f i
  have hq := (perturb_rot a e).mul (perturb_rot b f)
  have ht : ∀ j, HasDerivAt (fun s : ℝ => (Pose.mul (perturb a (s • e)) (perturb b (s • f))).translation j)
      ((rotateD a.rotation (a.rotation.mul ⟨e 3, e 4, e 5, 0⟩) b.translation ![f 0, f 1, f 2] + ![e 0, e 1, e 2]) j) 0 := by
    intro j
    have h1 := ((perturb_rot a e).rotate (perturb_tr b f) j).add (perturb_tr a e j)
    rw [perturb_zero, perturb_zero] at h1
    exact h1
  have key := errorOf_deriv (a.mul b) (c := fun s : ℝ => Pose.mul (perturb a (s • e)) (perturb b (s • f))) hq ht i
  refine key.congr_deriv ?_
  rw [perturb_zero, perturb_zero]
  unfold UnitQ at ha hb
  obtain ⟨⟨ax, ay, az, aw⟩, at'⟩ := a
  obtain ⟨⟨bx, byy, bz, bw⟩, bt⟩ := b
  dsimp only at ha hb
  fin_cases i
  · simp [multiplicationJacobian1, multiplicationJacobian2, Matrix.mulVec, dotProduct, Fin.sum_univ_succ, rotateD, Quat.rotate, Quat.mul, Quat.conj, Quat.add, Pose.mul]
    grind
  · simp [multiplicationJacobian1, multiplicationJacobian2, Matrix.mulVec, dotProduct, Fin.sum_univ_succ, rotateD, Quat.rotate, Quat.mul, Quat.conj, Quat.add, Pose.mul]
    grind
  · simp [multiplicationJacobian1, multiplicationJacobian2, Matrix.mulVec, dotProduct, Fin.sum_univ_succ, rotateD, Quat.rotate, Quat.mul, Quat.conj, Quat.add, Pose.mul]
    grind
  · simp [multiplicationJacobian1, multiplicationJacobian2, Matrix.mulVec, dotProduct, Fin.sum_univ_succ, rotateD, Quat.rotate, Quat.mul, Quat.conj, Quat.add, Pose.mul]
    grind
  · simp [multiplicationJacobian1, multiplicationJacobian2, Matrix.mulVec, dotProduct, Fin.sum_univ_succ, rotateD, Quat.rotate, Quat.mul, Quat.conj, Quat.add, Pose.mul]
    grind
  · simp [multiplicationJacobian1, multiplicationJacobian2, Matrix.mulVec, dotProduct, Fin.sum_univ_succ, rotateD, Quat.rotate, Quat.mul, Quat.conj, Quat.add, Pose.mul]
    grind

/-- **C33** The Jacobian used to apply a pose to a point is the derivative of the transformed point with respect to the
error of the pose. -/
theorem C33_times_vector (a : Pose ℝ) (ha : UnitQ a.rotation) (v : Vec ℝ 3) (e : Vec ℝ 6) (i : Fin 3) :
    HasDerivAt (fun s : ℝ => (perturb a (s • e)).apply v i) ((errorPoseTimesVectorJacobian a v).mulVec e i) 0 := by
  have h1 := ((perturb_rot a e).rotate (v := fun _ => v) (v' := 0) (fun j => hasDerivAt_const _ _) i).add (perturb_tr a e i)
  rw [perturb_zero] at h1
  refine HasDerivAt.congr_deriv h1 ?_
  unfold UnitQ at ha
  obtain ⟨⟨ax, ay, az, aw⟩, at'⟩ := a
  dsimp only at ha
  fin_cases i
  · simp [errorPoseTimesVectorJacobian, Matrix.mulVec, dotProduct, Fin.sum_univ_succ, rotateD, Quat.rotate, Quat.mul]
    grind
  · simp [errorPoseTimesVectorJacobian, Matrix.mulVec, dotProduct, Fin.sum_univ_succ, rotateD, Quat.rotate, Quat.mul]
    grind
  · simp [errorPoseTimesVectorJacobian, Matrix.mulVec, dotProduct, Fin.sum_univ_succ, rotateD, Quat.rotate, Quat.mul]
    grind

/-- The matrix that negates the rotation part of an error. -/
def negRot : Mat ℝ 6 6 := Matrix.diagonal ![1, 1, 1, -1, -1, -1]

/-- **C33** The inversion Jacobian becomes the derivative of the error of the inverse when the sign of the rotation part
of the result is changed. -/
theorem C33_inversion_partial (a : Pose ℝ) (ha : UnitQ a.rotation) :
    IsErrorJacobian Pose.inv a (negRot * inversionJacobian a) := by
  intro e i
  have hq := (perturb_rot a e).conj
  have ht : ∀ j, HasDerivAt (fun s : ℝ => (Pose.inv (perturb a (s • e))).translation j)
      ((-(rotateD a.rotation.conj (a.rotation.mul ⟨e 3, e 4, e 5, 0⟩).conj a.translation ![e 0, e 1, e 2])) j) 0 := by
    intro j
    have h1 := ((perturb_rot a e).conj.rotate (perturb_tr a e) j).neg
    rw [perturb_zero] at h1
    exact h1
  have key := errorOf_deriv a.inv (c := fun s : ℝ => Pose.inv (perturb a (s • e))) hq ht i
  refine key.congr_deriv ?_
  unfold UnitQ at ha
  obtain ⟨⟨ax, ay, az, aw⟩, at'⟩ := a
  dsimp only at ha
  rw [← Matrix.mulVec_mulVec]
  fin_cases i
  · simp [negRot, inversionJacobian, Matrix.mulVec, dotProduct, Fin.sum_univ_succ, rotateD, Quat.rotate, Quat.mul, Quat.conj, Pose.inv]
    grind
  · simp [negRot, inversionJacobian, Matrix.mulVec, dotProduct, Fin.sum_univ_succ, rotateD, Quat.rotate, Quat.mul, Quat.conj, Pose.inv]
    grind
  · simp [negRot, inversionJacobian, Matrix.mulVec, dotProduct, Fin.sum_univ_succ, rotateD, Quat.rotate, Quat.mul, Quat.conj, Pose.inv]
    grind
  · simp [negRot, inversionJacobian, Matrix.mulVec, dotProduct, Fin.sum_univ_succ, rotateD, Quat.rotate, Quat.mul, Quat.conj, Pose.inv]
    grind
  · simp [negRot, inversionJacobian, Matrix.mulVec, dotProduct, Fin.sum_univ_succ, rotateD, Quat.rotate, Quat.mul, Quat.conj, Pose.inv]
    grind
  · simp [negRot, inversionJacobian, Matrix.mulVec, dotProduct, Fin.sum_univ_succ, rotateD, Quat.rotate, Quat.mul, Quat.conj, Pose.inv]
    grind

/-- **C33** All covariances of results are `J C Jᵀ` (added up over independent operands), hence symmetric and positive
semi-definite whenever those of the operands are. -/
theorem C33_psd (a b : ErrorPose ℝ) (p : Pose ℝ) (v : Vec ℝ 3) (ha : a.covariance.PosSemidef) (hb : b.covariance.PosSemidef) (t : ℝ) :
    (mul a b).covariance.PosSemidef ∧ (inv a).covariance.PosSemidef ∧ (mulPose a p).covariance.PosSemidef ∧
    (poseMul p a).covariance.PosSemidef ∧ (mulVector a v).covariance.PosSemidef ∧
    (linearInterpolate a b t).covariance.PosSemidef ∧
    (mul a b).covariance = multiplicationJacobian1 a.toPose b.toPose * a.covariance * (multiplicationJacobian1 a.toPose b.toPose)ᵀ +
      multiplicationJacobian2 a.toPose * b.covariance * (multiplicationJacobian2 a.toPose)ᵀ ∧
    (mulPose a p).covariance = (mul a ⟨p, 0⟩).covariance ∧ (poseMul p a).covariance = (mul ⟨p, 0⟩ a).covariance ∧
    (mul a b).toPose = a.toPose.mul b.toPose ∧ (inv a).toPose = a.toPose.inv ∧ (mulPose a p).toPose = a.toPose.mul p ∧
    (poseMul p a).toPose = p.mul a.toPose ∧ (mulVector a v).value = a.toPose.apply v := by
  have key : ∀ {k l : ℕ} {C : Mat ℝ k k} (J : Mat ℝ l k), C.PosSemidef → (J * C * Jᵀ).PosSemidef := by
    intro k l C J hC
    have := hC.mul_mul_conjTranspose_same J
    rwa [Matrix.conjTranspose_eq_transpose_of_trivial] at this
  refine ⟨(key _ ha).add (key _ hb), key _ ha, key _ ha, key _ ha, key _ ha,
    (ha.smul (mul_self_nonneg _)).add (hb.smul (mul_self_nonneg _)), rfl, ?_, ?_, rfl, rfl, rfl, rfl, rfl⟩
  · simp [mulPose, mul]
  · simp [poseMul, mul]

/-- **C33 (refuted)** Inverting an uncertain pose twice does not give the same covariance back: for the translation
by one unit with unit covariance, a variance of 1 becomes 17. -/
theorem C33_inversion_refuted :
    ∃ a : ErrorPose ℝ, UnitQ a.toPose.rotation ∧ a.covariance.PosDef ∧ (inv (inv a)).covariance ≠ a.covariance ∧
      ¬ IsErrorJacobian Pose.inv a.toPose (inversionJacobian a.toPose) := by
  refine ⟨⟨⟨Quat.one, ![1, 0, 0]⟩, 1⟩, by simp [UnitQ, Quat.one], Matrix.PosDef.one, ?_, ?_⟩
  · intro h
    have := congrFun (congrFun h 2) 2
    simp [inv, inversionJacobian, Pose.inv, Quat.one, Quat.conj, Quat.rotate, Matrix.vecMul, dotProduct, Fin.sum_univ_succ] at this
    norm_num at this
  · intro h
    have h1 := h (Pi.single 3 1) 3
    have h2 := C33_inversion_partial (⟨Quat.one, ![1, 0, 0]⟩ : Pose ℝ) (by simp [UnitQ, Quat.one]) (Pi.single 3 1) 3
    have := h1.unique h2
    rw [← Matrix.mulVec_mulVec] at this
    simp [negRot, inversionJacobian, Quat.one, Matrix.mulVec, dotProduct, Fin.sum_univ_succ] at this
    norm_num at this

/-- Only one pair of matrices can be the error Jacobians of an operation. -/
theorem jacobian_unique {op : Pose ℝ → Pose ℝ → Pose ℝ} {a b : Pose ℝ} {J₁ J₂ L₁ L₂ : Mat ℝ 6 6}
    (h : IsErrorJacobian₂ op a b J₁ J₂) (h' : IsErrorJacobian₂ op a b L₁ L₂) : J₁ = L₁ ∧ J₂ = L₂ := by
  constructor
  · ext i j
    have := (h (Pi.single j 1) 0 i).unique (h' (Pi.single j 1) 0 i)
    simpa using this
  · ext i j
    have := (h 0 (Pi.single j 1) i).unique (h' 0 (Pi.single j 1) i)
    simpa using this

/-- **C33 (refuted)** `invertMultiply` does not propagate the errors of `~a * b`: for a rotation about the z axis, and an
error of the first pose along the x axis only, its result has a variance of 1 along x, although whatever matrices are
the Jacobians of `~a * b` give another value. -/
theorem C33_invertMultiply_refuted :
    ∃ a b : ErrorPose ℝ, UnitQ a.toPose.rotation ∧ UnitQ b.toPose.rotation ∧
      ∀ J₁ J₂, IsErrorJacobian₂ (fun p q => p.inv.mul q) a.toPose b.toPose J₁ J₂ →
        (invertMultiply a b).covariance ≠ J₁ * a.covariance * J₁ᵀ + J₂ * b.covariance * J₂ᵀ := by
  refine ⟨⟨⟨⟨0, 0, 3 / 5, 4 / 5⟩, 0⟩, Matrix.diagonal ![1, 0, 0, 0, 0, 0]⟩, ⟨⟨Quat.one, 0⟩, 0⟩, ?_, by simp [UnitQ, Quat.one], ?_⟩
  · simp [UnitQ]; norm_num
  · intro J₁ J₂ h hc
    -- the derivative of the x translation with respect to the x translation of a
    have h1 := h (Pi.single 0 1) 0 0
    have h2 : HasDerivAt (fun s : ℝ => errorOf ((Pose.mk (⟨0, 0, 3 / 5, 4 / 5⟩ : Quat ℝ) 0).inv.mul ⟨Quat.one, 0⟩)
        ((perturb (Pose.mk (⟨0, 0, 3 / 5, 4 / 5⟩ : Quat ℝ) 0) (s • (Pi.single 0 1))).inv.mul (perturb ⟨Quat.one, 0⟩ (s • 0))) 0) (-7 / 25) 0 := by
      have e : (fun s : ℝ => errorOf ((Pose.mk (⟨0, 0, 3 / 5, 4 / 5⟩ : Quat ℝ) 0).inv.mul ⟨Quat.one, 0⟩)
        ((perturb (Pose.mk (⟨0, 0, 3 / 5, 4 / 5⟩ : Quat ℝ) 0) (s • (Pi.single 0 1))).inv.mul (perturb ⟨Quat.one, 0⟩ (s • 0))) 0) =
          fun s : ℝ => s * (-7 / 25) := by
        funext s
        simp [errorOf, perturb, Pose.inv, Pose.mul, Quat.rotate, Quat.conj, Quat.mul, Quat.one]
        ring
      rw [e]
      simpa using (hasDerivAt_id (0 : ℝ)).mul_const (-7 / 25)
    have h3 := h1.unique h2
    simp at h3
    have h4 := congrFun (congrFun hc 0) 0
    rw [Matrix.mul_zero, Matrix.zero_mul, add_zero, Matrix.mul_apply] at h4
    simp only [Matrix.mul_diagonal, Matrix.transpose_apply] at h4
    simp only [invertMultiply, Matrix.mul_zero, Matrix.zero_mul, add_zero] at h4
    rw [Matrix.mul_apply] at h4
    simp only [Matrix.mul_diagonal, Matrix.transpose_apply] at h4
    simp [Fin.sum_univ_succ, h3, multiplicationJacobian1] at h4
    norm_num at h4

/-- **C33 (refuted)** Applying a pose without error to an uncertain point gives a result without any uncertainty: the
covariance of the point is ignored. -/
theorem C33_errorVector_refuted (a : Pose ℝ) (v : Vec ℝ 3) (C : Mat ℝ 3 3) :
    (mulErrorVector ⟨a, 0⟩ ⟨v, C⟩).covariance = 0 := by
  simp [mulErrorVector]

/-! ### Conversion to and from an additive seven-vector -/

theorem errorConversion_inverse (q : Quat ℝ) (hq : UnitQ q) (x : Vec ℝ 4) :
    (errorConversion q.conj x).2 * (errorConversion q x).2 = 1 := by
  unfold UnitQ at hq
  ext i j
  fin_cases i <;> fin_cases j <;> simp [errorConversion, Quat.conj, Matrix.mul_apply, Fin.sum_univ_succ] <;> grind

theorem replacesRange_mul (A B : Mat ℝ 4 4) :
    (replacesRange A 3 3 : Mat ℝ 7 7) * replacesRange B 3 3 = replacesRange (A * B) 3 3 := by
  ext i j
  fin_cases i <;> fin_cases j <;> simp [replacesRange, readsRange, Matrix.mul_apply, Fin.sum_univ_succ]

theorem replacesRange_one : (replacesRange (1 : Mat ℝ 4 4) 3 3 : Mat ℝ 7 7) = 1 := by
  ext i j
  fin_cases i <;> fin_cases j <;> simp [replacesRange, readsRange]

theorem additiveCov_symm (C : Mat ℝ 6 6) (hC : C.IsSymm) : (additiveCov C).IsSymm := by
  ext i j
  rw [Matrix.transpose_apply]
  simp only [additiveCov, Matrix.of_apply]
  by_cases hi : i.val < 6 <;> by_cases hj : j.val < 6 <;> simp [hi, hj]
  exact hC.apply _ _

/-- **C33** Converting an uncertain pose to the additive form and back gives the same pose and covariance. -/
theorem C33_additive_roundtrip (a : ErrorPose ℝ) (ha : UnitQ a.toPose.rotation) (hC : a.covariance.IsSymm) :
    fromAdditive (toAdditive a) = a := by
  obtain ⟨⟨⟨qx, qy, qz, qw⟩, t⟩, C⟩ := a
  set c : Mat ℝ 7 7 := additiveCov C with hc
  have hcs : c.IsSymm := additiveCov_symm C hC
  have h1 := C28_range (errorConversion (⟨qx, qy, qz, qw⟩ : Quat ℝ)) ⟨Pose.toVector ⟨⟨qx, qy, qz, qw⟩, t⟩, c⟩ 3 3 (by omega) hcs
  dsimp only at h1
  set v := toAdditive ⟨⟨⟨qx, qy, qz, qw⟩, t⟩, C⟩ with hv
  have hval : v.value = Pose.toVector ⟨⟨qx, qy, qz, qw⟩, t⟩ := by
    ext i
    rw [hv]
    refine (h1.1 i).trans ?_
    split_ifs with h
    · simp only [errorConversion]
      congr 1
      ext
      simp only
      omega
    · rfl
  have hcov : v.covariance = _ := h1.2
  have hvs : v.covariance.IsSymm := by
    rw [hcov]
    unfold Matrix.IsSymm
    rw [Matrix.transpose_mul, Matrix.transpose_mul, Matrix.transpose_transpose, hcs.eq, Matrix.mul_assoc]
  have h2 := C28_range (errorConversion (⟨qx, qy, qz, qw⟩ : Quat ℝ).conj) v 3 3 (by omega) hvs
  dsimp only at h2
  have hq : (Quat.fromVector ![v.value 3, v.value 4, v.value 5, v.value 6] : Quat ℝ) = ⟨qx, qy, qz, qw⟩ := by
    rw [hval]; rfl
  have hval2 : (transformRange (errorConversion (⟨qx, qy, qz, qw⟩ : Quat ℝ).conj) v 3 3 (by omega)).value = v.value := by
    ext i
    refine (h2.1 i).trans ?_
    split_ifs with h
    · simp only [errorConversion]
      congr 1
      ext
      simp only
      omega
    · rfl
  have hcov2 : (transformRange (errorConversion (⟨qx, qy, qz, qw⟩ : Quat ℝ).conj) v 3 3 (by omega)).covariance = c := by
    rw [h2.2, hcov]
    set A := (errorConversion (⟨qx, qy, qz, qw⟩ : Quat ℝ).conj (fun i => v.value ⟨3 + i, by omega⟩)).2 with hA
    set B := (errorConversion (⟨qx, qy, qz, qw⟩ : Quat ℝ) (fun i => Pose.toVector ⟨⟨qx, qy, qz, qw⟩, t⟩ ⟨3 + i, by omega⟩)).2 with hB
    have hAB : (replacesRange A 3 3 : Mat ℝ 7 7) * replacesRange B 3 3 = 1 := by
      rw [replacesRange_mul]
      have : A * B = 1 := errorConversion_inverse ⟨qx, qy, qz, qw⟩ ha 0
      rw [this, replacesRange_one]
    have : (replacesRange A 3 3 : Mat ℝ 7 7) * (replacesRange B 3 3 * c * (replacesRange B 3 3)ᵀ) * (replacesRange A 3 3)ᵀ =
        (replacesRange A 3 3 * replacesRange B 3 3) * c * (replacesRange A 3 3 * replacesRange B 3 3 : Mat ℝ 7 7)ᵀ := by
      rw [Matrix.transpose_mul]; simp only [Matrix.mul_assoc]
    rw [this, hAB, Matrix.transpose_one, Matrix.one_mul, Matrix.mul_one]
  unfold fromAdditive
  dsimp only
  rw [hq, hval2, hcov2, hval]
  congr 1
  · ext i <;> first | rfl | (fin_cases i <;> rfl)
  · ext i j
    rw [Matrix.submatrix_apply, hc]
    simp [additiveCov]

/-- **C33 (refuted)** The additive form is not the covariance of the pose vector `(t, q)`: for an error about the x axis
of a pose rotated about the z axis, the covariance of the x and y components of `q (1 + e)` is positive, but the
returned one is negative. -/
theorem C33_additive_refuted :
    ∃ a : ErrorPose ℝ, UnitQ a.toPose.rotation ∧
      (∀ i, HasDerivAt (fun s : ℝ => (perturb a.toPose (s • Pi.single 3 1)).toVector i)
        ((![0, 0, 0, 4 / 5, 3 / 5, 0, 0] : Vec ℝ 7) i) 0) ∧
      a.covariance = Matrix.diagonal ![0, 0, 0, 1, 0, 0] ∧
      (toAdditive a).covariance 3 4 = - ((4 / 5) * (3 / 5)) := by
  refine ⟨⟨⟨⟨0, 0, 3 / 5, 4 / 5⟩, 0⟩, Matrix.diagonal ![0, 0, 0, 1, 0, 0]⟩, ?_, ?_, rfl, ?_⟩
  · simp [UnitQ]; norm_num
  · intro i
    have hl : ∀ a c : ℝ, HasDerivAt (fun s : ℝ => a + s * c) c 0 := fun a c => by
      simpa using ((hasDerivAt_id (0 : ℝ)).mul_const c).const_add a
    have e : ∀ i, (fun s : ℝ => (perturb (⟨⟨0, 0, 3 / 5, 4 / 5⟩, 0⟩ : Pose ℝ) (s • Pi.single 3 1)).toVector i) =
        fun s => (![0, 0, 0, 0, 0, 3 / 5, 4 / 5] : Vec ℝ 7) i + s * (![0, 0, 0, 4 / 5, 3 / 5, 0, 0] : Vec ℝ 7) i := by
      intro i
      funext s
      fin_cases i <;> simp [perturb, Pose.toVector, Quat.toVector, Quat.mul] <;> ring
    rw [e]
    exact hl _ _
  · unfold toAdditive
    rw [(C28_range _ _ 3 3 (by omega) (additiveCov_symm _ (Matrix.isSymm_diagonal _))).2]
    simp [Matrix.mul_apply, Fin.sum_univ_succ, replacesRange, readsRange, errorConversion, additiveCov, Matrix.diagonal]

/-- Non-vacuity: a pose with unit rotation and positive definite covariance. -/
example : ∃ a : ErrorPose ℝ, UnitQ a.toPose.rotation ∧ a.covariance.PosDef ∧ a.covariance.IsSymm ∧ a.toPose.rotation.z ≠ 0 :=
  ⟨⟨⟨⟨0, 0, 3 / 5, 4 / 5⟩, ![1, 2, 3]⟩, 1⟩, by simp [UnitQ]; norm_num, Matrix.PosDef.one, Matrix.isSymm_one, by norm_num⟩

end Ubitrack.ErrorPose
