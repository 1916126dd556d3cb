import Verif.Proofs.Projection

/-!
# C55: objective functions of pose estimation
-/

namespace Ubitrack.ProjectionFunction

open Spec RotationFunction FunctionComposition

variable {n np nc : ℕ}

/-- The input is a pose with a unit quaternion in elements 3-6. -/
def UnitInput (x : Vec ℝ (3 + 4)) : Prop := x 3 ^ 2 + x 4 ^ 2 + x 5 ^ 2 + x 6 ^ 2 = 1

lemma UnitInput.inputR {x : Vec ℝ (3 + 4)} (h : UnitInput x) :
    inputR x 0 ^ 2 + inputR x 1 ^ 2 + inputR x 2 ^ 2 + inputR x 3 ^ 2 = 1 := h

lemma UnitInput.rot {x : Vec ℝ (3 + 4)} (h : UnitInput x) (v : Vec ℝ 3) :
    (Quat.fromVector (ProjectionFunction.inputR x)).toMatrix.mulVec v = sandwich (ProjectionFunction.inputR x) v := by
  rw [toMatrix_sandwich, h.inputR]
  simp

/-- Specification: `dehomogenize( C ( r p r* + t ) )`, MultiplePointProjection.h l.48, input `(t, r)`. -/
noncomputable def pointProjection (C : Mat ℝ 3 3) (p : Vec ℝ 3) (x : Vec ℝ (3 + 4)) : Vec ℝ 2 :=
  dehom (C.mulVec (sandwich ![x 3, x 4, x 5, x 6] p + ![x 0, x 1, x 2]))

lemma inputR_eq (x : Vec ℝ (3 + 4)) : ![x 3, x 4, x 5, x 6] = inputR x := by ext i; fin_cases i <;> rfl

lemma inputT_eq {k : ℕ} (x : Vec ℝ (3 + k)) :
    ![x (Fin.castAdd k 0), x (Fin.castAdd k 1), x (Fin.castAdd k 2)] = inputT x := by ext i; fin_cases i <;> rfl

lemma inputT_eq7 (x : Vec ℝ (3 + 4)) : ![x 0, x 1, x 2] = inputT x := by ext i; fin_cases i <;> rfl

lemma inputT_eq6 (x : Vec ℝ (3 + 3)) : ![x 0, x 1, x 2] = inputT x := by ext i; fin_cases i <;> rfl

lemma inputR_eq6 (x : Vec ℝ (3 + 3)) : ![x 3, x 4, x 5] = inputR x := by ext i; fin_cases i <;> rfl

/-- **C55** For every list of points, every previous content of the result and every unit quaternion, the result holds the
projections of the points in order. -/
theorem C55_point_evaluate (p : Fin n → Vec ℝ 3) (C : Mat ℝ 3 3) (r0 : Vec ℝ (2 * n)) (x : Vec ℝ (3 + 4)) (hx : UnitInput x) :
    multiplePointProjection p C r0 x = stack2 fun i => pointProjection C (p i) x := by
  unfold multiplePointProjection
  rw [foldl_setRange]
  congr 1
  funext i
  simp only [hx.rot, pointProjection, inputR_eq, inputT_eq7, dehom]

/-- **C55** The matrix returned is the Jacobian of the documented projection with respect to `(t, r)`. -/
theorem C55_point_jacobian (p : Fin n → Vec ℝ 3) (C : Mat ℝ 3 3) (J0 : Mat ℝ (2 * n) (3 + 4)) (x : Vec ℝ (3 + 4))
    (hx : UnitInput x) (hz : ∀ i, C.mulVec (sandwich ![x 3, x 4, x 5, x 6] (p i) + ![x 0, x 1, x 2]) 2 ≠ 0) :
    IsJacobian (fun x => stack2 fun i => pointProjection C (p i) x) x (multiplePointProjectionJacobian p C J0 x) := by
  unfold multiplePointProjectionJacobian
  rw [foldl_setBlock₂]
  apply IsJacobian.stack2
  intro i
  simp only [pointProjection, inputR_eq, inputT_eq7] at hz ⊢
  have h1 := IsJacobian.inner (x := x) (C32_wrt_q (inputR x) (p i)).1
  have h2 := IsJacobian.comp (IsJacobian.affine C 0 _) h1
  simp only [add_zero] at h2
  have h3 := IsJacobian.dehom h2 (hz i)
  rw [hx.rot, ← Matrix.mul_assoc] at *
  rw [mul_hcat, Matrix.mul_one] at h3
  exact h3

/-- The code evaluates with a rotation matrix that is only a rotation at unit quaternions. Its own derivative agrees with
the returned matrix in every direction tangent to the unit quaternions. -/
theorem C55_point_tangent (p : Fin n → Vec ℝ 3) (C : Mat ℝ 3 3) (r0 : Vec ℝ (2 * n)) (J0 : Mat ℝ (2 * n) (3 + 4))
    (x : Vec ℝ (3 + 4)) (hx : UnitInput x)
    (hz : ∀ i, C.mulVec (sandwich ![x 3, x 4, x 5, x 6] (p i) + ![x 0, x 1, x 2]) 2 ≠ 0) :
    ∃ J, IsJacobian (multiplePointProjection p C r0) x J ∧
      ∀ e : Vec ℝ (3 + 4), x 3 * e 3 + x 4 * e 4 + x 5 * e 5 + x 6 * e 6 = 0 →
        J.mulVec e = (multiplePointProjectionJacobian p C J0 x).mulVec e := by
  have hm : ∀ v : Vec ℝ 3, IsJacobian (fun q : Vec ℝ 4 => (Quat.fromVector q).toMatrix.mulVec v) (inputR x)
      (quaternionRotationJacobian v (inputR x) + Matrix.of fun i j => -(2 * v i * inputR x j)) := by
    intro v
    apply isJacobian_of_partials
    · rw [differentiableAt_pi]
      intro i
      fin_cases i <;> simp [Quat.toMatrix, Quat.fromVector, Matrix.mulVec, dotProduct, Fin.sum_univ_three] <;> fun_prop
    · intro i j
      fin_cases i <;> fin_cases j <;>
        simp [Quat.toMatrix, Quat.fromVector, Matrix.mulVec, dotProduct, Fin.sum_univ_three, quaternionRotationJacobian] <;>
      · refine HasDerivAt.congr_deriv (by hasderiv) ?_
        ring
  refine ⟨stack2 fun i => dehomogenizationJacobian 2 (C.mulVec (sandwich (inputR x) (p i) + inputT x)) * C *
    hcat 1 (quaternionRotationJacobian (p i) (inputR x) + Matrix.of fun a b => -(2 * p i a * inputR x b)), ?_, ?_⟩
  · have e : multiplePointProjection p C r0 = fun x => stack2 fun i =>
        dehom (C.mulVec ((Quat.fromVector (inputR x)).toMatrix.mulVec (p i) + inputT x)) := by
      funext x
      unfold multiplePointProjection
      rw [foldl_setRange]
      rfl
    rw [e]
    apply IsJacobian.stack2
    intro i
    simp only [inputR_eq, inputT_eq7] at hz
    have h1 := IsJacobian.inner (x := x) (hm (p i))
    have h2 := IsJacobian.comp (IsJacobian.affine C 0 _) h1
    simp only [add_zero] at h2
    have h3 := IsJacobian.dehom h2 (by rw [hx.rot]; exact hz i)
    rw [hx.rot, ← Matrix.mul_assoc] at h3
    exact h3
  · intro e he
    unfold multiplePointProjectionJacobian
    rw [foldl_setBlock₂]
    have he' : ∑ b, inputR x b * e (Fin.natAdd 3 b) = 0 := by
      rw [Fin.sum_univ_four]
      exact he
    have key : ∀ v : Vec ℝ 3, (hcat 1 (quaternionRotationJacobian v (inputR x) + Matrix.of fun a b => -(2 * v a * inputR x b))).mulVec e
        = (hcat 1 (quaternionRotationJacobian v (inputR x))).mulVec e := by
      intro v
      ext a
      simp only [Matrix.mulVec, dotProduct, hcat]
      rw [Fin.sum_univ_add (a := 3) (b := 4), Fin.sum_univ_add (a := 3) (b := 4)]
      simp only [Fin.append_left, Fin.append_right, Matrix.add_apply, Matrix.of_apply, add_mul, Finset.sum_add_distrib]
      have : ∑ b : Fin 4, -(2 * v a * inputR x b) * e (Fin.natAdd 3 b) = 0 := by
        have h2 : ∀ b : Fin 4, -(2 * v a * inputR x b) * e (Fin.natAdd 3 b) = (-(2 * v a)) * (inputR x b * e (Fin.natAdd 3 b)) := by
          intro b; ring
        rw [Finset.sum_congr rfl fun b _ => h2 b, ← Finset.mul_sum, he', mul_zero]
      rw [this]
      ring
    have hrow : ∀ (G : Fin n → Mat ℝ 2 (3 + 4)), Matrix.mulVec (stack2 fun i => G i) e = stack2 fun i => (G i).mulVec e := by
      intro G; rfl
    rw [hrow, hrow]
    congr 1
    funext i
    rw [← Matrix.mulVec_mulVec, key, Matrix.mulVec_mulVec, mul_hcat, Matrix.mul_one, hx.rot]

/-- **C55** Error propagation for one camera: the matrix is the Jacobian of
`dehomogenize( C ( r e_r p e_r* r* + t + e_t ) )` with respect to `(e_t, e_r)` at zero error. -/
theorem C55_point_error (p : Fin n → Vec ℝ 3) (C : Mat ℝ 3 3) (J0 : Mat ℝ (2 * n) (3 + 3)) (x : Vec ℝ (3 + 4))
    (hx : UnitInput x) (hz : ∀ i, C.mulVec (sandwich ![x 3, x 4, x 5, x 6] (p i) + ![x 0, x 1, x 2]) 2 ≠ 0) :
    IsJacobian (fun e : Vec ℝ (3 + 3) => stack2 fun i => dehom (C.mulVec
      (sandwich ((Quat.fromVector ![x 3, x 4, x 5, x 6]).mul ⟨e 3, e 4, e 5, 1⟩).toVector (p i) + (![x 0, x 1, x 2] + ![e 0, e 1, e 2])))) 0
      (multiplePointProjectionErrorJacobian p C J0 x) := by
  unfold multiplePointProjectionErrorJacobian
  rw [foldl_setBlock₂]
  apply IsJacobian.stack2
  intro i
  simp only [inputR_eq, inputT_eq7] at hz ⊢
  have h0 := C32_wrt_error (inputR x) (p i) hx.inputR
  have h1 := IsJacobian.inner (x := (0 : Vec ℝ (3 + 3)))
    (g := fun e : Vec ℝ 3 => sandwich ((Quat.fromVector (inputR x)).mul ⟨e 0, e 1, e 2, 1⟩).toVector (p i)) h0
  have hv : sandwich ((Quat.fromVector (inputR x)).mul ⟨0, 0, 0, 1⟩).toVector (p i) = sandwich (inputR x) (p i) := by
    simp [sandwich, Quat.mul, Quat.fromVector, Quat.toVector]
  have h2 := IsJacobian.comp (IsJacobian.affine C (C.mulVec (inputT x)) _) h1
  have h3 := IsJacobian.dehom h2 (by
    change (C.mulVec (sandwich ((Quat.fromVector (inputR x)).mul ⟨0, 0, 0, 1⟩).toVector (p i) + 0) + C.mulVec (inputT x)) 2 ≠ 0
    rw [hv, add_zero, ← Matrix.mulVec_add]; exact hz i)
  have e : C.mulVec (sandwich ((Quat.fromVector (inputR x)).mul ⟨inputR (0 : Vec ℝ (3 + 3)) 0, inputR (0 : Vec ℝ (3 + 3)) 1,
      inputR (0 : Vec ℝ (3 + 3)) 2, 1⟩).toVector (p i) + inputT (0 : Vec ℝ (3 + 3))) + C.mulVec (inputT x)
      = C.mulVec (sandwich (inputR x) (p i) + inputT x) := by
    change C.mulVec (sandwich ((Quat.fromVector (inputR x)).mul ⟨0, 0, 0, 1⟩).toVector (p i) + 0) + C.mulVec (inputT x) = _
    rw [hv, add_zero, ← Matrix.mulVec_add]
  rw [e, ← Matrix.mul_assoc, mul_hcat, Matrix.mul_one] at h3
  rw [hx.rot]
  convert h3 using 2 with y
  congr 1
  rw [← Matrix.mulVec_add, inputT_eq6, add_assoc, add_comm (inputT y)]
  rfl

/-- **C55** Error propagation for many cameras. -/
theorem C55_camera_error (p : Fin np → Vec ℝ 3) (P : Fin nc → Mat ℝ 3 4) (vis : Fin n → Fin np × Fin nc)
    (J0 : Mat ℝ (2 * n) (3 + 3)) (x : Vec ℝ (3 + 4)) (hx : UnitInput x)
    (hz : ∀ i, camMul (P (vis i).2) (sandwich ![x 3, x 4, x 5, x 6] (p (vis i).1) + ![x 0, x 1, x 2]) 2 ≠ 0) :
    IsJacobian (fun e : Vec ℝ (3 + 3) => stack2 fun i => dehom (camMul (P (vis i).2)
      (sandwich ((Quat.fromVector ![x 3, x 4, x 5, x 6]).mul ⟨e 3, e 4, e 5, 1⟩).toVector (p (vis i).1)
        + (![x 0, x 1, x 2] + ![e 0, e 1, e 2])))) 0
      (multipleCameraProjectionErrorJacobian p P vis J0 x) := by
  unfold multipleCameraProjectionErrorJacobian
  rw [foldl_setBlock₂]
  apply IsJacobian.stack2
  intro i
  simp only [inputR_eq, inputT_eq7, camMul_eq] at hz ⊢
  set v := p (vis i).1
  set cam := P (vis i).2 with hcam
  have h0 := C32_wrt_error (inputR x) v hx.inputR
  have h1 := IsJacobian.inner (x := (0 : Vec ℝ (3 + 3)))
    (g := fun e : Vec ℝ 3 => sandwich ((Quat.fromVector (inputR x)).mul ⟨e 0, e 1, e 2, 1⟩).toVector v) h0
  have hv : sandwich ((Quat.fromVector (inputR x)).mul ⟨0, 0, 0, 1⟩).toVector v = sandwich (inputR x) v := by
    simp [sandwich, Quat.mul, Quat.fromVector, Quat.toVector]
  have h2 := IsJacobian.comp (IsJacobian.affine (cam33 cam) ((cam33 cam).mulVec (inputT x) + camCol cam) _) h1
  have e : (cam33 cam).mulVec (sandwich ((Quat.fromVector (inputR x)).mul ⟨inputR (0 : Vec ℝ (3 + 3)) 0, inputR (0 : Vec ℝ (3 + 3)) 1,
      inputR (0 : Vec ℝ (3 + 3)) 2, 1⟩).toVector v + inputT (0 : Vec ℝ (3 + 3))) + ((cam33 cam).mulVec (inputT x) + camCol cam)
      = (cam33 cam).mulVec (sandwich (inputR x) v + inputT x) + camCol cam := by
    change (cam33 cam).mulVec (sandwich ((Quat.fromVector (inputR x)).mul ⟨0, 0, 0, 1⟩).toVector v + 0) + _ = _
    rw [hv, add_zero, ← add_assoc, ← Matrix.mulVec_add]
  have h3 := IsJacobian.dehom h2 (by rw [e]; exact hz i)
  rw [e, ← Matrix.mul_assoc, mul_hcat, Matrix.mul_one] at h3
  rw [hx.rot]
  convert h3 using 2 with y
  congr 1
  rw [← add_assoc (Matrix.mulVec _ _), ← Matrix.mulVec_add, inputT_eq6, add_assoc (sandwich _ _), add_comm (inputT y)]
  rfl

/-- **C55** Error propagation in the A.R.T. convention: the matrix is the Jacobian of
`dehomogenize( P ( E_r R ( p - c ) + R c + t + e_t ) )` with respect to `(e_t, e_r)` at zero error, where `E_r` is the
rotation with exponential map `e_r`. -/
theorem C55_camera_error_art (p : Fin np → Vec ℝ 3) (P : Fin nc → Mat ℝ 3 4) (vis : Fin n → Fin np × Fin nc) (c : Vec ℝ 3)
    (J0 : Mat ℝ (2 * n) (3 + 3)) (x : Vec ℝ (3 + 3)) :
    let R := (Quat.fromLogarithm ![x 3, x 4, x 5]).toMatrix
    (∀ i, camMul (P (vis i).2) (R.mulVec (p (vis i).1) + ![x 0, x 1, x 2]) 2 ≠ 0) →
    IsJacobian (fun e : Vec ℝ (3 + 3) => stack2 fun i => dehom (camMul (P (vis i).2)
      (expRotate (R.mulVec (p (vis i).1 - c)) ![e 3, e 4, e 5] + R.mulVec c + ![x 0, x 1, x 2] + ![e 0, e 1, e 2]))) 0
      (multipleCameraProjectionErrorARTJacobian p P vis c J0 x) := by
  intro R hz
  unfold multipleCameraProjectionErrorARTJacobian
  rw [foldl_setBlock₂]
  apply IsJacobian.stack2
  intro i
  have hR : R = (Quat.fromLogarithm (inputR x)).toMatrix := by rw [← inputR_eq6]
  rw [← hR]
  simp only [inputR_eq6, inputT_eq6, camMul_eq] at hz ⊢
  set v := p (vis i).1 with hv
  set cam := P (vis i).2 with hcam
  have hs : lieRotationJacobian (R.mulVec (v - c)) 0 = lieRotationJacobianSmall (R.mulVec (v - c)) := by
    unfold lieRotationJacobian
    rw [if_pos]
    norm_num
  have h0 := C52_lie_zero_partial (R.mulVec (v - c))
  rw [hs] at h0
  have h1 := IsJacobian.inner (x := (0 : Vec ℝ (3 + 3))) (g := expRotate (R.mulVec (v - c))) h0
  have hz0 : expRotate (R.mulVec (v - c)) 0 = R.mulVec (v - c) := by simp [expRotate]
  have h2 := IsJacobian.comp (IsJacobian.affine (cam33 cam) ((cam33 cam).mulVec (R.mulVec c + inputT x) + camCol cam) _) h1
  have e : (cam33 cam).mulVec (expRotate (R.mulVec (v - c)) (inputR (0 : Vec ℝ (3 + 3))) + inputT (0 : Vec ℝ (3 + 3)))
      + ((cam33 cam).mulVec (R.mulVec c + inputT x) + camCol cam)
      = (cam33 cam).mulVec (R.mulVec (v - c) + inputT x + R.mulVec c) + camCol cam := by
    change (cam33 cam).mulVec (expRotate (R.mulVec (v - c)) 0 + 0) + _ = _
    rw [hz0, add_zero, ← add_assoc, ← Matrix.mulVec_add]
    congr 2
    abel
  have h3 := IsJacobian.dehom h2 (by
    rw [e]
    have := hz i
    rw [show R.mulVec v + inputT x = R.mulVec (v - c) + inputT x + R.mulVec c by rw [Matrix.mulVec_sub]; abel] at this
    exact this)
  rw [e, ← Matrix.mul_assoc, mul_hcat, Matrix.mul_one] at h3
  convert h3 using 1
  · funext y
    congr 1
    rw [← add_assoc (Matrix.mulVec _ _), ← Matrix.mulVec_add]
    congr 2
    abel
  · rfl

/-- Specification: the image of a point in a camera with pose, four-parameter distortion and intrinsics; the result is
multiplied by the (2,2) element, which is 1 or -1. -/
noncomputable def cameraImage (camP : Pose ℝ) (camI : Mat ℝ 3 3) (camD : Vec ℝ 4) (y : Vec ℝ 3) : Vec ℝ 2 :=
  let d := Camera.distort4 (dehom (sandwich camP.rotation.toVector y + camP.translation)) camD
  camI 2 2 • ((!![camI 0 0, camI 0 1; camI 1 0, camI 1 1] : Mat ℝ 2 2).mulVec d + ![camI 0 2, camI 1 2])

lemma apply_sandwich {P : Pose ℝ} (h : UnitQ P.rotation) (y : Vec ℝ 3) :
    P.apply y = sandwich P.rotation.toVector y + P.translation := by
  unfold UnitQ at h
  have := (C32_evaluate P.rotation.toVector y).2
  have hq : quaternionRotation y P.rotation.toVector = P.rotation.rotate y := rfl
  rw [hq] at this
  have e : P.rotation.toVector 0 ^ 2 + P.rotation.toVector 1 ^ 2 + P.rotation.toVector 2 ^ 2 + P.rotation.toVector 3 ^ 2 = 1 := h
  rw [e] at this
  simp only [Pose.apply, this]
  simp

/-- **C55** Many cameras with distortion: the result holds the images in the order of the visibilities. -/
theorem C55_camera_evaluate (p : Fin np → Vec ℝ 3) (camP : Fin nc → Pose ℝ) (camI : Fin nc → Mat ℝ 3 3) (camD : Fin nc → Vec ℝ 4)
    (vis : Fin n → Fin np × Fin nc) (hP : ∀ j, UnitQ (camP j).rotation) (r0 : Vec ℝ (2 * n)) (x : Vec ℝ (3 + 4)) (hx : UnitInput x) :
    multipleCameraProjection p camP camI camD vis r0 x = stack2 fun i =>
      cameraImage (camP (vis i).2) (camI (vis i).2) (camD (vis i).2)
        (sandwich ![x 3, x 4, x 5, x 6] (p (vis i).1) + ![x 0, x 1, x 2]) := by
  unfold multipleCameraProjection
  simp only [mul_comm 2]
  rw [foldl_setRange]
  congr 1
  funext i
  simp only [cameraProjectOne, hx.rot, apply_sandwich (hP _), inputR_eq, inputT_eq7, cameraImage, dehom]
  ext k
  fin_cases k <;> simp [Matrix.mulVec, dotProduct, Fin.sum_univ_two] <;> ring

/-- **C55** Many cameras with distortion: the matrix is the Jacobian of the images with respect to the pose. -/
theorem C55_camera_jacobian (p : Fin np → Vec ℝ 3) (camP : Fin nc → Pose ℝ) (camI : Fin nc → Mat ℝ 3 3) (camD : Fin nc → Vec ℝ 4)
    (vis : Fin n → Fin np × Fin nc) (hP : ∀ j, UnitQ (camP j).rotation) (J0 : Mat ℝ (2 * n) (3 + 4)) (x : Vec ℝ (3 + 4))
    (hx : UnitInput x)
    (hz : ∀ i, (camP (vis i).2).apply (sandwich ![x 3, x 4, x 5, x 6] (p (vis i).1) + ![x 0, x 1, x 2]) 2 ≠ 0) :
    IsJacobian (fun x : Vec ℝ (3 + 4) => stack2 fun i => cameraImage (camP (vis i).2) (camI (vis i).2) (camD (vis i).2)
        (sandwich ![x 3, x 4, x 5, x 6] (p (vis i).1) + ![x 0, x 1, x 2])) x
      (multipleCameraProjectionJacobian p camP camI camD vis J0 x) := by
  unfold multipleCameraProjectionJacobian
  rw [foldl_setBlock₂]
  apply IsJacobian.stack2
  intro i
  simp only [inputR_eq, inputT_eq7] at hz ⊢
  have hzi := hz i
  set v := p (vis i).1
  set P := camP (vis i).2
  set I := camI (vis i).2
  set D := camD (vis i).2
  have hU : UnitQ P.rotation := hP _
  have h1 := IsJacobian.inner (x := x) (C32_wrt_q (inputR x) v).1
  have hM : ∀ y, P.apply y = P.rotation.toMatrix.mulVec y + P.translation := by
    intro y
    rw [apply_sandwich hU]
    have h := toMatrix_sandwich P.rotation.toVector y
    have e : P.rotation.toVector 0 ^ 2 + P.rotation.toVector 1 ^ 2 + P.rotation.toVector 2 ^ 2 + P.rotation.toVector 3 ^ 2 = 1 := hU
    rw [e] at h
    have e2 : Quat.fromVector P.rotation.toVector = P.rotation := rfl
    rw [e2] at h
    rw [h]
    simp
  have h2 := IsJacobian.comp (IsJacobian.affine P.rotation.toMatrix P.translation _) h1
  rw [hM] at hzi
  have h3 := IsJacobian.dehom h2 hzi
  have h4 := IsJacobian.comp (f := fun q => Camera.distort4 q D) (Camera.C31_distort4 D _).1 h3
  have h5 := IsJacobian.comp (IsJacobian.affine (I 2 2 • (!![I 0 0, I 0 1; I 1 0, I 1 1] : Mat ℝ 2 2)) (I 2 2 • ![I 0 2, I 1 2]) _) h4
  rw [hx.rot]
  have ed : ∀ w : Vec ℝ 3, (![w 0 / w 2, w 1 / w 2] : Vec ℝ 2) = dehom w := fun w => rfl
  rw [ed, hM]
  convert h5 using 1
  · funext y
    simp only [cameraImage, ← apply_sandwich hU, hM, Matrix.smul_mulVec, smul_add]
  · rw [← Matrix.mul_assoc, ← Matrix.mul_assoc, ← Matrix.mul_assoc, mul_hcat, Matrix.mul_one]
    simp only [Matrix.smul_mul, Matrix.mul_assoc]

/-- **C55** One point seen by many cameras: values in the order of the cameras. -/
theorem C55_single_evaluate (P : Fin n → Mat ℝ 3 4) (r0 : Vec ℝ (2 * n)) (x : Vec ℝ 3) :
    singlePointMultiProjection P r0 x = stack2 fun i => dehom (camMul (P i) x) := by
  unfold singlePointMultiProjection
  simp only [add_zero]
  rw [foldl_setRange]
  congr 1
  funext i k
  fin_cases k <;> simp [Geometry.projectPoint34_3, dehom, camMul, Matrix.mulVec, dotProduct, Fin.sum_univ_four]

/-- **C55** One point seen by many cameras: the matrix is the Jacobian with respect to the point. -/
theorem C55_single_jacobian (P : Fin n → Mat ℝ 3 4) (J0 : Mat ℝ (2 * n) 3) (x : Vec ℝ 3) (hz : ∀ i, camMul (P i) x 2 ≠ 0) :
    IsJacobian (fun x => stack2 fun i => dehom (camMul (P i) x)) x (singlePointMultiProjectionJacobian P J0 x) := by
  unfold singlePointMultiProjectionJacobian
  rw [foldl_setBlock]
  apply IsJacobian.stack2
  intro i
  have h := IsJacobian.dehom (IsJacobian.affine (cam33 (P i)) (camCol (P i)) x) (by rw [← camMul_eq]; exact hz i)
  convert h using 1
  · funext y; rw [camMul_eq]
  · have hzi := hz i
    rw [← camMul_eq]
    have e : Geometry.transformPoint34_3 (P i) ![x 0, x 1, x 2] = camMul (P i) x := by
      ext k
      fin_cases k <;> simp [Geometry.transformPoint34_3, camMul, Matrix.mulVec, dotProduct, Fin.sum_univ_four]
    rw [e]
    ext a b
    fin_cases a <;> fin_cases b <;>
      simp [dehomogenizationJacobian, Matrix.mul_apply, Fin.sum_univ_three, cam33, Matrix.one_apply] <;> field_simp <;> ring

/-- Non-vacuity: an identity camera, a unit pose at depth one. -/
example : UnitInput ![0, 0, 1, 0, 0, 0, 1] ∧
    (1 : Mat ℝ 3 3).mulVec (sandwich ![0, 0, 0, 1] ![1, 2, 3] + ![0, 0, 1]) 2 ≠ 0 := by
  constructor
  · simp [UnitInput]
  · simp [sandwich, Quat.mul, Quat.conj, Quat.fromVector]
    norm_num

end Ubitrack.ProjectionFunction
