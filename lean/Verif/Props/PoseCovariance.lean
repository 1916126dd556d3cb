import Verif.Props.PoseOptimization
import Verif.Props.BackwardPropagation

/-!
# C96: covariance of a pose from images of points
-/

namespace Ubitrack.PoseOptimization

open Spec ProjectionFunction BackwardPropagation
open scoped Matrix

variable {n : ℕ}

/-- The singular value decompositions for matrices with six columns and at least as many rows. -/
abbrev Decompositions := (m : ℕ) → Mat ℝ m 6 → Vec ℝ 6 × Mat ℝ m 6 × Mat ℝ 6 6

theorem disturbed_eq (p : Pose ℝ) (e : Vec ℝ 6) (x : Vec ℝ 3) :
    RotationFunction.sandwich ((Quat.fromVector ![(p.toVector : Vec ℝ 7) 3, (p.toVector : Vec ℝ 7) 4, (p.toVector : Vec ℝ 7) 5,
      (p.toVector : Vec ℝ 7) 6]).mul ⟨e 3, e 4, e 5, 1⟩).toVector x +
      (![(p.toVector : Vec ℝ 7) 0, (p.toVector : Vec ℝ 7) 1, (p.toVector : Vec ℝ 7) 2] + ![e 0, e 1, e 2]) = disturbed p e x := by
  have h1 : Quat.fromVector ![(p.toVector : Vec ℝ 7) 3, (p.toVector : Vec ℝ 7) 4, (p.toVector : Vec ℝ 7) 5, (p.toVector : Vec ℝ 7) 6] =
      p.rotation := rfl
  have h2 : ![(p.toVector : Vec ℝ 7) 0, (p.toVector : Vec ℝ 7) 1, (p.toVector : Vec ℝ 7) 2] = p.translation := by
    funext i
    fin_cases i <;> rfl
  rw [h1, h2]
  unfold disturbed
  congr 1
  set q := p.rotation.mul ⟨e 3, e 4, e 5, 1⟩
  funext i
  fin_cases i <;>
    simp [RotationFunction.sandwich, Spec.sandwich, Quat.fromVector, Quat.toVector, Quat.mul, Quat.conj] <;> ring

/-- **C96** One camera: for a pose with a unit quaternion and at least three points, none of them in the plane of the camera, there is
a Jacobian of all images with respect to the error of the pose such that the result exists exactly for a variance that is not negative
(and if the images depend on the pose at all), is symmetric and positive semidefinite, and gives no variance to directions that do
not change the images. If the images determine the pose, the result is the inverse of the information that image coordinates with the
given variance carry. -/
theorem C96_single (gesvd : Decompositions) (hg : ∀ m, 6 ≤ m → ThinSVD (gesvd m)) (R : Mat ℝ 6 6) (p : Pose ℝ) (hp : UnitQ p.rotation)
    (p3D : List (Vec ℝ 3)) (hn : 3 ≤ p3D.length) (cam : Mat ℝ 3 3) (hseen : ∀ x ∈ p3D, seen cam p x 2 ≠ 0) :
    ∃ J : Mat ℝ (2 * p3D.length) 6,
      IsJacobian (fun e => stack2 fun i => dehom (cam *ᵥ disturbed p e (p3D.get i))) 0 J ∧
      ∀ s, ((singleCameraPoseError gesvd R p p3D cam s).isSome ↔ 0 ≤ s ∧ J ≠ 0) ∧
        (∀ C ∈ singleCameraPoseError gesvd R p p3D cam s, C.PosSemidef ∧ ∀ x, J *ᵥ x = 0 → C *ᵥ x = 0) ∧
        (0 < s → Resolvable J → Determined J → ∃ C, singleCameraPoseError gesvd R p p3D cam s = some C ∧
          ParameterCovariance J (s • 1) C) := by
  have hu : UnitInput (p.toVector : Vec ℝ (3 + 4)) := by rw [unit_pose, toVector_fromVector]; exact hp
  have hz : ∀ i, projected p3D.get cam p.toVector i 2 ≠ 0 := (kind_finite _ _ _).mp ((kind_start hp p3D cam).mpr hseen)
  have hJ := C55_point_error p3D.get cam 0 (p.toVector : Vec ℝ (3 + 4)) hu (by
    intro i
    have := hz i
    unfold projected at this
    rw [hu.rot] at this
    rw [inputR_eq, inputT_eq7]
    exact this)
  have he : ∀ s, singleCameraPoseError gesvd R p p3D cam s = backwardPropagationIdentity (gesvd (2 * p3D.length)) R s
      (multiplePointProjectionErrorJacobian p3D.get cam 0 p.toVector) := by
    intro s
    unfold singleCameraPoseError
    dsimp only
    rw [if_neg]
    rintro (h | ⟨i, h⟩)
    · omega
    · exact hz i h
  refine ⟨multiplePointProjectionErrorJacobian p3D.get cam 0 p.toVector, ?_, ?_⟩
  · simp only [disturbed_eq] at hJ
    exact hJ
  · intro s
    have h6 := hg (2 * p3D.length) (by omega)
    obtain ⟨h1, h2⟩ := C72_identity_valid (gesvd (2 * p3D.length)) h6 R s (multiplePointProjectionErrorJacobian p3D.get cam 0 p.toVector)
    rw [he]
    exact ⟨h1, h2, fun hs hr hd => C72_identity_inverse (gesvd (2 * p3D.length)) h6 R s hs _ hr hd⟩

/-- **C96** Several cameras: the same for any list of observations of points in cameras, at least three of them. -/
theorem C96_multiple (gesvd : Decompositions) (hg : ∀ m, 6 ≤ m → ThinSVD (gesvd m)) (R : Mat ℝ 6 6) (p : Pose ℝ) (hp : UnitQ p.rotation)
    (p3D : List (Vec ℝ 3)) (cameras : List (Mat ℝ 3 4)) (obs : List (ℕ × ℕ)) (hn : 3 ≤ obs.length)
    (point : Fin obs.length → Vec ℝ 3) (camera : Fin obs.length → Mat ℝ 3 4)
    (hpoint : ∀ i, p3D[(obs.get i).1]? = some (point i)) (hcamera : ∀ i, cameras[(obs.get i).2]? = some (camera i))
    (hseen : ∀ i, camMul (camera i) (p.rotation.rotate (point i) + p.translation) 2 ≠ 0) :
    ∃ J : Mat ℝ (2 * obs.length) 6,
      IsJacobian (fun e => stack2 fun i => dehom (camMul (camera i) (disturbed p e (point i)))) 0 J ∧
      ∀ s, ((multipleCameraPoseError gesvd R p p3D cameras obs s).isSome ↔ 0 ≤ s ∧ J ≠ 0) ∧
        (∀ C ∈ multipleCameraPoseError gesvd R p p3D cameras obs s, C.PosSemidef ∧ ∀ x, J *ᵥ x = 0 → C *ᵥ x = 0) ∧
        (0 < s → Resolvable J → Determined J → ∃ C, multipleCameraPoseError gesvd R p p3D cameras obs s = some C ∧
          ParameterCovariance J (s • 1) C) := by
  have hu : UnitInput (p.toVector : Vec ℝ (3 + 4)) := by rw [unit_pose, toVector_fromVector]; exact hp
  have hin : ∀ i : Fin obs.length, (obs.get i).1 < p3D.length ∧ (obs.get i).2 < cameras.length := fun i =>
    ⟨(List.getElem?_eq_some_iff.mp (hpoint i)).1, (List.getElem?_eq_some_iff.mp (hcamera i)).1⟩
  set vis : Fin obs.length → Fin p3D.length × Fin cameras.length := fun i => (⟨_, (hin i).1⟩, ⟨_, (hin i).2⟩) with hvis
  have hpt : ∀ i, p3D.get (vis i).1 = point i := fun i => (List.getElem?_eq_some_iff.mp (hpoint i)).2
  have hcm : ∀ i, cameras.get (vis i).2 = camera i := fun i => (List.getElem?_eq_some_iff.mp (hcamera i)).2
  have hrot : ∀ v, (Quat.fromVector (inputR (k := 4) p.toVector)).toMatrix.mulVec v + inputT (k := 4) p.toVector =
      p.rotation.rotate v + p.translation := by
    intro v
    have h := (C03_quaternion_to_matrix p.rotation hp).1 v
    have e : Quat.fromVector (inputR (k := 4) p.toVector) = p.rotation := rfl
    have e2 : inputT (k := 4) p.toVector = p.translation := by
      rw [← inputT_eq7]
      funext i
      fin_cases i <;> rfl
    rw [← h, e, e2]
  have hJ := C55_camera_error p3D.get cameras.get vis 0 (p.toVector : Vec ℝ (3 + 4)) hu (by
    intro i
    rw [inputR_eq, inputT_eq7, ← hu.rot, hrot, hpt, hcm]
    exact hseen i)
  have he : ∀ s, multipleCameraPoseError gesvd R p p3D cameras obs s = backwardPropagationIdentity (gesvd (2 * obs.length)) R s
      (multipleCameraProjectionErrorJacobian p3D.get cameras.get vis 0 p.toVector) := by
    intro s
    unfold multipleCameraPoseError
    dsimp only
    rw [dif_pos hin, if_neg]
    rintro (h | ⟨i, h⟩)
    · omega
    · have h' := hseen i
      rw [← hrot, ← hpt, ← hcm, camMul_eq] at h'
      exact h' h
  refine ⟨multipleCameraProjectionErrorJacobian p3D.get cameras.get vis 0 p.toVector, ?_, ?_⟩
  · simp only [disturbed_eq, hpt, hcm] at hJ
    exact hJ
  · intro s
    have h6 := hg (2 * obs.length) (by omega)
    obtain ⟨h1, h2⟩ := C72_identity_valid (gesvd (2 * obs.length)) h6 R s (multipleCameraProjectionErrorJacobian p3D.get cameras.get vis 0 p.toVector)
    rw [he]
    exact ⟨h1, h2, fun hs hr hd => C72_identity_inverse (gesvd (2 * obs.length)) h6 R s hs _ hr hd⟩

theorem identity_scale {m : ℕ} (g : Mat ℝ m 6 → Vec ℝ 6 × Mat ℝ m 6 × Mat ℝ 6 6) (R : Mat ℝ 6 6) (J : Mat ℝ m 6) {k s : ℝ} (hk : 0 ≤ k)
    (hs : 0 ≤ s) : backwardPropagationIdentity g R (k * s) J = (backwardPropagationIdentity g R s J).map (k • ·) := by
  rw [identity_eq g R hs, identity_eq g R (mul_nonneg hk hs)]
  unfold finish pseudoValues
  split_ifs
  · rfl
  · simp only [Option.map_some, Option.some.injEq]
    have hk2 : Real.sqrt k * Real.sqrt k = k := Real.mul_self_sqrt hk
    have key : ∀ r c, ((scaleRows (fun i => if (g J).1 i < (g J).1 0 * 1e-8 then 0 else Real.sqrt (k * s) / (g J).1 i) (g J).2.2)ᵀ *
        scaleRows (fun i => if (g J).1 i < (g J).1 0 * 1e-8 then 0 else Real.sqrt (k * s) / (g J).1 i) (g J).2.2) r c =
        k * ((scaleRows (fun i => if (g J).1 i < (g J).1 0 * 1e-8 then 0 else Real.sqrt s / (g J).1 i) (g J).2.2)ᵀ *
        scaleRows (fun i => if (g J).1 i < (g J).1 0 * 1e-8 then 0 else Real.sqrt s / (g J).1 i) (g J).2.2) r c := by
      intro r c
      rw [Matrix.mul_apply, Matrix.mul_apply, Finset.mul_sum]
      refine Finset.sum_congr rfl fun i _ => ?_
      simp only [Matrix.transpose_apply, scaleRows, Real.sqrt_mul hk]
      split_ifs
      · ring
      · calc _ = (Real.sqrt k * Real.sqrt k) * ((g J).2.2 i r * (Real.sqrt s / (g J).1 i) * ((g J).2.2 i c * (Real.sqrt s / (g J).1 i))) := by
              ring
          _ = _ := by rw [hk2]
    ext r c
    simp only [fillLower, syrkUpper, Matrix.smul_apply, smul_eq_mul, key]
    rcases lt_trichotomy c r with h | h | h
    · simp [h, h.le]
    · simp [h]
    · simp [h.le, not_lt.mpr h.le]

/-- **C96** The covariance is proportional to the variance in the image. -/
theorem C96_scale (gesvd : Decompositions) (R : Mat ℝ 6 6) (p : Pose ℝ) (p3D : List (Vec ℝ 3)) (cam : Mat ℝ 3 3) (k s : ℝ) (hk : 0 ≤ k)
    (hs : 0 ≤ s) : singleCameraPoseError gesvd R p p3D cam (k * s) = (singleCameraPoseError gesvd R p p3D cam s).map (k • ·) := by
  unfold singleCameraPoseError
  dsimp only
  split_ifs
  · rfl
  · exact identity_scale _ R _ hk hs

theorem squaredImageError_nonneg (cam : Mat ℝ 3 3) (p : Pose ℝ) (p2d : List (Vec ℝ 2)) (p3d : List (Vec ℝ 3)) :
    0 ≤ squaredImageError cam p p2d p3d := by
  unfold squaredImageError
  apply List.sum_nonneg
  intro v hv
  obtain ⟨a, -, rfl⟩ := List.mem_map.mp hv
  positivity

theorem refine_eq (lapack : LM.Lapack (3 + 4)) (gesvd : (m : ℕ) → Mat ℝ m 6 → Vec ℝ 6 × Mat ℝ m 6 × Mat ℝ 6 6) (R : Mat ℝ 6 6)
    (p : Pose ℝ) (p2d : List (Vec ℝ 2)) (p3d : List (Vec ℝ 3)) (cam : Mat ℝ 3 3) (optimize : Bool) :
    refine lapack gesvd R p p2d p3d cam optimize =
      (if optimize then
        match optimizePose lapack p p2d p3d cam 6 7 with
        | some (some (.ok pose residual)) => some (pose, residual)
        | _ => none
      else (PlanarPose.reprojectionError p2d p3d p cam).map fun residual => (p, residual)).bind fun a =>
        (singleCameraPoseError gesvd R a.1 p3d cam a.2).bind fun c => some (a.1, c, Real.sqrt (a.2 / (p2d.length * 2))) := by
  unfold refine
  cases optimize
  · rfl
  · simp only [if_true, Option.bind_eq_bind]
    rcases optimizePose lapack p p2d p3d cam 6 7 with - | - | - | - | - <;> rfl

/-- **C96** What `computePose` returns after it has found an initial pose, with and without refinement: the covariance is that for the
sum of all squared distances as variance, and the residual the square root of their mean. -/
theorem C96_compute (lapack : LM.Lapack (3 + 4)) (gesvd : Decompositions) (R : Mat ℝ 6 6) (p q : Pose ℝ) (hp : UnitQ p.rotation)
    (p2d : List (Vec ℝ 2)) (p3d : List (Vec ℝ 3)) (hlen : p2d.length = p3d.length) (cam : Mat ℝ 3 3) (optimize : Bool) (C : Mat ℝ 6 6)
    (r : ℝ) (h : refine lapack gesvd R p p2d p3d cam optimize = some (q, C, r)) :
    UnitQ q.rotation ∧ (∀ x ∈ p3d, seen cam q x 2 ≠ 0) ∧ (q = p ∨ optimize = true ∧ squaredImageError cam q p2d p3d < squaredImageError cam p p2d p3d) ∧
      r = Real.sqrt (squaredImageError cam q p2d p3d / (2 * p2d.length)) ∧
      singleCameraPoseError gesvd R q p3d cam (squaredImageError cam q p2d p3d) = some C := by
  rw [refine_eq] at h
  obtain ⟨⟨q', e⟩, h1, h2⟩ := Option.bind_eq_some_iff.mp h
  obtain ⟨C', h3, h4⟩ := Option.bind_eq_some_iff.mp h2
  simp only [Option.some.injEq, Prod.mk.injEq] at h4
  obtain ⟨rfl, rfl, h4⟩ := h4
  have key : UnitQ q'.rotation ∧ (∀ x ∈ p3d, seen cam q' x 2 ≠ 0) ∧ e = squaredImageError cam q' p2d p3d ∧
      (q' = p ∨ optimize = true ∧ e < squaredImageError cam p p2d p3d) := by
    cases optimize with
    | true =>
      simp only [if_true] at h1
      split at h1
      · rename_i a b hab
        simp only [Option.some.injEq, Prod.mk.injEq] at h1
        obtain ⟨rfl, rfl⟩ := h1
        obtain ⟨k1, k2, k3, k4⟩ := C95_result lapack p a b p2d p3d cam 6 7 hp hab
        exact ⟨k1, k2, k3, k4.imp id fun h => ⟨rfl, h⟩⟩
      · cases h1
    | false =>
      simp only [Bool.false_eq_true, if_false, Option.map_eq_some_iff] at h1
      obtain ⟨e', h1, h5⟩ := h1
      simp only [Prod.mk.injEq] at h5
      obtain ⟨rfl, rfl⟩ := h5
      obtain ⟨k1, k2⟩ := (PlanarPose.reprojectionError_eq p2d p3d hlen.symm p hp cam e').mp h1
      exact ⟨hp, k1, k2, Or.inl rfl⟩
  obtain ⟨k1, k2, k3, k4⟩ := key
  refine ⟨k1, k2, ?_, ?_, ?_⟩
  · rw [← k3]; exact k4
  · rw [← h4, k3, mul_comm (2 : ℝ)]
  · rw [← k3]; exact h3

/-- **C96** Refuted: "the covariance that `computePose` returns is that of image coordinates with the variance that the residual
shows". It is larger by the number of image coordinates: the sum of the squared distances is passed where the variance of one
measurement is expected (PlanarPoseEstimation.h l.91). -/
theorem C96_variance_refuted (lapack : LM.Lapack (3 + 4)) (gesvd : Decompositions) (R : Mat ℝ 6 6) (p q : Pose ℝ) (hp : UnitQ p.rotation)
    (p2d : List (Vec ℝ 2)) (p3d : List (Vec ℝ 3)) (hlen : p2d.length = p3d.length) (cam : Mat ℝ 3 3) (optimize : Bool) (C : Mat ℝ 6 6)
    (r : ℝ) (h : refine lapack gesvd R p p2d p3d cam optimize = some (q, C, r)) :
    ∃ C', singleCameraPoseError gesvd R q p3d cam (r ^ 2) = some C' ∧ C = (2 * p2d.length : ℝ) • C' ∧ (C ≠ 0 → C ≠ C') := by
  obtain ⟨-, -, -, h1, h2⟩ := C96_compute lapack gesvd R p q hp p2d p3d hlen cam optimize C r h
  have hn : 3 ≤ p2d.length := by
    unfold singleCameraPoseError at h2
    dsimp only at h2
    split_ifs at h2 with h3
    push Not at h3
    omega
  have hn' : (3 : ℝ) ≤ p2d.length := by exact_mod_cast hn
  have e0 := squaredImageError_nonneg cam q p2d p3d
  have hr : (2 * p2d.length : ℝ) * r ^ 2 = squaredImageError cam q p2d p3d := by
    rw [h1, Real.sq_sqrt (by positivity)]
    field_simp
  rw [← hr, C96_scale gesvd R q p3d cam _ _ (by positivity) (sq_nonneg r)] at h2
  obtain ⟨C', h3, h4⟩ := Option.map_eq_some_iff.mp h2
  refine ⟨C', h3, h4.symm, fun hC he => hC ?_⟩
  rw [← he] at h4
  have : ((2 * p2d.length : ℝ) - 1) • C = 0 := by
    rw [sub_smul, one_smul, h4, sub_self]
  rcases smul_eq_zero.mp this with h5 | h5
  · linarith
  · exact h5

theorem disturbed_translation {p : Pose ℝ} (hp : UnitQ p.rotation) (d x : Vec ℝ 3) :
    disturbed p ![d 0, d 1, d 2, 0, 0, 0] x = p.rotation.rotate x + p.translation + d := by
  unfold disturbed
  rw [add_assoc]
  have e1 : p.rotation.mul ⟨(![d 0, d 1, d 2, 0, 0, 0] : Vec ℝ 6) 3, (![d 0, d 1, d 2, 0, 0, 0] : Vec ℝ 6) 4,
      (![d 0, d 1, d 2, 0, 0, 0] : Vec ℝ 6) 5, 1⟩ = p.rotation := by
    change p.rotation.mul ⟨0, 0, 0, 1⟩ = p.rotation
    simp [Quat.mul]
  rw [e1]
  have e2 : ![(![d 0, d 1, d 2, 0, 0, 0] : Vec ℝ 6) 0, (![d 0, d 1, d 2, 0, 0, 0] : Vec ℝ 6) 1, (![d 0, d 1, d 2, 0, 0, 0] : Vec ℝ 6) 2] = d := by
    funext i
    fin_cases i <;> rfl
  rw [e2]
  congr 1
  unfold UnitQ at hp
  ext i
  fin_cases i
  · simp [Quat.rotate, sandwich]; linear_combination -(x 0) * hp
  · simp [Quat.rotate, sandwich]; linear_combination -(x 1) * hp
  · simp [Quat.rotate, sandwich]; linear_combination -(x 2) * hp

/-- With an invertible camera matrix the images depend on the pose. -/
theorem jacobian_ne_zero {p : Pose ℝ} (hp : UnitQ p.rotation) {p3D : List (Vec ℝ 3)} (hn : 0 < p3D.length) {cam invK : Mat ℝ 3 3}
    (hK : invK * cam = 1) (hseen : ∀ x ∈ p3D, seen cam p x 2 ≠ 0) {J : Mat ℝ (2 * p3D.length) 6}
    (hJ : IsJacobian (fun e => stack2 fun i => dehom (cam *ᵥ disturbed p e (p3D.get i))) 0 J) : J ≠ 0 := by
  intro h0
  rw [h0] at hJ
  unfold IsJacobian at hJ
  set x := p3D.get ⟨0, hn⟩ with hx
  have hz : seen cam p x 2 ≠ 0 := hseen x (List.get_mem _ _)
  set d : Vec ℝ 3 := invK *ᵥ ![1, 0, 0] with hd
  set line : ℝ → Vec ℝ 6 := fun s => s • ![d 0, d 1, d 2, 0, 0, 0] with hline
  have h1 : HasDerivAt line ![d 0, d 1, d 2, 0, 0, 0] 0 := by
    have := (hasDerivAt_id (0 : ℝ)).smul_const (![d 0, d 1, d 2, 0, 0, 0] : Vec ℝ 6)
    rw [one_smul] at this
    exact this
  have e0 : line 0 = 0 := by simp [hline]
  rw [← e0] at hJ
  have h2 := hJ.comp_hasDerivAt 0 h1
  have h3 := hasDerivAt_pi.mp h2 ⟨0, by omega⟩
  have hcam : cam *ᵥ d = ![1, 0, 0] := by
    rw [hd, Matrix.mulVec_mulVec, mul_eq_one_comm.mp hK, Matrix.one_mulVec]
  have e3 : ∀ s, (fun e => stack2 fun i => dehom (cam *ᵥ disturbed p e (p3D.get i))) (line s) ⟨0, by omega⟩ =
      (seen cam p x 0 + s) / seen cam p x 2 := by
    intro s
    have e4 : line s = ![(s • d) 0, (s • d) 1, (s • d) 2, 0, 0, 0] := by
      funext i
      fin_cases i <;> simp [hline]
    have e5 : (fun e => stack2 fun i => dehom (cam *ᵥ disturbed p e (p3D.get i))) (line s) ⟨0, by omega⟩ =
        dehom (cam *ᵥ disturbed p (line s) x) 0 := by
      simp [stack2, hx]
    rw [e5, e4, disturbed_translation hp, Matrix.mulVec_add, Matrix.mulVec_smul, hcam]
    simp [dehom, seen]
  have h4 : HasDerivAt (fun s : ℝ => (seen cam p x 0 + s) / seen cam p x 2) (1 / seen cam p x 2) 0 := by
    exact ((hasDerivAt_id (0 : ℝ)).const_add _).div_const _
  have h5 := (h3.congr_of_eventuallyEq (Filter.Eventually.of_forall fun s => (e3 s).symm)).unique h4
  have : (1 : ℝ) / seen cam p x 2 = 0 := by
    rw [← h5]
    simp
  exact hz (by simpa using this)

theorem single_zero (gesvd : Decompositions) (R : Mat ℝ 6 6) (p : Pose ℝ) (p3D : List (Vec ℝ 3)) (cam : Mat ℝ 3 3)
    (h : (singleCameraPoseError gesvd R p p3D cam 0).isSome) : singleCameraPoseError gesvd R p p3D cam 0 = some 0 := by
  have h1 := C96_scale gesvd R p p3D cam 0 0 le_rfl le_rfl
  rw [zero_mul] at h1
  obtain ⟨C, hC⟩ := Option.isSome_iff_exists.mp h
  rw [hC] at h1
  simpa [hC] using h1

/-- **C96** Exact measurements: the pose is kept, with covariance and residual zero, with and without refinement. -/
theorem C96_exact (lapack : LM.Lapack (3 + 4)) (hlap : CholeskySolver (lapack .cholesky)) (gesvd : Decompositions)
    (hg : ∀ m, 6 ≤ m → ThinSVD (gesvd m)) (R : Mat ℝ 6 6) (p : Pose ℝ) (hp : UnitQ p.rotation) (p3D : List (Vec ℝ 3))
    (hn : 3 ≤ p3D.length) (cam invK : Mat ℝ 3 3) (hK : invK * cam = 1) (hseen : ∀ x ∈ p3D, seen cam p x 2 ≠ 0) (optimize : Bool) :
    refine lapack gesvd R p (p3D.map (image cam p)) p3D cam optimize = some (p, 0, 0) := by
  obtain ⟨J, hJ, h⟩ := C96_single gesvd hg R p hp p3D hn cam hseen
  have h0 := single_zero gesvd R p p3D cam ((h 0).1.mpr ⟨le_rfl, jacobian_ne_zero hp (by omega) hK hseen hJ⟩)
  rw [refine_eq]
  cases optimize with
  | true =>
    rw [if_pos rfl, C95_exact lapack hlap p hp p3D cam hseen 6 7 (by omega) (by omega)]
    simp [h0]
  | false =>
    have hr : PlanarPose.reprojectionError (p3D.map (image cam p)) p3D p cam = some 0 := by
      rw [PlanarPose.reprojectionError_eq _ _ (by simp) p hp]
      exact ⟨hseen, (PlanarPose.squaredImageError_exact cam ⟨Or.inl rfl, rfl⟩ p3D).symm⟩
    simp [hr, h0]

theorem computePose_initial (gesvd32 : Mat ℝ 3 2 → Vec ℝ 2 × Mat ℝ 3 3 × Mat ℝ 2 2)
    (gesvd9 : List (Vec ℝ 9) → Option (Vec ℝ 9 × Mat ℝ 9 9)) (gesvd12 : List (Vec ℝ 12) → Option (Vec ℝ 12 × Mat ℝ 12 12))
    (gesvd33 : Mat ℝ 3 3 → Vec ℝ 3 × Mat ℝ 3 3 × Mat ℝ 3 3) (invert : Mat ℝ 3 3 → Mat ℝ 3 3) (nonplanar : Bool)
    (p2d : List (Vec ℝ 2)) (p3d : List (Vec ℝ 3)) (cam : Mat ℝ 3 3) {q : Pose ℝ} {r : ℝ}
    (h : PlanarPose.computePose gesvd32 gesvd9 gesvd12 gesvd33 invert nonplanar p2d p3d cam = some (q, r)) :
    initialPose gesvd32 gesvd9 gesvd12 gesvd33 invert nonplanar p2d p3d cam = some q := by
  unfold PlanarPose.computePose at h
  unfold initialPose
  rcases hP : PlanarPose.planarPose gesvd32 gesvd9 p2d p3d (invert cam) with - | pose <;>
  rcases hD : Linear.projectionDLT gesvd12 p3d p2d with - | P <;>
  by_cases h1 : nonplanar = true ∧ 6 ≤ p2d.length <;> by_cases h2 : p3d.length < p2d.length <;> by_cases h3 : p2d.length < 4
  all_goals
    simp only [h1, h2, h3, hP, hD, and_self, if_true, if_false, Option.bind_eq_bind, Option.bind_some, Option.bind_none, reduceCtorEq] at h ⊢
  all_goals first
    | (obtain ⟨_, h⟩ := Option.bind_eq_some_iff.mp h; simp_all; done)
    | (rcases hF : PlanarPose.poseFromProjection gesvd33 P (invert cam) with - | pose' <;> rw [hF] at h <;>
        simp only [Option.bind_none, reduceCtorEq] at h ⊢ <;>
        (obtain ⟨_, h⟩ := Option.bind_eq_some_iff.mp h; simp_all))

/-- **C96** From the images of points of the plane z = 0 `computePose` finds the pose, with covariance and residual zero, also with
refinement (under the conditions of C78_planar). -/
theorem C96_planar (lapack : LM.Lapack (3 + 4)) (hlap : CholeskySolver (lapack .cholesky)) (gesvd : Decompositions)
    (hgs : ∀ m, 6 ≤ m → ThinSVD (gesvd m)) (R : Mat ℝ 6 6) {gesvd32 : Mat ℝ 3 2 → Vec ℝ 2 × Mat ℝ 3 3 × Mat ℝ 2 2} (hg : FullSVD gesvd32)
    (gesvd9 : List (Vec ℝ 9) → Option (Vec ℝ 9 × Mat ℝ 9 9)) (hg9 : SingularValueSolver gesvd9)
    (hc9 : ∀ rows, ∃ r, gesvd9 rows = some r) (gesvd12 : List (Vec ℝ 12) → Option (Vec ℝ 12 × Mat ℝ 12 12))
    (gesvd33 : Mat ℝ 3 3 → Vec ℝ 3 × Mat ℝ 3 3 × Mat ℝ 3 3) (invert : Mat ℝ 3 3 → Mat ℝ 3 3) (K : Mat ℝ 3 3)
    (hK : invert K * K = 1) (p : Pose ℝ) (hp : UnitQ p.rotation) (hz : p.translation 2 < 0) (hcentre : p.inv.translation 2 ≠ 0)
    (p3d : List (Vec ℝ 3)) (hlevel : ∀ x ∈ p3d, x 2 = 0) (hseen : ∀ x ∈ p3d, seen K p x 2 ≠ 0) (four : Fin 4 → Vec ℝ 3)
    (hmem : ∀ i, four i ∈ p3d)
    (hpos : ∀ i j k : Fin 4, i ≠ j → i ≠ k → j ≠ k → ¬ Collinear3 (four i) (four j) (four k)) (optimize : Bool) :
    ∃ q, computePose lapack gesvd R gesvd32 gesvd9 gesvd12 gesvd33 invert optimize false (p3d.map (image K p)) p3d K = some (q, 0, 0) ∧
      SamePose q p := by
  obtain ⟨q, hq, hs⟩ := PlanarPose.C78_planar hg gesvd9 hg9 hc9 gesvd12 gesvd33 invert K hK p hp hz hcentre p3d hlevel hseen four hmem hpos
  refine ⟨q, ?_, hs⟩
  have h4 := PlanarPose.four_le p3d four hmem (PlanarPose.injective_of_general four hpos)
  have hi : p3d.map (image K p) = p3d.map (image K q) :=
    List.map_congr_left fun x _ => (PlanarPose.samePose_image hs K x).symm
  unfold computePose
  rw [computePose_initial _ _ _ _ _ _ _ _ _ hq, Option.bind_eq_bind, Option.bind_some, hi]
  exact C96_exact lapack hlap gesvd hgs R q (PlanarPose.samePose_unit hs hp) p3d (by omega) K (invert K) hK
    (fun x hx => by rw [PlanarPose.samePose_seen hs]; exact hseen x hx) optimize

/-! A scene that meets the hypotheses: four points on the axes of a plane in front of the camera. -/

/-- The camera looks along z, the plane is at distance 1. -/
noncomputable def frontal : Pose ℝ := ⟨⟨0, 0, 0, 1⟩, ![0, 0, 1]⟩

/-- Four points around the origin. -/
def cross : List (Vec ℝ 3) := [![1, 0, 0], ![-1, 0, 0], ![0, 1, 0], ![0, -1, 0]]

theorem cross_seen : ∀ x ∈ cross, seen 1 frontal x 2 ≠ 0 := by
  intro x hx
  simp only [cross, List.mem_cons, List.not_mem_nil, or_false] at hx
  rcases hx with rfl | rfl | rfl | rfl <;> simp [seen, Quat.rotate, frontal]

theorem hasDerivAt_quotient (n0 n1 n2 d1 d2 : ℝ) :
    HasDerivAt (fun s : ℝ => (n0 + n1 * s + n2 * s ^ 2) / (1 + d1 * s + d2 * s ^ 2)) (n1 - n0 * d1) 0 := by
  have hq : ∀ a b c : ℝ, HasDerivAt (fun s : ℝ => a + b * s + c * s ^ 2) b 0 := by
    intro a b c
    have h1 := ((hasDerivAt_id (0 : ℝ)).const_mul b).const_add a
    have h2 := ((hasDerivAt_id (0 : ℝ)).pow 2).const_mul c
    refine ((h1.add h2).congr_of_eventuallyEq (.of_forall fun s => ?_)).congr_deriv ?_
    · simp
    · simp
  have h := (hq n0 n1 n2).div (hq 1 d1 d2) (by norm_num)
  refine (h.congr_of_eventuallyEq (.of_forall fun s => ?_)).congr_deriv ?_
  · simp
  · norm_num

theorem frontal_derivative (e : Vec ℝ 6) (a b : ℝ) :
    HasDerivAt (fun s : ℝ => dehom ((1 : Mat ℝ 3 3) *ᵥ disturbed frontal (s • e) ![a, b, 0]))
      ![-2 * e 5 * b + e 0 - a * (2 * (e 3 * b - e 4 * a) + e 2), 2 * e 5 * a + e 1 - b * (2 * (e 3 * b - e 4 * a) + e 2)] 0 := by
  rw [hasDerivAt_pi]
  intro i
  fin_cases i
  · have h := hasDerivAt_quotient a (-2 * e 5 * b + e 0) (a * (e 3 * e 3 - e 4 * e 4 - e 5 * e 5) + 2 * b * e 3 * e 4)
      (2 * (e 3 * b - e 4 * a) + e 2) (2 * (a * e 3 * e 5 + b * e 4 * e 5))
    refine (h.congr_of_eventuallyEq (.of_forall fun s => ?_)).congr_deriv ?_
    · simp only [Matrix.one_mulVec, dehom]
      change disturbed frontal (s • e) ![a, b, 0] 0 / disturbed frontal (s • e) ![a, b, 0] 2 = _
      congr 1 <;> simp [disturbed, sandwich, frontal, Quat.mul] <;> ring
    · rfl
  · have h := hasDerivAt_quotient b (2 * e 5 * a + e 1) (b * (e 4 * e 4 - e 3 * e 3 - e 5 * e 5) + 2 * a * e 3 * e 4)
      (2 * (e 3 * b - e 4 * a) + e 2) (2 * (a * e 3 * e 5 + b * e 4 * e 5))
    refine (h.congr_of_eventuallyEq (.of_forall fun s => ?_)).congr_deriv ?_
    · simp only [Matrix.one_mulVec, dehom]
      change disturbed frontal (s • e) ![a, b, 0] 1 / disturbed frontal (s • e) ![a, b, 0] 2 = _
      congr 1 <;> simp [disturbed, sandwich, frontal, Quat.mul] <;> ring
    · rfl

theorem cross_jacobian {J : Mat ℝ 8 6}
    (hJ : IsJacobian (fun e => stack2 (n := 4) fun i => dehom ((1 : Mat ℝ 3 3) *ᵥ disturbed frontal e (cross.get i))) 0 J) (e : Vec ℝ 6) :
    J *ᵥ e = ![e 0 + 2 * e 4 - e 2, e 1 + 2 * e 5, e 0 + 2 * e 4 + e 2, e 1 - 2 * e 5,
      e 0 - 2 * e 5, e 1 - 2 * e 3 - e 2, e 0 + 2 * e 5, e 1 - 2 * e 3 + e 2] := by
  have h1 : HasDerivAt (fun s : ℝ => s • e) e 0 := by
    have := (hasDerivAt_id (0 : ℝ)).smul_const e
    rw [one_smul] at this
    exact this
  have e0 : (0 : Vec ℝ 6) = (fun s : ℝ => s • e) 0 := by simp
  unfold IsJacobian at hJ
  rw [e0] at hJ
  have h2 := hasDerivAt_pi.mp (hJ.comp_hasDerivAt 0 h1)
  have key : ∀ (r : Fin 8) (i : Fin 4) (k : Fin 2) (a b : ℝ), cross.get i = ![a, b, 0] → r.val / 2 = i.val → r.val % 2 = k.val →
      (J *ᵥ e) r = (![-2 * e 5 * b + e 0 - a * (2 * (e 3 * b - e 4 * a) + e 2),
        2 * e 5 * a + e 1 - b * (2 * (e 3 * b - e 4 * a) + e 2)] : Vec ℝ 2) k := by
    intro r i k a b hi hr hk
    have h3 := hasDerivAt_pi.mp (frontal_derivative e a b) k
    refine (h2 r).unique ?_
    convert h3 using 1
    funext s
    simp only [Function.comp, stack2]
    have e1 : (⟨r.val / 2, by omega⟩ : Fin 4) = i := Fin.ext hr
    have e2 : (⟨r.val % 2, by omega⟩ : Fin 2) = k := Fin.ext hk
    rw [e1, e2, hi]
  funext r
  fin_cases r
  · refine (key 0 0 0 1 0 rfl rfl rfl).trans ?_; simp; ring
  · refine (key 1 0 1 1 0 rfl rfl rfl).trans ?_; simp; ring
  · refine (key 2 1 0 (-1) 0 rfl rfl rfl).trans ?_; simp; ring
  · refine (key 3 1 1 (-1) 0 rfl rfl rfl).trans ?_; simp; ring
  · refine (key 4 2 0 0 1 rfl rfl rfl).trans ?_; simp; ring
  · refine (key 5 2 1 0 1 rfl rfl rfl).trans ?_; simp; ring
  · refine (key 6 3 0 0 (-1) rfl rfl rfl).trans ?_; simp; ring
  · refine (key 7 3 1 0 (-1) rfl rfl rfl).trans ?_; simp; ring

theorem cross_bounds {J : Mat ℝ 8 6}
    (hJ : IsJacobian (fun e => stack2 (n := 4) fun i => dehom ((1 : Mat ℝ 3 3) *ᵥ disturbed frontal e (cross.get i))) 0 J) (e : Vec ℝ 6) :
    e ⬝ᵥ e ≤ J *ᵥ e ⬝ᵥ J *ᵥ e ∧ J *ᵥ e ⬝ᵥ J *ᵥ e ≤ 16 * (e ⬝ᵥ e) := by
  rw [cross_jacobian hJ]
  simp only [dotProduct, Fin.sum_univ_succ, Fin.sum_univ_zero]
  simp
  constructor
  · nlinarith [sq_nonneg (e 0 + e 4), sq_nonneg (e 1 - e 3), sq_nonneg (3 * e 0 + 4 * e 4), sq_nonneg (3 * e 1 - 4 * e 3), sq_nonneg (e 2), sq_nonneg (e 5),
      sq_nonneg (e 4), sq_nonneg (e 3), sq_nonneg (e 0), sq_nonneg (e 1)]
  · nlinarith [sq_nonneg (e 0 - e 4), sq_nonneg (e 1 + e 3), sq_nonneg (e 2), sq_nonneg (e 5), sq_nonneg (e 4), sq_nonneg (e 3),
      sq_nonneg (e 0), sq_nonneg (e 1)]

theorem cross_determined {J : Mat ℝ 8 6}
    (hJ : IsJacobian (fun e => stack2 (n := 4) fun i => dehom ((1 : Mat ℝ 3 3) *ᵥ disturbed frontal e (cross.get i))) 0 J) :
    Resolvable J ∧ Determined J := by
  constructor
  · intro x y hx hy _
    have h1 := (cross_bounds hJ x).1
    have h2 := (cross_bounds hJ y).2
    rw [hx] at h1
    rw [hy] at h2
    norm_num at h2 ⊢
    linarith
  · intro x hx
    have h1 := (cross_bounds hJ x).1
    rw [hx, dotProduct_zero] at h1
    exact dotProduct_self_eq_zero.mp (le_antisymm h1 (Finset.sum_nonneg fun i _ => mul_self_nonneg (x i)))

theorem exists_decompositions : ∃ gesvd : Decompositions, ∀ m, 6 ≤ m → ThinSVD (gesvd m) := by
  choose g hg using fun m (h : 6 ≤ m) => exists_thinSVD_tall (n := m) (m := 6) h
  refine ⟨fun m => if h : 6 ≤ m then g m h else fun _ => (0, 0, 0), fun m h => ?_⟩
  simp only [dif_pos h]
  exact hg m h

/-- C96_single applies to the scene: the covariance exists and is the inverse of the information. With C96_multiple the same holds for
the camera together with a second one. -/
example : ∃ (gesvd : Decompositions) (J : Mat ℝ 8 6) (C : Mat ℝ 6 6), singleCameraPoseError gesvd 0 frontal cross 1 1 = some C ∧
    Determined J ∧ ParameterCovariance J ((1 : ℝ) • 1) C := by
  obtain ⟨gesvd, hg⟩ := exists_decompositions
  obtain ⟨J, hJ, h⟩ := C96_single gesvd hg 0 frontal (by norm_num [UnitQ, frontal]) cross (by simp [cross]) 1 cross_seen
  obtain ⟨h1, h2⟩ := cross_determined hJ
  obtain ⟨C, hC, hP⟩ := (h 1).2.2 one_pos h1 h2
  exact ⟨gesvd, J, C, hC, h2, hP⟩

/-- C96_exact applies to the scene. -/
example : ∃ gesvd : Decompositions, ∀ optimize, refine (fun _ A b => some (A⁻¹ *ᵥ b)) gesvd 0 frontal (cross.map (image 1 frontal)) cross 1
    optimize = some (frontal, 0, 0) := by
  obtain ⟨gesvd, hg⟩ := exists_decompositions
  exact ⟨gesvd, fun optimize => C96_exact _ (exists_choleskySolver 7) gesvd hg 0 frontal (by norm_num [UnitQ, frontal]) cross (by simp [cross]) 1 1
    (by simp) cross_seen optimize⟩

/-- C96_variance_refuted applies, with a covariance that is not zero: the first point is measured beside its image. -/
example : ∃ (gesvd : Decompositions) (C C' : Mat ℝ 6 6) (r : ℝ),
    refine (fun _ _ _ => none) gesvd 0 frontal [![2, 0], ![-1, 0], ![0, 1], ![0, -1]] cross 1 false = some (frontal, C, r) ∧
    singleCameraPoseError gesvd 0 frontal cross 1 (r ^ 2) = some C' ∧ C = (8 : ℝ) • C' ∧ C ≠ C' := by
  obtain ⟨gesvd, hg⟩ := exists_decompositions
  have hu : UnitQ frontal.rotation := by norm_num [UnitQ, frontal]
  obtain ⟨J, hJ, h⟩ := C96_single gesvd hg 0 frontal hu cross (by simp [cross]) 1 cross_seen
  obtain ⟨h1, h2⟩ := cross_determined hJ
  obtain ⟨C, hC, hP⟩ := (h 1).2.2 one_pos h1 h2
  have he : squaredImageError 1 frontal [![2, 0], ![-1, 0], ![0, 1], ![0, -1]] cross = 1 := by
    simp [squaredImageError, cross, image, seen, frontal, Quat.rotate]
    norm_num
  have hr : PlanarPose.reprojectionError [![2, 0], ![-1, 0], ![0, 1], ![0, -1]] cross frontal 1 = some 1 := by
    rw [PlanarPose.reprojectionError_eq _ _ (by simp [cross]) frontal hu]
    exact ⟨cross_seen, he.symm⟩
  have hR : refine (fun _ _ _ => none) gesvd 0 frontal [![2, 0], ![-1, 0], ![0, 1], ![0, -1]] cross 1 false =
      some (frontal, C, Real.sqrt (1 / (4 * 2))) := by
    rw [refine_eq]
    simp [hr, hC]
  obtain ⟨C', h3, h4, h5⟩ := C96_variance_refuted _ gesvd 0 frontal frontal hu _ cross (by simp [cross]) 1 false C _ hR
  refine ⟨gesvd, C, C', _, hR, h3, ?_, h5 ?_⟩
  · rw [h4]
    norm_num
  · rintro rfl
    unfold ParameterCovariance at hP
    rw [Matrix.zero_mul] at hP
    have := congrFun (congrFun hP 0) 0
    simp at this

end Ubitrack.PoseOptimization
