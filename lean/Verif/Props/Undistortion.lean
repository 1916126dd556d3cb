import Verif.Model.Undistortion
import Verif.Spec.Undistortion
import Verif.Props.Camera
import Verif.Props.BundleRun

/-!
# C83: removing lens distortion
-/

namespace Ubitrack.Camera

open Spec BundleAdjustment

theorem residual_undistort (lapack : LM.Lapack 2) (f : Vec ℝ 2 → Vec ℝ 2 × Mat ℝ 2 2) (p x : Vec ℝ 2) :
    (undistortCall lapack f p).residual x = distSq2 (f x).1 p := by
  simp only [LM.Call.residual, LM.residual, LM.Call.predict, undistortCall, LM.weights, one_mul, Fin.sum_univ_two]
  unfold distSq2
  ring

theorem undistort_weights (lapack : LM.Lapack 2) (f : Vec ℝ 2 → Vec ℝ 2 × Mat ℝ 2 2) (p : Vec ℝ 2) :
    (undistortCall lapack f p).NonnegWeights := by
  intro d i
  simp [LM.weights, undistortCall]

theorem distSq2_nonneg (a b : Vec ℝ 2) : 0 ≤ distSq2 a b := by
  unfold distSq2
  positivity

theorem invert_not_worse (lapack : LM.Lapack 2) (f : Vec ℝ 2 → Vec ℝ 2 × Mat ℝ 2 2) (p u : Vec ℝ 2) (h : invert lapack f p = some u) :
    distSq2 (f u).1 p ≤ distSq2 (f p).1 p := by
  unfold invert at h
  split at h
  swap
  · simp at h
  rename_i x r hlm
  simp only [Option.some.injEq] at h
  subst h
  obtain ⟨h1, h2⟩ := LM.C23_result _ (undistort_weights lapack f p) _ _ _ _ hlm
  rwa [h1, residual_undistort, residual_undistort] at h2

theorem invert_ends (lapack : LM.Lapack 2) (ha : Answers lapack) (f : Vec ℝ 2 → Vec ℝ 2 × Mat ℝ 2 2) (p : Vec ℝ 2) :
    ∃ u, invert lapack f p = some u := by
  have ht := (LM.C23_terminates (undistortCall lapack f p) 5 1e-5 (by norm_num) rfl p).1
  unfold invert
  unfold LM.levenbergMarquardt at ht ⊢
  rcases hl : LM.loop (undistortCall lapack f p) 6 (LM.init (undistortCall lapack f p) p) with _ | ⟨t, b⟩
  · rw [hl] at ht; simp at ht
  · cases b with
    | true => exact absurd hl (loop_answers _ ha _ _ (by simp [LM.init, undistortCall]) _)
    | false => exact ⟨_, rfl⟩

theorem invert_fixed (lapack : LM.Lapack 2) (ha : Answers lapack) (f : Vec ℝ 2 → Vec ℝ 2 × Mat ℝ 2 2) (p : Vec ℝ 2) (hf : (f p).1 = p) :
    invert lapack f p = some p := by
  obtain ⟨u, hu⟩ := invert_ends lapack ha f p
  rw [hu]
  unfold invert at hu
  split at hu
  swap
  · simp at hu
  rename_i x r hlm
  simp only [Option.some.injEq] at hu
  subst hu
  unfold LM.levenbergMarquardt at hlm
  rcases hl : LM.loop (undistortCall lapack f p) 6 (LM.init (undistortCall lapack f p) p) with _ | ⟨t, b⟩
  · rw [hl] at hlm; simp at hlm
  · have := loop_zero (undistortCall lapack f p) (undistort_weights lapack f p)
      (fun x => by rw [residual_undistort]; exact distSq2_nonneg _ _) p
      (by rw [residual_undistort, hf]; simp [distSq2]) 6 _ t b (LM.init_sync _ (undistort_weights lapack f p) _) rfl hl
    rw [hl] at hlm
    cases b <;> simp at hlm
    rw [← hlm.1, this]

theorem sensorDistSq_eq (cam : Mat ℝ 3 3) (p q : Vec ℝ 2) : sensorDistSq cam p q = distSq2 (unproject cam p) (unproject cam q) := by
  simp only [sensorDistSq, distSq2, unproject, Matrix.cons_val_zero, Matrix.cons_val_one]
  ring

/-- **C83** The undistorted point, distorted again, is not farther from the given point than the given point, distorted, is. -/
theorem C83_not_worse (lapack : LM.Lapack 2) (cam : CameraIntrinsics ℝ) (h0 : cam.matrix 0 0 ≠ 0) (h1 : cam.matrix 1 1 ≠ 0) (p u : Vec ℝ 2)
    (h : undistort lapack cam p = some u) : sensorDistSq cam.matrix (distort cam u) p ≤ sensorDistSq cam.matrix (distort cam p) p := by
  unfold undistort undistort6 at h
  rw [Option.map_eq_some_iff] at h
  obtain ⟨v, hv, rfl⟩ := h
  have := invert_not_worse lapack _ _ _ hv
  rw [sensorDistSq_eq, sensorDistSq_eq]
  unfold distort
  rw [(C30_inverse cam.matrix h0 h1).2, (C30_inverse cam.matrix h0 h1).2, (C30_inverse cam.matrix h0 h1).2]
  exact this

/-- **C83** For square pixels without skew this is the distance in the image. -/
theorem C83_pixels (lapack : LM.Lapack 2) (cam : CameraIntrinsics ℝ) (h0 : cam.matrix 0 0 ≠ 0) (h1 : cam.matrix 1 1 = cam.matrix 0 0)
    (h2 : cam.matrix 0 1 = 0) (p u : Vec ℝ 2) (h : undistort lapack cam p = some u) :
    distSq2 (distort cam u) p ≤ distSq2 (distort cam p) p := by
  have h3 := C83_not_worse lapack cam h0 (h1 ▸ h0) p u h
  have e : ∀ a b, sensorDistSq cam.matrix a b = distSq2 a b / cam.matrix 0 0 ^ 2 := by
    intro a b
    simp only [sensorDistSq, distSq2, h1, h2]
    ring
  rw [e, e] at h3
  exact (div_le_div_iff_of_pos_right (by positivity)).mp h3

/-- **C83** If the singular value solver always gives an answer there is a result. -/
theorem C83_ends (lapack : LM.Lapack 2) (ha : Answers lapack) (cam : CameraIntrinsics ℝ) (p : Vec ℝ 2) : ∃ u, undistort lapack cam p = some u := by
  obtain ⟨u, hu⟩ := invert_ends lapack ha _ _
  exact ⟨_, by unfold undistort undistort6; rw [hu]; rfl⟩

/-- **C83** A point that the distortion does not move is its own undistorted point. -/
theorem C83_fixed (lapack : LM.Lapack 2) (ha : Answers lapack) (cam : CameraIntrinsics ℝ) (h0 : cam.matrix 0 0 ≠ 0) (h1 : cam.matrix 1 1 ≠ 0)
    (p : Vec ℝ 2) (h : distort cam p = p) : undistort lapack cam p = some p := by
  have hf : distort6 cam.radialParams cam.tangentialParams (unproject cam.matrix p) = unproject cam.matrix p := by
    have := congrArg (unproject cam.matrix) h
    unfold distort at this
    rwa [(C30_inverse cam.matrix h0 h1).2] at this
  unfold undistort undistort6
  rw [invert_fixed lapack ha _ _ hf]
  simp only [Option.map_some, (C30_inverse cam.matrix h0 h1).1 p]

/-- **C83** Without distortion nothing changes, and the principal point stays where it is for all coefficients. -/
theorem C83_zero (lapack : LM.Lapack 2) (ha : Answers lapack) (cam : CameraIntrinsics ℝ) (h0 : cam.matrix 0 0 ≠ 0) (h1 : cam.matrix 1 1 ≠ 0) :
    (cam.radialParams = 0 → cam.tangentialParams = 0 → ∀ p, undistort lapack cam p = some p) ∧
    (let c : Vec ℝ 2 := ![cam.matrix 0 2 * cam.matrix 2 2, cam.matrix 1 2 * cam.matrix 2 2]
     undistort lapack cam c = some c) := by
  constructor
  · intro hr ht p
    exact C83_fixed lapack ha cam h0 h1 p (C30_zero_distortion cam h0 h1 hr ht p).1
  · intro c
    exact C83_fixed lapack ha cam h0 h1 c (C30_principal_point cam 0).1

theorem jacobians_agree (k1 k2 p1 p2 : ℝ) (x : Vec ℝ 2) :
    distort6Jacobian ![k1, k2, 0, 0, 0, 0] ![p1, p2] x = distort4JacobianP ![k1, k2, p1, p2] x := by
  unfold distort6Jacobian distort4JacobianP
  ext i j
  fin_cases i <;> fin_cases j <;> simp <;> ring

/-- **C83** The two undistortion functions of the library give the same result for the four coefficients they have in common. -/
theorem C83_agree (lapack : LM.Lapack 2) (cam : CameraIntrinsics ℝ) (k1 k2 p1 p2 : ℝ) (hr : cam.radialParams = ![k1, k2, 0, 0, 0, 0])
    (ht : cam.tangentialParams = ![p1, p2]) (p : Vec ℝ 2) :
    lensUnDistort lapack p ![k1, k2, p1, p2] cam.matrix = undistort lapack cam p := by
  unfold undistort undistort6 lensUnDistort
  simp only [hr, ht, C30_models_agree, jacobians_agree]
  rfl

/-- **C83** How far the result `u` is from the true point `v` with `distort v = p`: if on a set with both points the displacement by the
distortion changes less than the points do (by a factor `l < 1`), their distance is not larger than the displacement of `p` divided
by `1 - l`. In sensor coordinates, with squares. -/
theorem C83_close (lapack : LM.Lapack 2) (k : Vec ℝ 6) (t : Vec ℝ 2) (p u v : Vec ℝ 2) (S : Set (Vec ℝ 2)) (l : ℝ) (hl0 : 0 ≤ l) (hl : l < 1)
    (hS : ∀ a ∈ S, ∀ b ∈ S, distSq2 (distort6 k t a - a) (distort6 k t b - b) ≤ l ^ 2 * distSq2 a b)
    (h : undistort6 lapack k t p = some u) (hu : u ∈ S) (hv : v ∈ S) (hvp : distort6 k t v = p) :
    (1 - l) ^ 2 * distSq2 u v ≤ distSq2 (distort6 k t p) p := by
  have h1 := invert_not_worse lapack _ _ _ h
  dsimp only at h1
  refine le_trans ?_ h1
  have h2 := hS u hu v hv
  rw [hvp] at h2
  generalize distort6 k t u = d at *
  unfold distSq2 at *
  simp only [Pi.sub_apply] at h2
  set a0 := u 0 - v 0 with ha0
  set a1 := u 1 - v 1 with ha1
  set b0 := d 0 - p 0 with hb0
  set b1 := d 1 - p 1 with hb1
  have e0 : d 0 - u 0 - (p 0 - v 0) = b0 - a0 := by rw [ha0, hb0]; ring
  have e1 : d 1 - u 1 - (p 1 - v 1) = b1 - a1 := by rw [ha1, hb1]; ring
  rw [e0, e1] at h2
  -- Cauchy-Schwarz for a and b
  have hA : 0 ≤ a0 ^ 2 + a1 ^ 2 := by positivity
  have hB : 0 ≤ b0 ^ 2 + b1 ^ 2 := by positivity
  set A := Real.sqrt (a0 ^ 2 + a1 ^ 2) with hAd
  set B := Real.sqrt (b0 ^ 2 + b1 ^ 2) with hBd
  have sA : A ^ 2 = a0 ^ 2 + a1 ^ 2 := Real.sq_sqrt hA
  have sB : B ^ 2 = b0 ^ 2 + b1 ^ 2 := Real.sq_sqrt hB
  have A0 : 0 ≤ A := Real.sqrt_nonneg _
  have B0 : 0 ≤ B := Real.sqrt_nonneg _
  have hcs : a0 * b0 + a1 * b1 ≤ A * B := by
    refine abs_le_of_sq_le_sq' (?_ : _ ≤ (A * B) ^ 2) (mul_nonneg A0 B0) |>.2
    rw [mul_pow, sA, sB]
    nlinarith [sq_nonneg (a0 * b1 - a1 * b0)]
  have h3 : (A - B) ^ 2 ≤ (l * A) ^ 2 := by nlinarith
  have h4 : A - B ≤ l * A := (abs_le_of_sq_le_sq' h3 (mul_nonneg hl0 A0)).2
  rw [← sA, ← sB, ← mul_pow]
  exact pow_le_pow_left₀ (mul_nonneg (by linarith) A0) (by linarith) 2

/-- **C83** The same for one radial coefficient on a disc: if result and true point have at most the squared distance `rho` from the
centre and `3 |k1| rho < 1`. -/
theorem C83_radial_close (lapack : LM.Lapack 2) (k1 rho : ℝ) (hr : 3 * |k1| * rho < 1) (p u v : Vec ℝ 2)
    (h : undistort6 lapack ![k1, 0, 0, 0, 0, 0] 0 p = some u) (hu : distSq2 u 0 ≤ rho) (hv : distSq2 v 0 ≤ rho)
    (hvp : distort6 ![k1, 0, 0, 0, 0, 0] 0 v = p) :
    (1 - 3 * |k1| * rho) ^ 2 * distSq2 u v ≤ distSq2 (distort6 ![k1, 0, 0, 0, 0, 0] 0 p) p := by
  have hrho : 0 ≤ rho := (distSq2_nonneg _ _).trans hu
  refine C83_close lapack _ _ p u v {x | distSq2 x 0 ≤ rho} _ (by positivity) hr ?_ h hu hv hvp
  intro a ha b hb
  simp only [Set.mem_setOf_eq, distSq2, Pi.zero_apply, sub_zero] at ha hb
  set A := Real.sqrt (a 0 ^ 2 + a 1 ^ 2) with hAd
  set B := Real.sqrt (b 0 ^ 2 + b 1 ^ 2) with hBd
  have sA : A ^ 2 = a 0 ^ 2 + a 1 ^ 2 := Real.sq_sqrt (by positivity)
  have sB : B ^ 2 = b 0 ^ 2 + b 1 ^ 2 := Real.sq_sqrt (by positivity)
  have A0 : 0 ≤ A := Real.sqrt_nonneg _
  have B0 : 0 ≤ B := Real.sqrt_nonneg _
  have hcs : a 0 * b 0 + a 1 * b 1 ≤ A * B := by
    refine abs_le_of_sq_le_sq' (?_ : _ ≤ (A * B) ^ 2) (mul_nonneg A0 B0) |>.2
    rw [mul_pow, sA, sB]
    nlinarith [sq_nonneg (a 0 * b 1 - a 1 * b 0)]
  rw [← sA] at ha
  rw [← sB] at hb
  have e1 : distSq2 (distort6 ![k1, 0, 0, 0, 0, 0] 0 a - a) (distort6 ![k1, 0, 0, 0, 0, 0] 0 b - b) =
      k1 ^ 2 * (A ^ 2 * A ^ 2 * A ^ 2 + B ^ 2 * B ^ 2 * B ^ 2 - 2 * (A ^ 2 * B ^ 2) * (a 0 * b 0 + a 1 * b 1)) := by
    rw [sA, sB]
    simp [distSq2, distort6]
    ring
  have e2 : distSq2 a b = A ^ 2 + B ^ 2 - 2 * (a 0 * b 0 + a 1 * b 1) := by
    rw [sA, sB]
    simp only [distSq2]
    ring
  rw [e1, e2, show (3 * |k1| * rho) ^ 2 = k1 ^ 2 * (9 * rho ^ 2) by rw [mul_pow, mul_pow, sq_abs]; ring, mul_assoc (k1 ^ 2)]
  refine mul_le_mul_of_nonneg_left ?_ (sq_nonneg k1)
  generalize a 0 * b 0 + a 1 * b 1 = c at hcs ⊢
  have hAB : A * B ≤ rho := by nlinarith [sq_nonneg (A - B)]
  have hP : A ^ 2 * B ^ 2 ≤ rho ^ 2 := by
    rw [← mul_pow]
    exact pow_le_pow_left₀ (mul_nonneg A0 B0) hAB 2
  have hQ : (A ^ 2 + A * B + B ^ 2) ^ 2 ≤ (3 * rho) ^ 2 :=
    pow_le_pow_left₀ (by positivity) (by linarith) 2
  have t1 : 0 ≤ (A * B - c) * (18 * rho ^ 2 - 2 * (A ^ 2 * B ^ 2)) := mul_nonneg (by linarith) (by nlinarith [sq_nonneg rho])
  have t2 : 0 ≤ (A - B) ^ 2 * ((3 * rho) ^ 2 - (A ^ 2 + A * B + B ^ 2) ^ 2) := mul_nonneg (sq_nonneg _) (by linarith)
  nlinarith

/-- **C83** Refuted: undistortion is the inverse of distortion. With the radial coefficient -1 the point (1, 0) is distorted to the origin,
whose undistorted point is the origin, for every solver. -/
theorem C83_inverse_refuted (lapack : LM.Lapack 2) (ha : Answers lapack) :
    ∃ (cam : CameraIntrinsics ℝ) (p : Vec ℝ 2), cam.matrix 0 0 ≠ 0 ∧ cam.matrix 1 1 ≠ 0 ∧
      undistort lapack cam (distort cam p) = some 0 ∧ p ≠ 0 := by
  refine ⟨⟨0, 0, 1, 1, ![-1, 0, 0, 0, 0, 0], 0⟩, ![1, 0], by simp, by simp, ?_, ?_⟩
  · have e : distort (⟨0, 0, 1, 1, ![-1, 0, 0, 0, 0, 0], 0⟩ : CameraIntrinsics ℝ) ![1, 0] = 0 := by
      ext i
      fin_cases i <;> simp [distort, distort6, project, unproject]
    rw [e]
    refine C83_fixed lapack ha _ (by simp) (by simp) 0 ?_
    ext i
    fin_cases i <;> simp [distort, distort6, project, unproject]
  · intro h
    simpa using congrFun h 0

/-- **C83** What the second "undistortion" for points (`Math::Geometry::PointUndistortion`) computes: it distorts once more, for a camera
matrix without skew and with -1 in the lower right corner, whatever the given matrix has there. -/
theorem C83_point_distorts {K : Type*} [Field K] (cam : CameraIntrinsics K) (p : Vec K 2) :
    undistortPoint cam p = distort { cam with matrix := !![cam.matrix 0 0, 0, cam.matrix 0 2; 0, cam.matrix 1 1, cam.matrix 1 2; 0, 0, -1] } p := by
  ext i
  fin_cases i <;> simp [undistortPoint, distort, distort6, project, unproject] <;> ring

/-- **C83** Part that holds: without distortion `Math::Geometry::PointUndistortion` changes nothing. -/
theorem C83_point_partial {K : Type*} [Field K] (cam : CameraIntrinsics K) (h0 : cam.matrix 0 0 ≠ 0) (h1 : cam.matrix 1 1 ≠ 0)
    (hr : cam.radialParams = 0) (ht : cam.tangentialParams = 0) (p : Vec K 2) : undistortPoint cam p = p := by
  rw [C83_point_distorts]
  exact (C30_zero_distortion ({ cam with matrix := !![cam.matrix 0 0, 0, cam.matrix 0 2; 0, cam.matrix 1 1, cam.matrix 1 2; 0, 0, -1] }) (by simpa using h0) (by simpa using h1) hr ht p).1

/-- **C83** Refuted: `Math::Geometry::PointUndistortion` undoes the distortion. The point (1, 0) is distorted to (2, 0) and "undistorted" to
(10, 0); with 1 in the corner of the camera matrix it moves the principal point. -/
theorem C83_point_refuted :
    (∃ cam : CameraIntrinsics ℚ, cam.matrix = !![1, 0, 0; 0, 1, 0; 0, 0, -1] ∧
      distort cam ![1, 0] = ![2, 0] ∧ undistortPoint cam ![2, 0] = ![10, 0]) ∧
    (∃ cam : CameraIntrinsics ℚ, cam.matrix = !![1, 0, 1; 0, 1, 0; 0, 0, 1] ∧
      distort cam ![1, 0] = ![1, 0] ∧ undistortPoint cam ![1, 0] = ![9, 0]) := by
  refine ⟨⟨⟨0, 0, _, 1, ![1, 0, 0, 0, 0, 0], 0⟩, rfl, ?_, ?_⟩, ⟨⟨0, 0, _, 1, ![1, 0, 0, 0, 0, 0], 0⟩, rfl, ?_, ?_⟩⟩ <;>
  · ext i
    fin_cases i <;> simp [undistortPoint, distort, distort6, project, unproject] <;> norm_num

/-! ### The hypotheses are met -/

/-- A solver that answers with zero. -/
noncomputable def alwaysZero : LM.Lapack 2 := fun _ _ _ => some 0

theorem alwaysZero_answers : Answers alwaysZero := by
  intro A b
  simp [alwaysZero]

/-- A camera with radial and tangential distortion: there is a result, and it is as good as claimed. -/
example : ∃ u, undistort alwaysZero ⟨0, ![640, 480], !![500, 1, 320; 0, 510, 240; 0, 0, 1], 2, ![1 / 10, 1 / 20, 0, 0, 0, 0], ![1 / 100, 1 / 50]⟩ ![600, 400] = some u :=
  C83_ends alwaysZero alwaysZero_answers _ _

/-- `C83_radial_close`: a disc of radius one and a coefficient 1/10; the true point (1/2, 0) is distorted to (41/80, 0). -/
example : ∃ u, undistort6 alwaysZero ![1 / 10, 0, 0, 0, 0, 0] 0 (distort6 ![1 / 10, 0, 0, 0, 0, 0] 0 ![1 / 2, 0]) = some u ∧ 3 * |(1 / 10 : ℝ)| * 1 < 1 ∧
    distSq2 ![1 / 2, 0] 0 ≤ 1 := by
  obtain ⟨u, hu⟩ := invert_ends alwaysZero alwaysZero_answers _ _
  exact ⟨u, hu, by norm_num [abs_of_pos], by norm_num [distSq2]⟩

end Ubitrack.Camera
