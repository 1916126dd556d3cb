import Verif.Props.BundleRun
import Verif.Props.PoseOptimization

/-!
# C79: bundle adjustment can make the images worse

One camera, one point. The first step of the optimiser leads to parameters that fit exactly, with a quaternion that is not of length one. The optimiser stays there; the
quaternion is normalised afterwards.
-/

namespace Ubitrack.BundleAdjustment

open Spec ProjectionFunction
open scoped Matrix

namespace Worse

noncomputable def camera : Fin 1 → Pose ℝ := fun _ => ⟨⟨0, 0, 0, 1⟩, ![-3 / 2, 0, 4 / 5]⟩

noncomputable def point : Fin 1 → Vec ℝ 3 := fun _ => ![-3, 0, 8 / 5]

noncomputable def observed : Fin 1 → Fin 1 → Vec ℝ 2 := fun _ _ => ![-15 / 8, 9 / 2]

/-- Parameters at the start. -/
noncomputable def start : Vec ℝ (1 * 7 + 1 * 3) := (![0, 0, 0, 1, -3 / 2, 0, 4 / 5, -3, 0, 8 / 5] : Fin 10 → ℝ)

/-- The first step. -/
noncomputable def delta : Vec ℝ (1 * 7 + 1 * 3) := (![-16 / 25, 0, -6 / 5, 0, 0, 1 / 5, 0, 0, 1 / 5, 0] : Fin 10 → ℝ)

noncomputable def row0 : Vec ℝ (1 * 7 + 1 * 3) := (![0, 289 / 48, 0, 0, 5 / 12, 0, 25 / 32, 5 / 12, 0, 25 / 32] : Fin 10 → ℝ)

noncomputable def row1 : Vec ℝ (1 * 7 + 1 * 3) := (![-4 / 3, 0, -5 / 2, 0, 0, 5 / 12, 0, 0, 5 / 12, 0] : Fin 10 → ℝ)

theorem start_eq (u : Vec ℝ (1 * 7 + 1 * 3)) : paramVector u camera point = start := by
  funext k
  fin_cases k <;> simp [paramVector, setRange, camera, point, start, Quat.toVector, List.finRange] <;> rfl

theorem eval_start : (evaluateWithJacobian start 0 0).1 = (![-15 / 8, 0] : Fin 2 → ℝ) := by
  funext i
  fin_cases i <;> simp [evaluateWithJacobian, List.finRange, evaluateStep, setRange, start, camIdx, pointIdx, inputPose, inputPoint, Pose.apply, Quat.rotate] <;> norm_num

theorem jac_start : (evaluateWithJacobian start 0 0).2 = Matrix.of (![row0, row1] : Fin 2 → Vec ℝ (1 * 7 + 1 * 3)) := by
  ext i j
  fin_cases i <;> fin_cases j <;> simp [evaluateWithJacobian, List.finRange, jacobianStep, setEntry, start, row0, row1, camIdx, pointIdx]
  all_goals norm_num

theorem eval_end : (evaluateWithJacobian (start + delta) 0 0).1 = (![-15 / 8, 9 / 2] : Fin 2 → ℝ) := by
  funext i
  fin_cases i <;> simp [evaluateWithJacobian, List.finRange, evaluateStep, setRange, start, delta, camIdx, pointIdx, inputPose, inputPoint, Pose.apply, Quat.rotate] <;> norm_num

theorem measurement_eq {m : Vec ℝ (2 * (1 * 1))} (hm : ∀ c p k, m (row c p k) = observed c p k) : m = (![-15 / 8, 9 / 2] : Fin 2 → ℝ) := by
  funext i
  fin_cases i
  · exact hm 0 0 0
  · exact hm 0 0 1

/-- The step solves the damped normal equations. -/
theorem solves (J : Mat ℝ (2 * (1 * 1)) (1 * 7 + 1 * 3)) (hJ : J = Matrix.of (![row0, row1] : Fin 2 → Vec ℝ (1 * 7 + 1 * 3))) :
    (Jᵀ * J + Matrix.diagonal fun _ => (1 : ℝ)) *ᵥ delta = Jᵀ *ᵥ (![0, 9 / 2] : Fin 2 → ℝ) := by
  have e1 : delta = Jᵀ *ᵥ (![0, 12 / 25] : Fin 2 → ℝ) := by
    subst hJ
    funext k
    simp only [Matrix.mulVec, dotProduct]
    refine Eq.trans ?_ (Fin.sum_univ_two fun i : Fin 2 => Matrix.of (![row0, row1] : Fin 2 → Vec ℝ (1 * 7 + 1 * 3)) i k * (![0, 12 / 25] : Fin 2 → ℝ) i).symm
    fin_cases k <;> simp [delta, row0, row1] <;> norm_num
  have e2 : J *ᵥ delta + (![0, 12 / 25] : Fin 2 → ℝ) = (![0, 9 / 2] : Fin 2 → ℝ) := by
    subst hJ
    funext i
    have h : ∀ r : Vec ℝ (1 * 7 + 1 * 3), r ⬝ᵥ delta = ∑ k : Fin 10, (r : Fin 10 → ℝ) k * (delta : Fin 10 → ℝ) k := fun r => rfl
    fin_cases i
    · show row0 ⬝ᵥ delta + 0 = 0
      rw [h]
      simp [Fin.sum_univ_succ, row0, delta]
    · show row1 ⬝ᵥ delta + 12 / 25 = 9 / 2
      rw [h]
      simp [Fin.sum_univ_succ, row1, delta]
      norm_num
  rw [Matrix.add_mulVec, ← Matrix.mulVec_mulVec, ← e2, Matrix.mulVec_add, ← e1]
  congr 1
  funext k
  rw [Matrix.mulVec_diagonal, one_mul]

theorem observed_error : bundleError observed camera point = 81 / 4 := by
  simp [bundleError, distSq2, view, cameraCoordinates, observed, camera, point, Quat.mul, Quat.conj]
  norm_num

/-- The rotated point for a normalised quaternion, without square roots. -/
theorem coordinates_normalize (q : Quat ℝ) (t x : Vec ℝ 3) (i : Fin 3) :
    cameraCoordinates ⟨q.normalize, t⟩ x i = (cameraCoordinates ⟨q, 0⟩ x i) / (q.x ^ 2 + q.y ^ 2 + q.z ^ 2 + q.w ^ 2) + t i := by
  have hk : (q.abs)⁻¹ * (q.abs)⁻¹ = (q.x ^ 2 + q.y ^ 2 + q.z ^ 2 + q.w ^ 2)⁻¹ := by
    rw [← mul_inv]
    congr 1
    rw [Quat.abs, Real.mul_self_sqrt (by unfold Quat.normSq; nlinarith [mul_self_nonneg q.x, mul_self_nonneg q.y, mul_self_nonneg q.z, mul_self_nonneg q.w])]
    unfold Quat.normSq
    ring
  fin_cases i <;> simp only [cameraCoordinates, Quat.normalize, Quat.mul, Quat.conj, div_eq_mul_inv, ← hk] <;> simp <;> ring

theorem result_error : 100 < bundleError observed (writeBack (n_cams := 1) (n_pts3D := 1) (start + delta)).1 (writeBack (n_cams := 1) (n_pts3D := 1) (start + delta)).2 := by
  simp only [bundleError, distSq2, view, writeBack, coordinates_normalize, Fin.sum_univ_one]
  simp [cameraCoordinates, observed, inputPoint, start, delta, camIdx, pointIdx, Quat.mul, Quat.conj, Quat.fromVector]
  norm_num

theorem residual_end (lapack : LM.Lapack (1 * 7 + 1 * 3)) {m : Vec ℝ (2 * (1 * 1))} (hm : m = (![-15 / 8, 9 / 2] : Fin 2 → ℝ)) :
    (call lapack m).residual (start + delta) = 0 := by
  rw [← LM.innerSelf_weightedDiff _ (nonnegWeights lapack m)]
  have : (call lapack m).measurement - ((call lapack m).problem (start + delta)).1 = 0 := by
    show m - (evaluateWithJacobian (start + delta) 0 0).1 = 0
    rw [eval_end, hm, sub_self]
  rw [this]
  simp [LM.weightedDiff, call, LM.innerSelf]

theorem ends (lapack : LM.Lapack (1 * 7 + 1 * 3)) (hl : CholeskySolver (lapack .cholesky)) {m : Vec ℝ (2 * (1 * 1))} (hm : m = (![-15 / 8, 9 / 2] : Fin 2 → ℝ))
    {t : LM.St (1 * 7 + 1 * 3) (2 * (1 * 1))} {b : Bool} (h : LM.loop (call lapack m) 11 (LM.init (call lapack m) start) = some (t, b)) : t.params = start + delta := by
  set c := call lapack m with hc
  have hw : c.NonnegWeights := nonnegWeights lapack m
  set s0 := LM.init c start with hs0
  have hsync := LM.init_sync c hw start
  have hJ : s0.jacobian = Matrix.of (![row0, row1] : Fin 2 → Vec ℝ (1 * 7 + 1 * 3)) := jac_start
  have hd : s0.diff = (![0, 9 / 2] : Fin 2 → ℝ) := by
    show m - (evaluateWithJacobian start 0 0).1 = _
    rw [eval_start, hm]
    funext i
    fin_cases i <;> simp
  have he : s0.errPrev = 81 / 4 := by
    show LM.innerSelf s0.diff = _
    rw [hd]
    show ∑ i : Fin 2, (![0, 9 / 2] : Fin 2 → ℝ) i * (![0, 9 / 2] : Fin 2 → ℝ) i = _
    rw [Fin.sum_univ_two]
    simp
    norm_num
  set s1 : LM.St (1 * 7 + 1 * 3) (2 * (1 * 1)) := { s0 with iteration := s0.iteration + 1 } with hs1
  have hpd : (LM.normalMatrix s1).PosDef := PoseOptimization.normal_posDef s1 (by show (0 : ℝ) < 1; norm_num)
  obtain ⟨d, hd1, hd2⟩ := hl (LM.normalMatrix s1) (LM.rhs s1) hpd
  have hdd : d = delta := by
    apply PoseOptimization.posDef_inj hpd
    rw [hd2]
    have := solves s0.jacobian hJ
    rw [← hd] at this
    exact this.symm
  have hr := residual_end lapack hm
  rw [← hc] at hr
  obtain ⟨s2, hst, hp2⟩ : ∃ s2, LM.step c s0 = .next s2 false ∧ s2.params = start + delta := by
    unfold LM.step
    have e1 : c.lapack s0.solver (LM.normalMatrix s1) (LM.rhs s1) = some d := hd1
    simp only [← hs1]
    have e2 : c.lapack s1.solver (LM.normalMatrix s1) (LM.rhs s1) = some d := hd1
    rw [e2]
    simp only [hdd]
    unfold LM.evaluateStep
    have hn : c.normalize (s1.params + delta) = start + delta := rfl
    simp only [hn]
    rw [LM.innerSelf_weightedDiff _ hw, hr]
    have e3 : s1.errPrev = 81 / 4 := he
    rw [e3, if_neg (by norm_num)]
    have e4 : c.terminate s1.iteration 0 (81 / 4) = false := by
      show LM.optTerminate 10 1e-6 1 0 (81 / 4) = false
      unfold LM.optTerminate
      simp only [decide_eq_false_iff_not]
      push Not
      refine ⟨by norm_num, fun _ => ?_⟩
      norm_num
    rw [e4]
    exact ⟨_, rfl, rfl⟩
  rw [LM.loop, hst] at h
  exact loop_zero c hw (residual_nonneg lapack m) (start + delta) hr 10 s2 t b (LM.C23_step c hw s0 s2 false hsync hst).1 hp2 h

end Worse

open Worse in
/-- **C79** The error of the images, compared with the observations, can become larger: with a solver that solves the normal equations exactly, one camera and one point in front
of it, it grows from 20.25 to more than 100. -/
theorem C79_worse_refuted (lapack : LM.Lapack (1 * 7 + 1 * 3)) (hl : CholeskySolver (lapack .cholesky)) (ha : Answers lapack) (u : Vec ℝ (1 * 7 + 1 * 3)) :
    UnitQ (camera 0).rotation ∧ 0 < cameraCoordinates (camera 0) (point 0) 2 ∧
    ∃ cams' pts', simpleBundleAdjustment lapack u (fun c => List.ofFn (observed c)) camera point = some (some (cams', pts')) ∧
      0 < cameraCoordinates (cams' 0) (pts' 0) 2 ∧ bundleError observed camera point = 81 / 4 ∧ 100 < bundleError observed cams' pts' := by
  refine ⟨by simp [camera, UnitQ], by simp [cameraCoordinates, camera, point, Quat.mul, Quat.conj]; norm_num, ?_⟩
  obtain ⟨cams', pts', h⟩ := C79_ends lapack ha u observed camera point
  have h' := h
  obtain ⟨m, hm, hr⟩ := run_eq lapack u observed camera point
  rw [hr, start_eq] at h'
  have hme := measurement_eq hm
  split at h'
  swap
  · simp at h'
  rename_i x r hlm
  simp only [Option.some.injEq] at h'
  have hx : x = start + delta := by
    unfold LM.levenbergMarquardt at hlm
    rcases hlo : LM.loop (call lapack m) 11 (LM.init (call lapack m) start) with _ | ⟨t, b⟩
    · rw [hlo] at hlm
      simp at hlm
    have ht : t.params = x := by
      rw [hlo] at hlm
      cases b <;> simp at hlm
      exact hlm.1
    rw [← ht]
    exact ends lapack hl hme hlo
  rw [hx] at h'
  have h1 : cams' = (writeBack (n_cams := 1) (n_pts3D := 1) (start + delta)).1 := congrArg Prod.fst h'.symm
  have h2 : pts' = (writeBack (n_cams := 1) (n_pts3D := 1) (start + delta)).2 := congrArg Prod.snd h'.symm
  refine ⟨cams', pts', h, ?_, observed_error, ?_⟩
  · rw [h1, h2]
    simp only [writeBack, coordinates_normalize]
    simp [cameraCoordinates, inputPoint, start, delta, camIdx, pointIdx, Quat.mul, Quat.conj, Quat.fromVector]
    norm_num
  · rw [h1, h2]
    exact result_error

/-- A solver that meets both requirements: exact solutions by the inverse matrix. -/
example : let lapack : LM.Lapack (1 * 7 + 1 * 3) := fun _ A b => some (A⁻¹ *ᵥ b)
    CholeskySolver (lapack .cholesky) ∧ Answers lapack := by
  refine ⟨fun A b hA => ⟨_, rfl, ?_⟩, fun A b => by simp⟩
  rw [Matrix.mulVec_mulVec, Matrix.mul_nonsing_inv _ ((Matrix.isUnit_iff_isUnit_det A).mp hA.isUnit), Matrix.one_mulVec]

end Ubitrack.BundleAdjustment
