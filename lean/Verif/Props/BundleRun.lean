import Verif.Model.BundleRun
import Verif.Spec.BundleRun
import Verif.Props.BundleAdjustment
import Verif.Props.LevenbergMarquardt

/-!
# C79: results of the bundle adjustment
-/

namespace Ubitrack.BundleAdjustment

open Spec ProjectionFunction RotationFunction FunctionComposition

variable {nc np : ℕ}

theorem apply_coordinates (p : Pose ℝ) (hp : UnitQ p.rotation) (x : Vec ℝ 3) : p.apply x = cameraCoordinates p x := by
  unfold UnitQ at hp
  funext i
  fin_cases i <;> simp [Pose.apply, Quat.rotate, cameraCoordinates, Quat.mul, Quat.conj]
  · linear_combination x 0 * hp
  · linear_combination x 1 * hp
  · linear_combination x 2 * hp

theorem dehom_unit (p : Pose ℝ) (hp : UnitQ p.rotation) (x : Vec ℝ 3) : dehom (p.apply x) = view p x := by
  rw [apply_coordinates p hp]
  rfl

theorem sum_row (f : Fin (2 * (nc * np)) → ℝ) : ∑ r, f r = ∑ c, ∑ p, (f (row c p 0) + f (row c p 1)) := by
  have e : ∀ c p, f (row c p 0) + f (row c p 1) = ∑ k : Fin 2, f (row c p k) :=
    fun c p => (Fin.sum_univ_two fun k => f (row c p k)).symm
  simp only [e]
  have h : ∑ c, ∑ p, ∑ k : Fin 2, f (row c p k) = ∑ q : Fin nc × Fin np × Fin 2, f (row q.1 q.2.1 q.2.2) := by
    rw [Fintype.sum_prod_type]
    refine Finset.sum_congr rfl fun c _ => ?_
    rw [Fintype.sum_prod_type]
  rw [h]
  symm
  refine Function.Bijective.sum_comp (e := fun q : Fin nc × Fin np × Fin 2 => row q.1 q.2.1 q.2.2) ?_ f
  rw [Fintype.bijective_iff_injective_and_card]
  constructor
  · rintro ⟨c, p, k⟩ ⟨c', p', k'⟩ h
    have h1 := stack2_row (fun i k => (i.divNat, i.modNat, k)) c p k (fun c p k => (c, p, k)) (fun _ => rfl)
    have h2 := stack2_row (fun i k => (i.divNat, i.modNat, k)) c' p' k' (fun c p k => (c, p, k)) (fun _ => rfl)
    dsimp only at h
    rw [← h1, ← h2, h]
  · simp
    ring

/-- The sum of squares the optimiser works on: the images of points in cameras whose quaternions need not have length one. -/
theorem residual_eq (lapack : LM.Lapack (nc * 7 + np * 3)) (obs : Fin nc → Fin np → Vec ℝ 2) (m : Vec ℝ (2 * (nc * np)))
    (hm : ∀ c p k, m (row c p k) = obs c p k) (x : Vec ℝ (nc * 7 + np * 3)) :
    (call lapack m).residual x = ∑ c, ∑ p, distSq2 (obs c p) (dehom ((inputPose x c).apply (inputPoint x p))) := by
  simp only [LM.Call.residual, LM.residual, LM.Call.predict, call, LM.weights, one_mul]
  rw [sum_row]
  refine Finset.sum_congr rfl fun c _ => Finset.sum_congr rfl fun p _ => ?_
  have e : ∀ k, (evaluateWithJacobian x 0 0).1 (row c p k) = dehom ((inputPose x c).apply (inputPoint x p)) k := by
    intro k
    rw [evaluateWithJacobian_eq]
    exact stack2_row _ c p k (fun c p => dehom ((inputPose x c).apply (inputPoint x p))) (fun _ => rfl)
  rw [e, e, hm, hm]
  unfold distSq2
  ring

theorem inputPose_param (u : Vec ℝ (nc * 7 + np * 3)) (poses : Fin nc → Pose ℝ) (pts : Fin np → Vec ℝ 3) (c : Fin nc) :
    inputPose (paramVector u poses pts) c = poses c := by
  rw [inputPose_cam, (C56_layout u poses pts).1]
  have : (poses c).translation = ![(poses c).translation 0, (poses c).translation 1, (poses c).translation 2] := by
    funext k; fin_cases k <;> rfl
  simp only [Matrix.cons_val]
  rw [← this]

theorem inputPoint_param (u : Vec ℝ (nc * 7 + np * 3)) (poses : Fin nc → Pose ℝ) (pts : Fin np → Vec ℝ 3) (p : Fin np) :
    inputPoint (paramVector u poses pts) p = pts p := by
  rw [inputPoint_pt, (C56_layout u poses pts).2]

theorem residual_start (lapack : LM.Lapack (nc * 7 + np * 3)) (obs : Fin nc → Fin np → Vec ℝ 2) (m : Vec ℝ (2 * (nc * np)))
    (hm : ∀ c p k, m (row c p k) = obs c p k) (u : Vec ℝ (nc * 7 + np * 3)) (poses : Fin nc → Pose ℝ) (hu : ∀ c, UnitQ (poses c).rotation)
    (pts : Fin np → Vec ℝ 3) : (call lapack m).residual (paramVector u poses pts) = bundleError obs poses pts := by
  rw [residual_eq lapack obs m hm]
  refine Finset.sum_congr rfl fun c _ => Finset.sum_congr rfl fun p _ => ?_
  rw [inputPose_param, inputPoint_param, dehom_unit _ (hu c)]

/-- What the function does if every camera has an observation of every point. -/
theorem run_eq (lapack : LM.Lapack (nc * 7 + np * 3)) (u : Vec ℝ (nc * 7 + np * 3)) (obs : Fin nc → Fin np → Vec ℝ 2)
    (poses : Fin nc → Pose ℝ) (pts : Fin np → Vec ℝ 3) : ∃ m : Vec ℝ (2 * (nc * np)), (∀ c p k, m (row c p k) = obs c p k) ∧
    simpleBundleAdjustment lapack u (fun c => List.ofFn (obs c)) poses pts =
      match LM.levenbergMarquardt (call lapack m) (paramVector u poses pts) 11 with
      | some (x, some _) => some (some (writeBack x))
      | _ => some none := by
  have e : (List.ofFn fun c => List.ofFn (obs c)) = (List.finRange nc).map fun c => (List.finRange np).map (obs c) := by
    rw [List.ofFn_eq_map]
    simp only [List.ofFn_eq_map]
  obtain ⟨h1, h2⟩ := C56_observations obs
  rw [← e] at h1 h2
  refine ⟨fun r => (observationVector (List.ofFn fun c => List.ofFn (obs c))).get (r.cast h1.symm), ?_, ?_⟩
  · intro c p k
    have := h2 c p k
    rw [List.getElem?_eq_some_iff] at this
    exact this.2
  · unfold simpleBundleAdjustment
    dsimp only
    rw [dif_pos h1]
    rfl

theorem nonnegWeights (lapack : LM.Lapack (nc * 7 + np * 3)) (m : Vec ℝ (2 * (nc * np))) : (call lapack m).NonnegWeights := by
  intro d i
  simp [LM.weights, call]

/-- **C79 (partial)** The cameras `raw` the optimiser ends with, whose quaternions need not have length one, give an error not larger
than the error at the start. The cameras returned are these with normalised quaternions. So the result is not worse than the start if
the quaternions still have length one. Missing: they need not, and normalising them can make the images worse than at the start, see
`C79_worse_refuted`. -/
theorem C79_not_worse_partial (lapack : LM.Lapack (nc * 7 + np * 3)) (u : Vec ℝ (nc * 7 + np * 3)) (obs : Fin nc → Fin np → Vec ℝ 2)
    (cams : Fin nc → Pose ℝ) (hu : ∀ c, UnitQ (cams c).rotation) (pts : Fin np → Vec ℝ 3) (cams' : Fin nc → Pose ℝ)
    (pts' : Fin np → Vec ℝ 3) (h : simpleBundleAdjustment lapack u (fun c => List.ofFn (obs c)) cams pts = some (some (cams', pts'))) :
    ∃ raw : Fin nc → Pose ℝ, (∀ c, cams' c = ⟨(raw c).rotation.normalize, (raw c).translation⟩) ∧
      ∑ c, ∑ p, distSq2 (obs c p) (dehom ((raw c).apply (pts' p))) ≤ bundleError obs cams pts ∧
      ((∀ c, UnitQ (raw c).rotation) → bundleError obs cams' pts' ≤ bundleError obs cams pts) := by
  obtain ⟨m, hm, hr⟩ := run_eq lapack u obs cams pts
  rw [hr] at h
  split at h
  swap
  · simp at h
  rename_i x r hlm
  simp only [Option.some.injEq] at h
  obtain ⟨h1, h2⟩ := LM.C23_result _ (nonnegWeights lapack m) _ _ _ _ hlm
  rw [h1, residual_start lapack obs m hm u cams hu pts, residual_eq lapack obs m hm] at h2
  have hc : ∀ c, cams' c = ⟨(inputPose x c).rotation.normalize, (inputPose x c).translation⟩ := by
    intro c
    exact (congrFun (congrArg Prod.fst h) c).symm
  have hp : ∀ p, pts' p = inputPoint x p := fun p => (congrFun (congrArg Prod.snd h) p).symm
  simp only [← hp] at h2
  refine ⟨inputPose x, hc, h2, fun hraw => ?_⟩
  refine le_trans (le_of_eq ?_) h2
  refine Finset.sum_congr rfl fun c _ => Finset.sum_congr rfl fun p _ => ?_
  rw [dehom_unit _ (hraw c), hc, Quat.normalize_unit (hraw c)]

/-- A run that starts with residual zero never leaves the start. -/
theorem loop_zero {n m : ℕ} (c : LM.Call n m) (hw : c.NonnegWeights) (hres : ∀ x, 0 ≤ c.residual x) (x0 : Vec ℝ n) (h0 : c.residual x0 = 0) :
    ∀ (fuel : ℕ) (s t : LM.St n m) (b : Bool), LM.Sync c s → s.params = x0 → LM.loop c fuel s = some (t, b) → t.params = x0 := by
  intro fuel
  induction fuel with
  | zero => intro s t b _ _ h; simp [LM.loop] at h
  | succ k ih =>
    intro s t b hs hp h
    unfold LM.loop at h
    rcases hst : LM.step c s with _ | ⟨s', bt⟩
    · rw [hst] at h
      simp only [Option.some.injEq, Prod.mk.injEq] at h
      rw [← h.1, hp]
    · rw [hst] at h
      obtain ⟨h1, h2⟩ := LM.C23_step c hw s s' bt hs hst
      have hp' : s'.params = x0 := by
        rcases h2 with h2 | h2
        · rw [h2, hp]
        · rw [hp, h0] at h2
          exact absurd h2 (not_lt.mpr (hres _))
      cases bt with
      | true =>
        simp only [Option.some.injEq, Prod.mk.injEq] at h
        rw [← h.1, hp']
      | false => exact ih s' t b h1 hp' h

theorem bundleError_exact (cams : Fin nc → Pose ℝ) (pts : Fin np → Vec ℝ 3) :
    bundleError (fun c p => view (cams c) (pts p)) cams pts = 0 := by
  unfold bundleError
  refine Finset.sum_eq_zero fun c _ => Finset.sum_eq_zero fun p _ => ?_
  simp [distSq2]

theorem residual_nonneg (lapack : LM.Lapack (nc * 7 + np * 3)) (m : Vec ℝ (2 * (nc * np))) (x : Vec ℝ (nc * 7 + np * 3)) :
    0 ≤ (call lapack m).residual x := by
  rw [residual_eq lapack (fun c p k => m (row c p k)) m (fun _ _ _ => rfl)]
  refine Finset.sum_nonneg fun c _ => Finset.sum_nonneg fun p _ => ?_
  unfold distSq2
  positivity

/-- A solver that always gives an answer when asked a second time. -/
def Answers {n : ℕ} (lapack : LM.Lapack n) : Prop := ∀ A b, lapack .svd A b ≠ none

theorem exact_run (lapack : LM.Lapack (nc * 7 + np * 3)) (u : Vec ℝ (nc * 7 + np * 3)) (obs : Fin nc → Fin np → Vec ℝ 2)
    (cams : Fin nc → Pose ℝ) (hu : ∀ c, UnitQ (cams c).rotation) (pts : Fin np → Vec ℝ 3) (h0 : bundleError obs cams pts = 0)
    (r : Option ((Fin nc → Pose ℝ) × (Fin np → Vec ℝ 3)))
    (h : simpleBundleAdjustment lapack u (fun c => List.ofFn (obs c)) cams pts = some r) : r = none ∨ r = some (cams, pts) := by
  obtain ⟨m, hm, hr⟩ := run_eq lapack u obs cams pts
  rw [hr] at h
  split at h
  swap
  · left; simpa using h.symm
  rename_i x r hlm
  right
  have hx : x = paramVector u cams pts := by
    unfold LM.levenbergMarquardt at hlm
    rcases hl : LM.loop (call lapack m) 11 (LM.init (call lapack m) (paramVector u cams pts)) with _ | ⟨t, b⟩
    · rw [hl] at hlm; simp at hlm
    · have := loop_zero (call lapack m) (nonnegWeights lapack m) (residual_nonneg lapack m) _
        ((residual_start lapack obs m hm u cams hu pts).trans h0) 11 _ t b (LM.init_sync _ (nonnegWeights lapack m) _) rfl hl
      rw [hl] at hlm
      cases b <;> simp at hlm
      rw [← hlm.1, this]
  rw [hx, C56_writeBack u cams pts hu] at h
  simpa using h.symm

theorem step_answers {n m : ℕ} (c : LM.Call n m) (ha : Answers c.lapack) (s : LM.St n m) (hs : s.solver ≠ .qr) :
    ∃ s' b, LM.step c s = .next s' b ∧ s'.solver ≠ .qr := by
  unfold LM.step
  dsimp only
  split
  · unfold LM.evaluateStep
    dsimp only
    split_ifs
    · exact ⟨_, _, rfl, hs⟩
    · exact ⟨_, _, rfl, hs⟩
  · rename_i h
    split
    · exact ⟨_, _, rfl, by simp⟩
    · rename_i h'
      rcases hq : s.solver with _ | _ | _
      · exact absurd hq h'
      · exact absurd hq hs
      · rw [hq] at h
        exact absurd h (ha _ _)

theorem loop_answers {n m : ℕ} (c : LM.Call n m) (ha : Answers c.lapack) (fuel : ℕ) (s : LM.St n m) (hs : s.solver ≠ .qr)
    (t : LM.St n m) : LM.loop c fuel s ≠ some (t, true) := by
  induction fuel generalizing s with
  | zero => simp [LM.loop]
  | succ k ih =>
    obtain ⟨s', b, h1, h2⟩ := step_answers c ha s hs
    unfold LM.loop
    rw [h1]
    cases b with
    | true => simp
    | false => exact ih s' h2

/-- **C79** If every camera has an observation of every point and the singular value solver always gives an answer, the function
ends with a result. -/
theorem C79_ends (lapack : LM.Lapack (nc * 7 + np * 3)) (ha : Answers lapack) (u : Vec ℝ (nc * 7 + np * 3))
    (obs : Fin nc → Fin np → Vec ℝ 2) (cams : Fin nc → Pose ℝ) (pts : Fin np → Vec ℝ 3) :
    ∃ cams' pts', simpleBundleAdjustment lapack u (fun c => List.ofFn (obs c)) cams pts = some (some (cams', pts')) := by
  obtain ⟨m, hm, hr⟩ := run_eq lapack u obs cams pts
  rw [hr]
  have ht := (LM.C23_terminates (call lapack m) 10 1e-6 (by norm_num) rfl (paramVector u cams pts)).1
  unfold LM.levenbergMarquardt at ht ⊢
  rcases hl : LM.loop (call lapack m) 11 (LM.init (call lapack m) (paramVector u cams pts)) with _ | ⟨t, b⟩
  · rw [hl] at ht; simp at ht
  · cases b with
    | true => exact absurd hl (loop_answers _ ha _ _ (by simp [LM.init, call]) _)
    | false => exact ⟨_, _, rfl⟩

/-- **C79** Exact observations: the cameras and points that explain every observation are returned as they are. -/
theorem C79_exact (lapack : LM.Lapack (nc * 7 + np * 3)) (ha : Answers lapack) (u : Vec ℝ (nc * 7 + np * 3))
    (obs : Fin nc → Fin np → Vec ℝ 2) (cams : Fin nc → Pose ℝ) (hu : ∀ c, UnitQ (cams c).rotation) (pts : Fin np → Vec ℝ 3)
    (hobs : ∀ c p, obs c p = view (cams c) (pts p)) :
    simpleBundleAdjustment lapack u (fun c => List.ofFn (obs c)) cams pts = some (some (cams, pts)) := by
  obtain rfl : obs = fun c p => view (cams c) (pts p) := by funext c p; exact hobs c p
  obtain ⟨cams', pts', h⟩ := C79_ends lapack ha u (fun c p => view (cams c) (pts p)) cams pts
  rcases exact_run lapack u _ cams hu pts (bundleError_exact cams pts) _ h with h' | h'
  · simp at h'
  · rw [h, h']

theorem cameraCoordinates_moved (p g : Pose ℝ) (s : ℝ) (x : Vec ℝ 3) :
    cameraCoordinates ⟨p.rotation.mul g.rotation, s • cameraCoordinates p g.translation⟩ (s • x) =
      s • cameraCoordinates p (cameraCoordinates g x) := by
  funext i
  fin_cases i <;> simp [cameraCoordinates, Quat.mul, Quat.conj] <;> ring

/-- **C79** The observations fix neither the world frame nor the scale: seen from the cameras `cams`, moved with the points by any
pose `g` and scaled by any number except zero, the images are the same, and so is the error. -/
theorem C79_gauge (obs : Fin nc → Fin np → Vec ℝ 2) (cams : Fin nc → Pose ℝ) (pts : Fin np → Vec ℝ 3) (g : Pose ℝ) (s : ℝ) (hs : s ≠ 0) :
    bundleError obs (fun c => ⟨(cams c).rotation.mul g.rotation, s • cameraCoordinates (cams c) g.translation⟩) (fun p => s • pts p) =
      bundleError obs cams (fun p => cameraCoordinates g (pts p)) := by
  unfold bundleError
  refine Finset.sum_congr rfl fun c _ => Finset.sum_congr rfl fun p _ => ?_
  congr 1
  unfold view
  rw [cameraCoordinates_moved]
  simp [mul_div_mul_left _ _ hs]

theorem distSq2_zero {a b : Vec ℝ 2} (h : distSq2 a b = 0) : a = b := by
  unfold distSq2 at h
  have h0 : a 0 - b 0 = 0 := by nlinarith [sq_nonneg (a 0 - b 0), sq_nonneg (a 1 - b 1)]
  have h1 : a 1 - b 1 = 0 := by nlinarith [sq_nonneg (a 0 - b 0), sq_nonneg (a 1 - b 1)]
  funext k
  fin_cases k
  · exact sub_eq_zero.mp h0
  · exact sub_eq_zero.mp h1

theorem bundleError_zero (obs : Fin nc → Fin np → Vec ℝ 2) (cams : Fin nc → Pose ℝ) (pts : Fin np → Vec ℝ 3) :
    bundleError obs cams pts = 0 ↔ ∀ c p, obs c p = view (cams c) (pts p) := by
  have hn : ∀ c p, 0 ≤ distSq2 (obs c p) (view (cams c) (pts p)) := fun c p => by unfold distSq2; positivity
  constructor
  · intro h c p
    unfold bundleError at h
    rw [Finset.sum_eq_zero_iff_of_nonneg fun c _ => Finset.sum_nonneg fun p _ => hn c p] at h
    have h1 := h c (Finset.mem_univ c)
    rw [Finset.sum_eq_zero_iff_of_nonneg fun p _ => hn c p] at h1
    exact distSq2_zero (h1 p (Finset.mem_univ p))
  · intro h
    obtain rfl : obs = fun c p => view (cams c) (pts p) := by funext c p; exact h c p
    exact bundleError_exact cams pts

/-- **C79** So a start moved and scaled like this is a fixed point as well: the result of exact observations depends on the start. -/
theorem C79_start (lapack : LM.Lapack (nc * 7 + np * 3)) (ha : Answers lapack) (u : Vec ℝ (nc * 7 + np * 3))
    (obs : Fin nc → Fin np → Vec ℝ 2) (cams : Fin nc → Pose ℝ) (hu : ∀ c, UnitQ (cams c).rotation) (pts : Fin np → Vec ℝ 3)
    (g : Pose ℝ) (hg : UnitQ g.rotation) (s : ℝ) (hs : s ≠ 0) (hobs : ∀ c p, obs c p = view (cams c) (cameraCoordinates g (pts p))) :
    let cams' : Fin nc → Pose ℝ := fun c => ⟨(cams c).rotation.mul g.rotation, s • cameraCoordinates (cams c) g.translation⟩
    let pts' : Fin np → Vec ℝ 3 := fun p => s • pts p
    simpleBundleAdjustment lapack u (fun c => List.ofFn (obs c)) cams' pts' = some (some (cams', pts')) := by
  intro cams' pts'
  refine C79_exact lapack ha u obs cams' (fun c => ?_) pts' ((bundleError_zero obs cams' pts').mp ?_)
  · have h1 := hu c
    unfold UnitQ at h1 hg ⊢
    simp only [cams', Quat.mul]
    linear_combination (g.rotation.x ^ 2 + g.rotation.y ^ 2 + g.rotation.z ^ 2 + g.rotation.w ^ 2) * h1 + hg
  · rw [C79_gauge obs cams pts g s hs]
    exact (bundleError_zero _ _ _).mpr hobs

theorem observationVector_length (L : List (List (Vec ℝ 2))) : (observationVector L).length = 2 * (L.map List.length).sum := by
  rw [observationVector_eq]
  simp only [List.length_flatMap, List.length_cons, List.length_nil, List.map_const', List.sum_replicate, List.length_flatten]
  simp [mul_comm]

/-- **C79** A behaviour is defined exactly if the number of all observations is the number of cameras times the number of points. -/
theorem C79_defined (lapack : LM.Lapack (nc * 7 + np * 3)) (u : Vec ℝ (nc * 7 + np * 3)) (pts2D : Fin nc → List (Vec ℝ 2))
    (cams : Fin nc → Pose ℝ) (pts : Fin np → Vec ℝ 3) :
    simpleBundleAdjustment lapack u pts2D cams pts ≠ none ↔ ∑ c, (pts2D c).length = nc * np := by
  have e : (observationVector (List.ofFn pts2D)).length = 2 * ∑ c, (pts2D c).length := by
    rw [observationVector_length, List.map_ofFn, List.sum_ofFn]
    rfl
  unfold simpleBundleAdjustment
  dsimp only
  split_ifs with h
  · rw [e] at h
    refine ⟨fun _ => by omega, fun _ => ?_⟩
    split <;> simp
  · rw [e] at h
    simp
    omega

/-- **C79 (refuted)** "Cameras may miss points": a camera without an observation of a point, the others having one of every point,
leaves the behaviour undefined. -/
theorem C79_visibility_refuted (lapack : LM.Lapack (nc * 7 + np * 3)) (u : Vec ℝ (nc * 7 + np * 3)) (pts2D : Fin nc → List (Vec ℝ 2))
    (cams : Fin nc → Pose ℝ) (pts : Fin np → Vec ℝ 3) (hle : ∀ c, (pts2D c).length ≤ np) (c : Fin nc) (hlt : (pts2D c).length < np) :
    simpleBundleAdjustment lapack u pts2D cams pts = none := by
  by_contra h
  have h1 := (C79_defined lapack u pts2D cams pts).mp h
  have h2 : ∑ c, (pts2D c).length < ∑ _c : Fin nc, np := Finset.sum_lt_sum (fun c _ => hle c) ⟨c, Finset.mem_univ c, hlt⟩
  simp at h2
  omega

/-- **C79 (damping).** The optimiser starts with damping 1; it is divided by 10 after every step that lowers the error, and multiplied
by 10 after every other step for which the equations could be solved. -/
theorem C79_damping (lapack : LM.Lapack (nc * 7 + np * 3)) (m : Vec ℝ (2 * (nc * np))) :
    (∀ x, (LM.init (call lapack m) x).lambda = 1) ∧
    ∀ s s' b, LM.step (call lapack m) s = .next s' b →
      (s'.errPrev < s.errPrev → s'.lambda = s.lambda / 10) ∧
      (¬ s'.errPrev < s.errPrev → s'.solver = s.solver → s'.lambda = s.lambda * 10) := by
  refine ⟨fun x => rfl, fun s s' b h => ?_⟩
  unfold LM.step at h
  dsimp only at h
  split at h
  · unfold LM.evaluateStep at h
    dsimp only at h
    split_ifs at h with hlt
    · cases h
      exact ⟨fun h => absurd h (lt_irrefl _), fun _ _ => rfl⟩
    · cases h
      exact ⟨fun _ => rfl, fun h => absurd (not_le.mp hlt) h⟩
  · split at h
    · rename_i hs
      cases h
      refine ⟨fun h => absurd h (lt_irrefl _), fun _ h => ?_⟩
      simp only at h hs
      rw [← h] at hs
      cases hs
    · cases h

/-! ### Cases -/

/-- A step of the second kind: the solver answers with zero, and the error stays as it is. -/
example (m : Vec ℝ (2 * (nc * np))) (x : Vec ℝ (nc * 7 + np * 3)) :
    ∃ s' b, LM.step (call (fun _ _ _ => some 0) m) (LM.init (call (fun _ _ _ => some 0) m) x) = .next s' b ∧ s'.lambda = 1 * 10 := by
  unfold LM.step LM.evaluateStep
  dsimp only [call]
  rw [if_pos (by simp [LM.init])]
  exact ⟨_, _, rfl, rfl⟩

/-- Two cameras one apart, both looking along the third axis. -/
noncomputable def twoCams : Fin 2 → Pose ℝ := ![⟨⟨0, 0, 0, 1⟩, ![0, 0, 0]⟩, ⟨⟨0, 0, 0, 1⟩, ![-1, 0, 0]⟩]

/-- Two points in front of them. -/
noncomputable def twoPoints : Fin 2 → Vec ℝ 3 := ![![0, 0, 2], ![1, 1, 4]]

theorem twoCams_unit (c : Fin 2) : UnitQ (twoCams c).rotation := by
  fin_cases c <;> simp [twoCams, UnitQ]

/-- A solver that answers with zero after the first decomposition has failed. -/
noncomputable def zeroSolver : LM.Lapack (2 * 7 + 2 * 3) := fun s _ _ => if s = .cholesky then none else some 0

theorem zeroSolver_answers : Answers zeroSolver := by
  intro A b
  simp [zeroSolver]

example : view (twoCams 1) (twoPoints 0) = ![-1 / 2, 0] ∧ view (twoCams 0) (twoPoints 1) = ![1 / 4, 1 / 4] := by
  constructor <;> funext k <;> fin_cases k <;>
    simp [view, cameraCoordinates, twoCams, twoPoints, Quat.mul, Quat.conj] <;> norm_num

example : simpleBundleAdjustment zeroSolver 0 (fun c => List.ofFn fun p => view (twoCams c) (twoPoints p)) twoCams twoPoints
    = some (some (twoCams, twoPoints)) :=
  C79_exact zeroSolver zeroSolver_answers 0 _ twoCams twoCams_unit twoPoints fun _ _ => rfl

/-- Observations that do not fit: the run ends, and the theorem on the error applies. -/
example : ∃ cams' pts', simpleBundleAdjustment zeroSolver 0 (fun _ => List.ofFn fun _ : Fin 2 => ![5, 5]) twoCams twoPoints
    = some (some (cams', pts')) ∧ ∃ raw : Fin 2 → Pose ℝ, (∀ c, cams' c = ⟨(raw c).rotation.normalize, (raw c).translation⟩) ∧
      ∑ c, ∑ p, distSq2 ![5, 5] (dehom ((raw c).apply (pts' p))) ≤ bundleError (fun _ _ => ![5, 5]) twoCams twoPoints := by
  obtain ⟨cams', pts', h⟩ := C79_ends zeroSolver zeroSolver_answers 0 (fun _ _ => ![5, 5]) twoCams twoPoints
  obtain ⟨raw, h1, h2, -⟩ := C79_not_worse_partial zeroSolver 0 (fun _ _ => ![5, 5]) twoCams twoCams_unit twoPoints cams' pts' h
  exact ⟨cams', pts', h, raw, h1, h2⟩

/-- A start turned, moved and doubled. -/
example : let g : Pose ℝ := ⟨⟨0, 0, 3 / 5, 4 / 5⟩, ![1, 2, 3]⟩
    let cams' : Fin 2 → Pose ℝ := fun c => ⟨(twoCams c).rotation.mul g.rotation, (2 : ℝ) • cameraCoordinates (twoCams c) g.translation⟩
    let pts' : Fin 2 → Vec ℝ 3 := fun p => (2 : ℝ) • twoPoints p
    simpleBundleAdjustment zeroSolver 0 (fun c => List.ofFn fun p => view (twoCams c) (cameraCoordinates g (twoPoints p))) cams' pts'
      = some (some (cams', pts')) :=
  C79_start zeroSolver zeroSolver_answers 0 _ twoCams twoCams_unit twoPoints ⟨⟨0, 0, 3 / 5, 4 / 5⟩, ![1, 2, 3]⟩
    (by simp [UnitQ]; norm_num) 2 (by norm_num) fun _ _ => rfl

/-- The second camera does not see the second point. -/
example : simpleBundleAdjustment zeroSolver 0 ![[![0, 0], ![1 / 4, 1 / 4]], [![-1 / 2, 0]]] twoCams twoPoints = none :=
  C79_visibility_refuted zeroSolver 0 _ twoCams twoPoints (by intro c; fin_cases c <;> simp) 1 (by simp)

end Ubitrack.BundleAdjustment
