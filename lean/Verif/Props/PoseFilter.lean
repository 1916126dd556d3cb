import Verif.Proofs.PoseFilter
import Verif.Props.ErrorPose

/-!
# C45, C57: the Kalman filters over whole histories of measurements
-/

namespace Ubitrack.Tracking

open Spec RotationFunction FunctionComposition Stochastic
open scoped Matrix

/-! ## Time differences -/

/-- The pose filter measures the time to an earlier or later timestamp correctly, up to 2^63 ns (292 years). -/
theorem C45_pose_filter (t m : BitVec 64) (h : |(t.toNat : ℤ) - m.toNat| < 2 ^ 63) :
    signedSeconds t m = (((t.toNat : ℤ) - m.toNat : ℤ) : ℝ) * 1e-9 := by
  unfold signedSeconds
  congr 2
  have ht := t.isLt
  have hm := m.isLt
  rw [abs_lt] at h
  rw [BitVec.toInt_sub]
  simp only [BitVec.toInt_eq_toNat_bmod, Int.bmod_def]
  omega

/-- The rotation filter measures the time to later timestamps correctly. -/
theorem C45_rotation_filter_partial (t m : BitVec 64) (h : m.toNat ≤ t.toNat) :
    unsignedSeconds t m = (((t.toNat : ℤ) - m.toNat : ℤ) : ℝ) * 1e-9 := by
  unfold unsignedSeconds
  have ht := t.isLt
  have hm := m.isLt
  have : (t - m).toNat = t.toNat - m.toNat := by
    rw [BitVec.toNat_sub]
    omega
  rw [this]
  push_cast [Nat.cast_sub h]
  rfl

namespace RotationFilter

/-- The angular velocity of the state. -/
def velocity (f : RotationFilter) : Vec ℝ 3 := fun i => f.state.value (sub 4 (by omega) i)

theorem quatAt_vecBuf (f : RotationFilter) : quatAt (vecBuf f.state.value) 0 = f.quat := rfl

theorem vecAt_vecBuf (f : RotationFilter) : vecAt (vecBuf f.state.value) 4 = f.velocity := by
  funext i
  fin_cases i <;> rfl

theorem quaternionFunctor_value (dt : ℝ) (f : RotationFilter) :
    (quaternionFunctor dt f.state.value).1 = (f.quat.mul (integrate f.velocity dt)).toVector := by
  have h := quaternionTimeUpdate_eq dt 1 (fun _ => vecBuf f.state.value) 0 (fun _ => 0) (vecBuf f.state.value) (fun _ => 0)
    (Src.const _ _) (fun _ _ => rfl)
  funext i
  have hi := i.isLt
  show quaternionTimeUpdate dt 1 (fun _ => vecBuf f.state.value) 0 (fun _ => 0) i = _
  rw [h]
  unfold bset
  rw [if_pos (by omega)]
  have ht : turned dt 1 (vecBuf f.state.value) 0 = f.quat.mul (integrate f.velocity dt) := by
    simp [turned, quatAt_vecBuf, vecAt_vecBuf]
  rw [ht]
  unfold vecBuf
  rw [dif_pos (by omega)]
  congr 1

theorem unit_mul_integrate {q : Quat ℝ} (h : UnitQ q) (w : Vec ℝ 3) (dt : ℝ) : UnitQ (q.mul (integrate w dt)) := by
  have h2 := C05_exp_unit fun i => w i * dt
  unfold integrate
  unfold UnitQ at *
  simp only [Quat.mul]
  have : (1 : ℝ) = 1 * 1 := by norm_num
  rw [this]
  nth_rewrite 1 [← h]
  rw [← h2]
  ring

theorem fromVector_toVector (q : Quat ℝ) : Quat.fromVector q.toVector = q := rfl

/-- The prediction is the state orientation turned with the state velocity, for the time difference the code computes. -/
theorem predict_eq (f : RotationFilter) (h : UnitQ f.quat) (t : BitVec 64) :
    f.predict t = f.quat.mul (integrate f.velocity (unsignedSeconds t f.time)) := by
  unfold predict
  simp only [transformWithCovariance]
  rw [quaternionFunctor_value, fromVector_toVector, Quat.normalize_unit (unit_mul_integrate h _ _)]

/-- A prediction for a later time turns the orientation with the angular velocity for the time elapsed. -/
theorem C45_predict_later (f : RotationFilter) (h : UnitQ f.quat) (t : BitVec 64) (ht : f.time.toNat ≤ t.toNat)
    (hbig : 1e-12 < ‖(((t.toNat : ℤ) - f.time.toNat : ℤ) * 1e-9 : ℝ) • (Spec.pure f.velocity : Quaternion ℝ)‖) :
    toH (f.predict t) = turnedBy f.quat f.velocity (((t.toNat : ℤ) - f.time.toNat : ℤ) * 1e-9) := by
  rw [predict_eq f h, C45_rotation_filter_partial t f.time ht, toH_mul, toH_integrate _ _ (Or.inr hbig)]
  rfl

/-- A prediction for an earlier time does not turn the orientation back: the time difference wraps around to centuries. With an
angular velocity of pi radians in 2^64 ns, the prediction for 0 s of a filter that is at 1 s is another orientation than the one
turned back for a second. -/
theorem C45_predict_earlier_refuted :
    ∃ f : RotationFilter, UnitQ f.quat ∧ f.time = 1000000000#64 ∧
      ¬ SameRotation (f.predict 0) (f.quat.mul (integrate f.velocity (-1))) := by
  set w : ℝ := Real.pi / (2 ^ 64 * 1e-9) with hw
  refine ⟨⟨⟨![0, 0, 0, 1, 0, 0, w], 1⟩, 1000000000#64⟩, ?_, rfl, ?_⟩
  · simp [UnitQ, quat, Quat.fromVector, sub]
  set f : RotationFilter := ⟨⟨![0, 0, 0, 1, 0, 0, w], 1⟩, 1000000000#64⟩ with hf
  have hq : f.quat = ⟨0, 0, 0, 1⟩ := by simp [hf, quat, Quat.fromVector, sub]
  have hv : f.velocity = ![0, 0, w] := by
    funext i
    fin_cases i <;> simp [hf, velocity, sub]
  rw [predict_eq f (by rw [hq]; simp [UnitQ]), hq, hv]
  have hu : unsignedSeconds 0 f.time = (2 ^ 64 - 1000000000) * 1e-9 := by
    unfold unsignedSeconds
    have : ((0 : BitVec 64) - f.time).toNat = 2 ^ 64 - 1000000000 := by
      rw [hf]
      decide
    rw [this]
    norm_num
  rw [hu]
  have hpi := Real.pi_gt_three
  have hwpos : 0 < w := by rw [hw]; positivity
  have hwbig : 1e-12 < w := by
    rw [hw, lt_div_iff₀ (by positivity)]
    norm_num
    linarith
  have hint : ∀ t : ℝ, t ≠ 0 → 1e-12 < w * |t| → integrate ![0, 0, w] t = ⟨0, 0, Real.sin (w * t / 2), Real.cos (w * t / 2)⟩ := by
    intro t ht hbig
    have hn : Quat.norm3 (fun i => ![0, 0, w] i * t) = w * |t| := by
      have e : (fun i => ![0, 0, w] i * t) = fun i => t * ![0, 0, w] i := by funext i; ring
      rw [e, norm3_smul]
      have : Quat.norm3 ![0, 0, w] = w := by
        simp only [Quat.norm3, Matrix.cons_val]
        rw [mul_zero, zero_add, zero_add, Real.sqrt_mul_self hwpos.le]
      rw [this, mul_comm]
    unfold integrate Quat.fromLogarithm
    rw [hn, if_pos hbig]
    simp only [Matrix.cons_val]
    rcases lt_or_gt_of_ne ht with h | h
    · rw [abs_of_neg h]
      have e : w * -t / 2 = -(w * t / 2) := by ring
      rw [e, Real.sin_neg, Real.cos_neg]
      congr 1
      · ring
      · ring
      · have : w * -t ≠ 0 := mul_ne_zero hwpos.ne' (neg_ne_zero.mpr ht)
        field_simp
    · rw [abs_of_pos h]
      congr 1
      · ring
      · ring
      · have : w * t ≠ 0 := mul_ne_zero hwpos.ne' ht
        field_simp
  have h1 : (0 : ℝ) < (2 ^ 64 - 1000000000) * 1e-9 := by norm_num
  rw [hint ((2 ^ 64 - 1000000000) * 1e-9) h1.ne' (by rw [abs_of_pos h1]; nlinarith [hwbig]), hint (-1) (by norm_num) (by norm_num; linarith)]
  have ha : w * ((2 ^ 64 - 1000000000) * 1e-9) / 2 = Real.pi / 2 - w / 2 := by
    have : w * (2 ^ 64 * 1e-9) = Real.pi := by rw [hw]; field_simp
    nlinarith [this]
  have hb : w * -1 / 2 = -(w / 2) := by ring
  rw [ha, hb, Real.sin_pi_div_two_sub, Real.cos_pi_div_two_sub, Real.sin_neg, Real.cos_neg]
  have hw1 : w / 2 < Real.pi / 4 := by
    rw [hw]
    have : Real.pi / (2 ^ 64 * 1e-9) < Real.pi / 2 := by
      apply div_lt_div_of_pos_left Real.pi_pos (by norm_num)
      norm_num
    linarith
  have hs : 0 < Real.sin (w / 2) := Real.sin_pos_of_pos_of_lt_pi (by linarith) (by linarith)
  have hc : 0 < Real.cos (w / 2) := Real.cos_pos_of_mem_Ioo ⟨by linarith, by linarith⟩
  have hlt : Real.sin (w / 2) < Real.cos (w / 2) := by
    rw [← Real.cos_pi_div_two_sub]
    exact Real.cos_lt_cos_of_nonneg_of_le_pi_div_two (by linarith) (by linarith) (by linarith)
  rintro (h | ⟨_, _, hz, hw'⟩)
  · have := congrArg Quat.w h
    simp [Quat.mul] at this
    linarith
  · simp [Quat.mul] at hz hw'
    linarith

/-! ## Histories of the rotation filter -/

/-- What the filter maintains: a valid covariance and a unit quaternion. -/
def Valid (f : RotationFilter) : Prop := f.state.covariance.PosSemidef ∧ UnitQ f.quat

theorem timeUpdate_spec (f : RotationFilter) (t : BitVec 64) (hP : f.state.covariance.PosSemidef) :
    (f.timeUpdate t).state.covariance.PosSemidef ∧ (f.timeUpdate t).time = t ∧ (UnitQ f.quat → UnitQ (f.timeUpdate t).quat) ∧
    (f.time = 0 → (f.timeUpdate t).state = f.state) := by
  unfold timeUpdate
  split_ifs with h0
  · exact ⟨hP, rfl, id, fun _ => rfl⟩
  · refine ⟨?_, rfl, ?_, fun h => absurd h h0⟩
    · set s := transformRange (quaternionFunctor (signedSeconds t f.time)) f.state 0 0 (by omega) with hs
      have h1 : s.covariance.PosSemidef := C28_range_psd _ _ _ _ _ hP
      set dt := signedSeconds t f.time
      have e : (Matrix.of fun i j => s.covariance i j + if i = j then (if i.val < 4 then 0.001 * (dt * dt) else 4 * (dt * dt)) else 0 : Mat ℝ 7 7)
          = s.covariance + Matrix.diagonal fun i : Fin 7 => if i.val < 4 then 0.001 * (dt * dt) else 4 * (dt * dt) := by
        ext i j
        simp [Matrix.diagonal_apply]
      show Matrix.PosSemidef (Matrix.of fun i j => s.covariance i j + if i = j then (if i.val < 4 then 0.001 * (dt * dt) else 4 * (dt * dt)) else 0 : Mat ℝ 7 7)
      rw [e]
      refine h1.add (Matrix.PosSemidef.diagonal fun i => ?_)
      dsimp only
      split_ifs
      · exact mul_nonneg (by norm_num) (mul_self_nonneg dt)
      · exact mul_nonneg (by norm_num) (mul_self_nonneg dt)
    · intro hu
      have hr := (C28_range (quaternionFunctor (signedSeconds t f.time)) f.state 0 0 (by omega) (symm_of_psd hP)).1
      have hinp : (fun i : Fin 7 => f.state.value ⟨0 + i, by omega⟩) = f.state.value := by
        funext i
        congr 1
        exact Fin.ext (by simp)
      simp only [hinp] at hr
      have hval : ∀ i : Fin 4, (transformRange (quaternionFunctor (signedSeconds t f.time)) f.state 0 0 (by omega)).value (sub 0 (by omega) i)
          = (f.quat.mul (integrate f.velocity (signedSeconds t f.time))).toVector i := by
        intro i
        rw [hr, dif_pos (by simp only [sub]; omega), quaternionFunctor_value]
        congr 1
        exact Fin.ext (by simp [sub])
      have hu2 := unit_mul_integrate hu f.velocity (signedSeconds t f.time)
      unfold quat
      simp only
      have e : (fun i : Fin 4 => (transformRange (quaternionFunctor (signedSeconds t f.time)) f.state 0 0 (by omega)).value (sub 0 (by omega) i))
          = (f.quat.mul (integrate f.velocity (signedSeconds t f.time))).toVector := funext hval
      rw [e]
      exact hu2

theorem R4_posDef : ((0.004 : ℝ) • 1 : Mat ℝ 4 4).PosDef := smul_one_posDef (by norm_num)

theorem R3_posDef : ((0.00001 : ℝ) • 1 : Mat ℝ 3 3).PosDef := smul_one_posDef (by norm_num)

/-- The timestamp of a measurement. -/
def Event.time : Event → BitVec 64
  | .rotation _ t => t
  | .velocity _ t => t

/-- A successful call leaves a valid filter whose time is that of the measurement. -/
theorem C57_rotation_filter_step (f f' : RotationFilter) (hf : f.Valid) (e : Event) (h : f.step e = some f') :
    f'.Valid ∧ f'.time = e.time := by
  have fin : ∀ (g : RotationFilter) (s : ErrorVector ℝ 7), g.state.covariance.PosSemidef → s.covariance.PosSemidef →
      (do let s ← normalizeQuat s 0 (by omega); Pure.pure (f := Option) (⟨s, g.time⟩ : RotationFilter)) = some f' → f'.Valid ∧ f'.time = g.time := by
    intro g s _ hs hh
    cases hn : normalizeQuat s 0 (by omega : 0 + 4 ≤ 7) with
    | none => simp [hn] at hh
    | some s' =>
      simp [hn] at hh
      have := normalizeQuat_spec hn hs
      rw [← hh]
      exact ⟨⟨this.1, this.2.1⟩, rfl⟩
  cases e with
  | rotation q t =>
    simp only [step, addRotation] at h
    set f0 : RotationFilter := if f.time = 0 then ⟨⟨setSub f.state.value 0 q.toVector, f.state.covariance⟩, f.time⟩ else f with hf0
    have hP0 : f0.state.covariance.PosSemidef := by
      rw [hf0]
      split_ifs
      · exact hf.1
      · exact hf.1
    have ht := timeUpdate_spec f0 t hP0
    rw [checkedUpdateIdentity_eq] at h
    rw [checkedUpdate_isSome ht.1 R4_posDef] at h
    simp only [Option.bind_eq_bind, Option.bind_some] at h
    have hs := checkedUpdate_psd (checkedUpdate_isSome (f := fun x => (x, 1)) (ib := 0) (hi := by omega)
      (meas := ⟨(q.negateIfCloser (f0.timeUpdate t).quat).toVector, (0.004 : ℝ) • 1⟩) ht.1 R4_posDef) ht.1 R4_posDef.posSemidef
    have := fin (f0.timeUpdate t) _ ht.1 hs h
    exact ⟨this.1, this.2.trans ht.2.1⟩
  | velocity w t =>
    simp only [step, addVelocity] at h
    have ht := timeUpdate_spec f t hf.1
    rw [checkedUpdateIdentity_eq] at h
    rw [checkedUpdate_isSome ht.1 R3_posDef] at h
    simp only [Option.bind_eq_bind, Option.bind_some] at h
    have hs := checkedUpdate_psd (checkedUpdate_isSome (f := fun x => (x, 1)) (ib := 4) (hi := by omega)
      (meas := ⟨w, (0.00001 : ℝ) • 1⟩) ht.1 R3_posDef) ht.1 R3_posDef.posSemidef
    have := fin (f.timeUpdate t) _ ht.1 hs h
    exact ⟨this.1, this.2.trans ht.2.1⟩

theorem valid_init : init.Valid := by
  refine ⟨Matrix.PosSemidef.one, ?_⟩
  simp [UnitQ, quat, init, Quat.fromVector, sub]

/-- After any history of measurements, in any order of time, the covariance is symmetric and positive semidefinite, the
orientation is a unit quaternion, and a prediction is one as well. -/
theorem C57_rotation_filter (es : List Event) (f : RotationFilter) (h : init.run es = some f) :
    f.state.covariance.PosSemidef ∧ UnitQ f.quat ∧ ∀ t, UnitQ (f.predict t) := by
  have key : ∀ (es : List Event) (g f : RotationFilter), g.Valid → g.run es = some f → f.Valid := by
    intro es
    induction es with
    | nil =>
      intro g f hg h
      simp only [run, Option.some.injEq] at h
      exact h ▸ hg
    | cons e es ih =>
      intro g f hg h
      simp only [run, Option.bind_eq_bind] at h
      cases hs : g.step e with
      | none => simp [hs] at h
      | some g' =>
        rw [hs] at h
        exact ih g' f (C57_rotation_filter_step g g' hg e hs).1 h
  have hv := key es init f valid_init h
  refine ⟨hv.1, hv.2, fun t => ?_⟩
  rw [predict_eq f hv.2]
  exact unit_mul_integrate hv.2 _ _

theorem quat_setSub (v : Vec ℝ 7) (q : Quat ℝ) (C : Mat ℝ 7 7) (t : BitVec 64) :
    (⟨⟨setSub v 0 q.toVector, C⟩, t⟩ : RotationFilter).quat = q := by
  simp [quat, setSub, sub, loc, Quat.fromVector, Quat.toVector]

theorem unit_ne_zero {q : Quat ℝ} (h : UnitQ q) : ¬ ∀ i, q.toVector i = 0 := by
  intro h0
  have h1 := h0 0
  have h2 := h0 1
  have h3 := h0 2
  have h4 := h0 3
  simp [Quat.toVector] at h1 h2 h3 h4
  unfold UnitQ at h
  rw [h1, h2, h3, h4] at h
  norm_num at h

/-- A rotation measurement never fails: with a unit quaternion the fused quaternion is never zero. -/
theorem C57_rotation_measurement_succeeds (f : RotationFilter) (hf : f.Valid) (q : Quat ℝ) (hq : UnitQ q) (t : BitVec 64) :
    ∃ f', f.addRotation q t = some f' := by
  unfold addRotation
  set f0 : RotationFilter := if f.time = 0 then ⟨⟨setSub f.state.value 0 q.toVector, f.state.covariance⟩, f.time⟩ else f with hf0
  have hP0 : f0.state.covariance.PosSemidef := by
    rw [hf0]
    split_ifs
    · exact hf.1
    · exact hf.1
  have hu0 : UnitQ f0.quat := by
    rw [hf0]
    split_ifs
    · rw [quat_setSub]
      exact hq
    · exact hf.2
  have ht := timeUpdate_spec f0 t hP0
  have hu := ht.2.2.1 hu0
  set g := f0.timeUpdate t with hg
  simp only
  rw [checkedUpdateIdentity_eq, checkedUpdate_isSome ht.1 R4_posDef, ← C29_identity]
  simp only [Option.bind_eq_bind, Option.bind_some]
  set v : ErrorVector ℝ 4 := ⟨(q.negateIfCloser g.quat).toVector, (0.004 : ℝ) • 1⟩ with hv
  have hne : ¬ ∀ i : Fin 4, (kalmanUpdateIdentity g.state v 0 (by omega)).value (sub 0 (by omega) i) = 0 := by
    intro hall
    have hr := kalmanUpdateIdentity_range g.state v 0 (by omega) ht.1 R4_posDef.posSemidef
    rw [show (fun i => (kalmanUpdateIdentity g.state v 0 (by omega)).value (sub 0 (by omega) i)) = (0 : Vec ℝ 4) from funext hall] at hr
    refine fused_ne_zero (g.state.covariance.submatrix (sub 0 (by omega)) (sub 0 (by omega))) (ht.1.submatrix _) 0.004 (by norm_num)
      (fun i => g.state.value (sub 0 (by omega) i)) v.value (fun h0 => unit_ne_zero hu fun i => ?_) ?_ hr.symm
    · have := h0 i
      revert this
      fin_cases i <;> exact id
    have e : (fun i : Fin 4 => g.state.value (sub 0 (by omega) i)) ⬝ᵥ v.value
        = g.quat.x * v.value 0 + g.quat.y * v.value 1 + g.quat.z * v.value 2 + g.quat.w * v.value 3 := by
      rw [dotProduct, Fin.sum_univ_four]
      rfl
    rw [e, hv]
    simp only [Quat.negateIfCloser]
    split_ifs with hs <;> simp [Quat.toVector] <;> nlinarith
  obtain ⟨s, hs⟩ := normalizeQuat_isSome (state := kalmanUpdateIdentity g.state v 0 (by omega)) (ib := 0) (hi := by omega) hne
  rw [hs]
  exact ⟨_, rfl⟩

/-- After the first rotation measurement the filter predicts exactly that rotation for its time. -/
theorem C57_rotation_first (q : Quat ℝ) (hq : UnitQ q) (t : BitVec 64) :
    ∃ f, init.addRotation q t = some f ∧ f.predict t = q := by
  obtain ⟨f, hf⟩ := C57_rotation_measurement_succeeds init valid_init q hq t
  refine ⟨f, hf, ?_⟩
  have hval := C57_rotation_filter_step init f valid_init (.rotation q t) hf
  have hquat : f.quat = q := by
    unfold addRotation at hf
    simp only [init, ↓reduceIte, timeUpdate] at hf
    set g : RotationFilter := ⟨⟨setSub ![0, 0, 0, 1, 0, 0, 0] 0 q.toVector, 1⟩, t⟩ with hg
    have hgq : g.quat = q := quat_setSub _ _ _ _
    have hneg : q.negateIfCloser g.quat = q := by
      rw [hgq]
      unfold Quat.negateIfCloser
      rw [if_pos]
      nlinarith [mul_self_nonneg q.x, mul_self_nonneg q.y, mul_self_nonneg q.z, mul_self_nonneg q.w]
    rw [hneg, checkedUpdateIdentity_eq, checkedUpdate_isSome (by exact Matrix.PosSemidef.one) R4_posDef] at hf
    simp only [Option.bind_eq_bind, Option.bind_some] at hf
    have hperf := C29_perfect_prediction (K := ℝ) (fun x : Vec ℝ 4 => (x, 1)) g.state ⟨q.toVector, (0.004 : ℝ) • 1⟩ 0 (by omega)
      (by
        funext i
        have := congrFun (congrArg Quat.toVector hgq) i
        refine Eq.trans this.symm ?_
        fin_cases i <;> rfl)
    have hps := checkedUpdate_psd (checkedUpdate_isSome (f := fun x : Vec ℝ 4 => (x, 1)) (ib := 0) (hi := by omega)
      (meas := ⟨q.toVector, (0.004 : ℝ) • 1⟩) (state := g.state) Matrix.PosSemidef.one R4_posDef) Matrix.PosSemidef.one R4_posDef.posSemidef
    cases hn : normalizeQuat (kalmanUpdate (fun x : Vec ℝ 4 => (x, 1)) g.state ⟨q.toVector, (0.004 : ℝ) • 1⟩ 0 (by omega)) 0 (by omega : 0 + 4 ≤ 7) with
    | none =>
      rw [hn] at hf
      simp at hf
    | some s =>
      rw [hn] at hf
      simp only [Option.bind_some, Option.pure_def, Option.some.injEq] at hf
      have hsp := (normalizeQuat_spec hn hps).2.2.2 (by
        rw [hperf]
        have : UnitQ g.quat := by rw [hgq]; exact hq
        exact this)
      rw [← hf]
      unfold quat
      simp only
      rw [hsp, hperf]
      exact hgq
  have h0 : unsignedSeconds t t = 0 := by simp [unsignedSeconds]
  have h1 : f.time = t := hval.2
  rw [predict_eq f hval.1.2, h1, hquat, h0]
  unfold integrate
  simp only [mul_zero]
  rw [fromLogarithm_zero]
  simp [Quat.mul]

example : UnitQ (⟨0, 0, 3 / 5, 4 / 5⟩ : Quat ℝ) := by norm_num [UnitQ]

end RotationFilter

/-! ## Histories of the pose filter -/

namespace PoseFilter

variable {np nr : ℕ}

/-- The angular velocity of the state. -/
def velocity (f : PoseFilter np nr) (h : 1 < nr) : Vec ℝ 3 := fun i => f.state.value (sub (3 * np + 4) (stateSize_velocity h) i)

/-- What the filter maintains: a valid covariance, a unit quaternion and a bounded angular velocity. -/
def Valid (f : PoseFilter np nr) : Prop :=
  f.state.covariance.PosSemidef ∧ (∀ h, UnitQ (f.quat h)) ∧ ∀ h, Quat.norm3 (f.velocity h) ≤ 10

/-- What the constructor and the motion model guarantee: variances are squares, and the inside-out model has one or two position
derivatives and one for the rotation. -/
def GoodModel (f : PoseFilter np nr) : Prop :=
  (∀ i < stateSize np nr, 0 ≤ f.pn i) ∧ (f.insideOut → (np = 1 ∨ np = 2) ∧ nr = 2)

theorem normalize_spec {f f' : PoseFilter np nr} (h : f.normalize = some f') (hP : f.state.covariance.PosSemidef) :
    f'.Valid ∧ f'.time = f.time ∧ f'.pn = f.pn ∧ f'.insideOut = f.insideOut ∧
    ((∀ h, UnitQ (f.quat h)) → (∀ h, Quat.norm3 (f.velocity h) ≤ 10) → f'.state.value = f.state.value) := by
  unfold normalize at h
  by_cases h0 : 0 < nr
  · rw [dif_pos h0] at h
    cases hn : normalizeQuat f.state (3 * np) (stateSize_quat h0) with
    | none => simp [hn] at h
    | some s =>
      rw [hn] at h
      simp only [Option.bind_eq_bind, Option.bind_some, Option.some.injEq] at h
      have hs := normalizeQuat_spec hn hP
      by_cases h1 : 1 < nr
      · rw [dif_pos h1] at h
        have hw : (fun k : Fin 3 => s.value (sub (3 * np + 4) (stateSize_velocity h1) k)) = f.velocity h1 := by
          funext k
          exact hs.2.2.1 _ (by simp only [sub]; omega)
        split_ifs at h with hbig
        · rw [← h]
          refine ⟨⟨hs.1, ?_, ?_⟩, rfl, rfl, rfl, ?_⟩
          · intro _
            have := hs.2.1
            unfold quat
            have e : (fun i : Fin 4 => (if 3 * np + 4 ≤ (sub (3 * np) (stateSize_quat h0) i).val then 0 else s.value (sub (3 * np) (stateSize_quat h0) i)))
                = fun i => s.value (sub (3 * np) (stateSize_quat h0) i) := by
              funext i
              rw [if_neg (by simp only [sub]; omega)]
            show UnitQ (Quat.fromVector fun i : Fin 4 => (if 3 * np + 4 ≤ (sub (3 * np) (stateSize_quat h0) i).val then 0 else s.value (sub (3 * np) (stateSize_quat h0) i)))
            rw [e]
            exact this
          · intro _
            have e : (fun i : Fin 3 => (if 3 * np + 4 ≤ (sub (3 * np + 4) (stateSize_velocity h1) i).val then 0 else s.value (sub (3 * np + 4) (stateSize_velocity h1) i)))
                = fun _ => 0 := by
              funext i
              rw [if_pos (by simp only [sub]; omega)]
            show Quat.norm3 (fun i : Fin 3 => (if 3 * np + 4 ≤ (sub (3 * np + 4) (stateSize_velocity h1) i).val then 0 else s.value (sub (3 * np + 4) (stateSize_velocity h1) i))) ≤ 10
            rw [e]
            simp [Quat.norm3]
          · intro _ hle
            rw [hw] at hbig
            exact absurd (hle h1) (not_le.mpr hbig)
        · rw [← h]
          refine ⟨⟨hs.1, fun _ => hs.2.1, fun _ => not_lt.mp hbig⟩, rfl, rfl, rfl, fun hq _ => hs.2.2.2 (hq h0)⟩
      · rw [dif_neg h1] at h
        rw [← h]
        exact ⟨⟨hs.1, fun _ => hs.2.1, fun h => absurd h h1⟩, rfl, rfl, rfl, fun hq _ => hs.2.2.2 (hq h0)⟩
  · rw [dif_neg h0] at h
    simp only [Option.bind_eq_bind, Option.bind_some, Option.some.injEq] at h
    rw [dif_neg (by omega)] at h
    rw [← h]
    exact ⟨⟨hP, fun h => absurd h h0, fun h => absurd (by omega) h0⟩, rfl, rfl, rfl, fun _ _ => rfl⟩

theorem normalize_isSome {f : PoseFilter np nr} (h : ∀ h, ¬ ∀ i : Fin 4, f.state.value (sub (3 * np) (stateSize_quat h) i) = 0) :
    ∃ f', f.normalize = some f' := by
  unfold normalize
  by_cases h0 : 0 < nr
  · rw [dif_pos h0]
    obtain ⟨s, hs⟩ := normalizeQuat_isSome (h h0)
    rw [hs]
    exact ⟨_, rfl⟩
  · rw [dif_neg h0]
    exact ⟨_, rfl⟩

theorem quatAt_vecBuf (f : PoseFilter np nr) (h : 0 < nr) : quatAt (vecBuf f.state.value) (3 * np) = f.quat h := by
  have hsz := stateSize_quat (np := np) h
  unfold quatAt quat vecBuf Quat.fromVector
  rw [dif_pos (by omega), dif_pos (by omega), dif_pos (by omega), dif_pos (by omega)]
  rfl

theorem transform_psd {m n : ℕ} (F : Functor ℝ m n) (v : ErrorVector ℝ n) (hv : v.covariance.PosSemidef) :
    (transformWithCovariance F v).covariance.PosSemidef :=
  (C28_psd F v hv (fun _ _ => (0, 0, 0)) (⟨0, 1⟩ : ErrorVector ℝ m) Matrix.PosSemidef.one).1

theorem timeUpdate_spec (f : PoseFilter np nr) (t : BitVec 64) (hm : f.GoodModel) (hP : f.state.covariance.PosSemidef) :
    (f.timeUpdate t).state.covariance.PosSemidef ∧ (f.timeUpdate t).time = t ∧ (f.timeUpdate t).GoodModel ∧
    (∀ h, UnitQ (f.quat h) → UnitQ ((f.timeUpdate t).quat h)) ∧
    (f.time = 0 ∨ f.time = t → (f.timeUpdate t).state = f.state) := by
  unfold timeUpdate
  split_ifs with h0
  · exact ⟨hP, rfl, hm, fun _ => id, fun _ => rfl⟩
  · refine ⟨?_, rfl, hm, ?_, fun h => absurd h h0⟩
    · refine (C44_noise f.pn hm.1 _ ?_ _ 0).1
      exact transform_psd _ f.state hP
    · intro h hu
      set dt := signedSeconds t f.time
      have hsz := stateSize_quat (np := np) h
      have hread : ∀ (b : ℕ → ℝ), Quat.fromVector (fun i : Fin 4 => b (sub (3 * np) hsz i).val) = quatAt b (3 * np) := fun b => rfl
      unfold quat
      show UnitQ (Quat.fromVector fun i : Fin 4 => (poseFunctor f.insideOut dt np nr f.state.value).1 (sub (3 * np) hsz i))
      unfold poseFunctor
      split_ifs with hio
      · have hn := hm.2 hio
        rw [hread, (insideOut_eq dt np hn.1 id (vecBuf f.state.value) (vecBuf f.state.value) (Src.id _)).2.2.1, quatAt_vecBuf f h]
        exact RotationFilter.unit_mul_integrate hu _ _
      · rw [hread]
        exact C53_unit dt np nr h _ (by rw [quatAt_vecBuf f h]; exact hu)

/-- The timestamp of a measurement. -/
def Event.time : Event np nr → BitVec 64
  | .pose _ _ _ t => t
  | .rotation _ _ t => t
  | .velocity _ _ t => t
  | .inverseVelocity _ _ t => t

/-- Measured poses come with a covariance. -/
def Event.Good : Event np nr → Prop
  | .pose _ _ p _ => p.covariance.PosSemidef
  | _ => True

/-- Velocities are ignored until a pose or rotation was measured. -/
def Event.isVelocity : Event np nr → Bool
  | .velocity _ _ _ => true
  | .inverseVelocity _ _ _ => true
  | _ => false

theorem additiveCov_psd {C : Mat ℝ 6 6} (hC : C.PosSemidef) : (ErrorPose.additiveCov C).PosSemidef := by
  set E : Mat ℝ 7 6 := Matrix.of fun i j => if i.val = j.val then 1 else 0 with hE
  have e : ErrorPose.additiveCov C = E * C * Eᵀ + Matrix.diagonal fun i : Fin 7 => if i.val < 6 then 0 else C 3 3 + C 4 4 + C 5 5 := by
    ext i j
    simp only [Matrix.add_apply, Matrix.mul_apply, Matrix.diagonal_apply, ErrorPose.additiveCov, Matrix.of_apply, Matrix.transpose_apply, hE,
      Fin.sum_univ_six]
    fin_cases i <;> fin_cases j <;> simp
  rw [e]
  refine Matrix.PosSemidef.add ?_ (Matrix.PosSemidef.diagonal fun i => ?_)
  · have := hC.mul_mul_conjTranspose_same E
    rwa [Matrix.conjTranspose_eq_transpose_of_trivial] at this
  · dsimp only
    have h3 := hC.diag_nonneg (i := 3)
    have h4 := hC.diag_nonneg (i := 4)
    have h5 := hC.diag_nonneg (i := 5)
    split_ifs
    · exact le_refl 0
    · positivity

theorem toAdditive_psd {p : ErrorPose ℝ} (hp : p.covariance.PosSemidef) : p.toAdditive.covariance.PosSemidef :=
  C28_range_psd _ _ _ _ _ (additiveCov_psd hp)

theorem R3_posDef : ((1e-11 : ℝ) • 1 : Mat ℝ 3 3).PosDef := smul_one_posDef (by norm_num)

/-- A successful call leaves a valid filter. Its time is that of the measurement, unless it was a velocity before the first pose or
rotation: then nothing changes. -/
theorem C57_pose_filter_step (f f' : PoseFilter np nr) (hm : f.GoodModel) (hf : f.Valid) (e : Event np nr) (he : e.Good) (h : f.step e = some f') :
    f'.Valid ∧ f'.GoodModel ∧ (if f.time = 0 ∧ e.isVelocity then f' = f else f'.time = e.time) := by
  have fin : ∀ g : PoseFilter np nr, g.GoodModel → g.state.covariance.PosSemidef → g.time = e.time → g.normalize = some f' →
      f'.Valid ∧ f'.GoodModel ∧ f'.time = e.time := by
    intro g hg hs ht hh
    have := normalize_spec hh hs
    refine ⟨this.1, ?_, this.2.1.trans ht⟩
    unfold GoodModel
    rw [this.2.2.1, this.2.2.2.1]
    exact hg
  cases e with
  | pose hp hr p t =>
    simp only [Event.isVelocity, Bool.false_eq_true, and_false, if_false]
    simp only [step, addPose] at h
    set f0 : PoseFilter np nr := if f.time = 0 then
      { f with state := ⟨setSub (setSub f.state.value 0 p.toPose.translation) (3 * np) p.toPose.rotation.toVector, f.state.covariance⟩ }
      else f with hf0
    have h0 : f0.GoodModel ∧ f0.state.covariance.PosSemidef := by
      rw [hf0]
      split_ifs
      · exact ⟨hm, hf.1⟩
      · exact ⟨hm, hf.1⟩
    have ht := timeUpdate_spec f0 t h0.1 h0.2
    rw [Option.bind_eq_bind, Option.bind_eq_some_iff] at h
    obtain ⟨s, hs, h⟩ := h
    exact fin { f0.timeUpdate t with state := s } ht.2.2.1 (checkedUpdate_psd hs ht.1 (toAdditive_psd he)) ht.2.1 h
  | rotation hr q t =>
    simp only [Event.isVelocity, Bool.false_eq_true, and_false, if_false]
    simp only [step, addRotation] at h
    set f0 : PoseFilter np nr := if f.time = 0 then { f with state := ⟨setSub f.state.value (3 * np) q.toVector, f.state.covariance⟩ } else f with hf0
    have h0 : f0.GoodModel ∧ f0.state.covariance.PosSemidef := by
      rw [hf0]
      split_ifs
      · exact ⟨hm, hf.1⟩
      · exact ⟨hm, hf.1⟩
    have ht := timeUpdate_spec f0 t h0.1 h0.2
    rw [Option.bind_eq_bind, Option.bind_eq_some_iff] at h
    obtain ⟨s, hs, h⟩ := h
    rw [checkedUpdateIdentity_eq] at hs
    exact fin { f0.timeUpdate t with state := s } ht.2.2.1 (checkedUpdate_psd hs ht.1 RotationFilter.R4_posDef.posSemidef) ht.2.1 h
  | velocity hr w t =>
    simp only [Event.isVelocity, and_true]
    simp only [step, addRotationVelocity] at h
    split_ifs at h ⊢ with htime
    · simp only [Option.some.injEq] at h
      rw [← h]
      exact ⟨hf, hm, rfl⟩
    · have ht := timeUpdate_spec f t hm hf.1
      rw [Option.bind_eq_bind, Option.bind_eq_some_iff] at h
      obtain ⟨s, hs, h⟩ := h
      rw [checkedUpdateIdentity_eq] at hs
      exact fin { f.timeUpdate t with state := s } ht.2.2.1 (checkedUpdate_psd hs ht.1 R3_posDef.posSemidef) ht.2.1 h
  | inverseVelocity hr w t =>
    simp only [Event.isVelocity, and_true]
    simp only [step, addInverseRotationVelocity] at h
    split_ifs at h ⊢ with htime
    · simp only [Option.some.injEq] at h
      rw [← h]
      exact ⟨hf, hm, rfl⟩
    · have ht := timeUpdate_spec f t hm hf.1
      rw [Option.bind_eq_bind, Option.bind_eq_some_iff] at h
      obtain ⟨s, hs, h⟩ := h
      exact fin { f.timeUpdate t with state := s } ht.2.2.1 (checkedUpdate_psd hs ht.1 R3_posDef.posSemidef) ht.2.1 h

/-- The constructor refuses an inside-out model of another order, and otherwise gives a valid filter without a measurement. -/
theorem C57_pose_filter_init (np nr : ℕ) (insideOut : Bool) (pn : ℕ → ℝ) :
    (init np nr insideOut pn = none ↔ insideOut ∧ (np > 2 ∨ nr ≠ 2)) ∧
    ∀ f, init np nr insideOut pn = some f → f.Valid ∧ f.time = 0 ∧ f.pn = pn ∧ f.insideOut = insideOut := by
  unfold init
  split_ifs with h
  · simp [h]
  · refine ⟨by simp [h], ?_⟩
    intro f hf
    simp only [Option.some.injEq] at hf
    rw [← hf]
    refine ⟨⟨Matrix.PosSemidef.one, fun hr => ?_, fun hr => ?_⟩, rfl, rfl, rfl⟩
    · simp [quat, sub, Quat.fromVector, UnitQ, hr]
      have e0 : ¬ 3 * np = 3 + 3 * np := by omega
      have e1 : ¬ 3 * np + 1 = 3 + 3 * np := by omega
      have e2 : ¬ 3 * np + 2 = 3 + 3 * np := by omega
      have e3 : 3 * np + 3 = 3 + 3 * np := by omega
      simp [e0, e1, e2, e3]
    · have e : velocity (⟨insideOut, pn, ⟨fun i => if 0 < nr ∧ i.val = 3 + 3 * np then 1 else 0, 1⟩, 0⟩ : PoseFilter np nr) hr = fun _ => 0 := by
        funext i
        have hi : ¬ (0 < nr ∧ (sub (3 * np + 4) (stateSize_velocity (np := np) hr) i).val = 3 + 3 * np) := by
          simp only [sub]
          omega
        exact if_neg hi
      rw [e]
      simp [Quat.norm3]

/-- After any history of measurements, in any order of time, the covariance is symmetric and positive semidefinite, the orientation
is a unit quaternion and the angular velocity is at most 10 rad/s. -/
theorem C57_pose_filter (insideOut : Bool) (hio : insideOut → 0 < np) (pn : ℕ → ℝ) (hpn : ∀ i < stateSize np nr, 0 ≤ pn i)
    (f0 f : PoseFilter np nr) (h0 : init np nr insideOut pn = some f0) (es : List (Event np nr)) (hes : ∀ e ∈ es, e.Good) (h : f0.run es = some f) :
    f.state.covariance.PosSemidef ∧ (∀ hr, UnitQ (f.quat hr)) ∧ ∀ hr, Quat.norm3 (f.velocity hr) ≤ 10 := by
  have key : ∀ (es : List (Event np nr)) (g f : PoseFilter np nr), (∀ e ∈ es, e.Good) → g.GoodModel → g.Valid → g.run es = some f → f.Valid := by
    intro es
    induction es with
    | nil =>
      intro g f _ _ hg h
      simp only [run, Option.some.injEq] at h
      exact h ▸ hg
    | cons e es ih =>
      intro g f hes hm hg h
      simp only [run, Option.bind_eq_bind] at h
      cases hs : g.step e with
      | none => simp [hs] at h
      | some g' =>
        rw [hs] at h
        have := C57_pose_filter_step g g' hm hg e (hes e (by simp)) hs
        exact ih g' f (fun e he => hes e (by simp [he])) this.2.1 this.1 h
  have hi := (C57_pose_filter_init np nr insideOut pn).2 f0 h0
  refine key es f0 f hes ⟨?_, ?_⟩ hi.1 h
  · rw [hi.2.2.1]
    exact hpn
  · rw [hi.2.2.2]
    intro hb
    have hn : ¬ (insideOut ∧ (np > 2 ∨ nr ≠ 2)) := by
      rw [← (C57_pose_filter_init np nr insideOut pn).1, h0]
      simp
    have := hio hb
    have hn2 : ¬ (np > 2 ∨ nr ≠ 2) := fun h => hn ⟨hb, h⟩
    omega

/-- The time of the filter after a history: that of the last measurement that was not ignored. -/
def lastTime (t0 : BitVec 64) : List (Event np nr) → BitVec 64
  | [] => t0
  | e :: es => lastTime (if t0 = 0 ∧ e.isVelocity then t0 else e.time) es

theorem C57_pose_filter_time (f f' : PoseFilter np nr) (hm : f.GoodModel) (hf : f.Valid) (es : List (Event np nr)) (hes : ∀ e ∈ es, e.Good)
    (h : f.run es = some f') : f'.time = lastTime f.time es := by
  induction es generalizing f with
  | nil =>
    simp only [run, Option.some.injEq] at h
    rw [← h]
    rfl
  | cons e es ih =>
    simp only [run, Option.bind_eq_bind] at h
    cases hs : f.step e with
    | none => simp [hs] at h
    | some g =>
      rw [hs] at h
      have := C57_pose_filter_step f g hm hf e (hes e (by simp)) hs
      rw [ih g this.2.1 this.1 (fun e he => hes e (by simp [he])) h]
      show lastTime g.time es = lastTime (if f.time = 0 ∧ e.isVelocity then f.time else e.time) es
      congr 1
      have h3 := this.2.2
      split_ifs at h3 ⊢ with hc
      · rw [h3]
      · exact h3

theorem hemisphere_self (z : Vec ℝ 4) : hemisphere z z = z := by
  unfold hemisphere
  rw [if_neg]
  nlinarith [mul_self_nonneg (z 0), mul_self_nonneg (z 1), mul_self_nonneg (z 2), mul_self_nonneg (z 3)]

/-- A rotation measurement never fails: with a unit quaternion the fused quaternion is never zero. -/
theorem C57_pose_filter_rotation_succeeds (f : PoseFilter np nr) (hm : f.GoodModel) (hf : f.Valid) (hr : 0 < nr) (q : Quat ℝ) (hq : UnitQ q)
    (t : BitVec 64) : ∃ f', f.addRotation hr q t = some f' := by
  unfold addRotation
  set f0 : PoseFilter np nr := if f.time = 0 then { f with state := ⟨setSub f.state.value (3 * np) q.toVector, f.state.covariance⟩ } else f with hf0
  have h0 : f0.GoodModel ∧ f0.state.covariance.PosSemidef ∧ UnitQ (f0.quat hr) := by
    rw [hf0]
    split_ifs
    · refine ⟨hm, hf.1, ?_⟩
      have : (fun i : Fin 4 => setSub f.state.value (3 * np) q.toVector (sub (3 * np) (stateSize_quat hr) i)) = q.toVector := by
        funext i
        simp [setSub, sub, loc]
      unfold quat
      simp only
      rw [this]
      exact hq
    · exact ⟨hm, hf.1, hf.2.1 hr⟩
  have ht := timeUpdate_spec f0 t h0.1 h0.2.1
  have hu := ht.2.2.2.1 hr h0.2.2
  set g := f0.timeUpdate t with hg
  simp only
  rw [checkedUpdateIdentity_eq, checkedUpdate_isSome ht.1 RotationFilter.R4_posDef, ← C29_identity]
  simp only [Option.bind_eq_bind, Option.bind_some]
  set v : ErrorVector ℝ 4 := ⟨hemisphere (g.quat hr).toVector q.toVector, (0.004 : ℝ) • 1⟩ with hv
  refine normalize_isSome fun _ => ?_
  intro hall
  have hr' := kalmanUpdateIdentity_range g.state v (3 * np) (stateSize_quat hr) ht.1 RotationFilter.R4_posDef.posSemidef
  rw [show (fun i => (kalmanUpdateIdentity g.state v (3 * np) (stateSize_quat hr)).value (sub (3 * np) (stateSize_quat hr) i)) = (0 : Vec ℝ 4)
    from funext hall] at hr'
  refine fused_ne_zero (g.state.covariance.submatrix (sub (3 * np) (stateSize_quat hr)) (sub (3 * np) (stateSize_quat hr))) (ht.1.submatrix _) 0.004 (by norm_num)
    (fun i => g.state.value (sub (3 * np) (stateSize_quat hr) i)) v.value (fun h0 => RotationFilter.unit_ne_zero hu fun i => ?_) ?_ hr'.symm
  · have := h0 i
    revert this
    fin_cases i <;> exact id
  have e : (fun i : Fin 4 => g.state.value (sub (3 * np) (stateSize_quat hr) i)) ⬝ᵥ v.value
      = (g.quat hr).toVector 0 * v.value 0 + (g.quat hr).toVector 1 * v.value 1 + (g.quat hr).toVector 2 * v.value 2 + (g.quat hr).toVector 3 * v.value 3 := by
    rw [dotProduct, Fin.sum_univ_four]
    rfl
  rw [e, hv]
  simp only [hemisphere]
  split_ifs with hs
  · nlinarith
  · exact not_lt.mp hs

/-- Before the first measurement there is no prediction. -/
theorem C57_predict_throws (hp : 0 < np) (hr : 0 < nr) (f : PoseFilter np nr) (t : BitVec 64) : f.predictPose hp hr t = none ↔ f.time = 0 := by
  unfold predictPose
  split_ifs with h
  · exact ⟨fun _ => h, fun _ => rfl⟩
  · exact ⟨fun h' => absurd h' (by simp), fun h' => absurd h' h⟩

/-- The position of the state. -/
def position (hp : 0 < np) (f : PoseFilter np nr) : Vec ℝ 3 := fun i => f.state.value ⟨i, by
  have : 3 * np ≤ stateSize np nr := by unfold stateSize; omega
  omega⟩

theorem transformRange_errorConversion (q : Quat ℝ) (v : ErrorVector ℝ 7) (hs : v.covariance.IsSymm) :
    (transformRange (ErrorPose.errorConversion q) v 3 3 (by omega)).value = v.value := by
  have hr := (C28_range (ErrorPose.errorConversion q) v 3 3 (by omega) hs).1
  funext i
  rw [hr]
  split_ifs with h
  · simp only [ErrorPose.errorConversion]
    congr 1
    exact Fin.ext (by simp; omega)
  · rfl

theorem toAdditive_value (p : ErrorPose ℝ) (hp : p.covariance.IsSymm) : p.toAdditive.value = p.toPose.toVector :=
  transformRange_errorConversion _ _ (ErrorPose.additiveCov_symm _ hp)

/-- Where the pose is in the state, PoseKalmanFilter.cpp l.288-305. -/
def poseIndex (hp : 0 < np) (hr : 0 < nr) (i : Fin 7) : Fin (stateSize np nr) :=
  ⟨if i.val < 3 then i.val else 3 * np + (i.val - 3), by
    have := stateSize_quat (np := np) hr
    split_ifs <;> omega⟩

theorem predictPose_eq (hp : 0 < np) (hr : 0 < nr) (f : PoseFilter np nr) (t : BitVec 64) (ht : f.time ≠ 0) :
    f.predictPose hp hr t = some (ErrorPose.fromAdditive
      ⟨fun i => (poseFunctor f.insideOut (signedSeconds t f.time) np nr f.state.value).1 (poseIndex hp hr i),
       (addNoise f.pn (transformWithCovariance (poseFunctor f.insideOut (signedSeconds t f.time) np nr) f.state).covariance
         (signedSeconds t f.time)).submatrix (poseIndex hp hr) (poseIndex hp hr)⟩) := by
  unfold predictPose
  rw [if_neg ht]
  simp only
  congr 3
  · funext i
    exact vecBuf_apply _ (poseIndex hp hr i)
  · ext i j
    simp only [Matrix.of_apply, Matrix.submatrix_apply, matBuf]
    exact dif_pos ⟨(poseIndex hp hr i).isLt, (poseIndex hp hr j).isLt⟩

/-- A prediction has a valid covariance, whatever the time. -/
theorem C57_predict_covariance (hp : 0 < np) (hr : 0 < nr) (f : PoseFilter np nr) (hm : f.GoodModel) (hf : f.Valid) (t : BitVec 64) (p : ErrorPose ℝ)
    (h : f.predictPose hp hr t = some p) : p.covariance.PosSemidef := by
  have ht : f.time ≠ 0 := by
    intro h0
    rw [(C57_predict_throws hp hr f t).mpr h0] at h
    exact absurd h (by simp)
  rw [predictPose_eq hp hr f t ht] at h
  simp only [Option.some.injEq] at h
  rw [← h]
  refine Matrix.PosSemidef.submatrix ?_ _
  refine C28_range_psd _ _ _ _ _ ?_
  refine Matrix.PosSemidef.submatrix ?_ _
  exact (C44_noise f.pn hm.1 _ (transform_psd _ f.state hf.1) _ 0).1

/-- A time update by nothing leaves position and orientation. -/
theorem functor_zero (hp : 0 < np) (hr : 0 < nr) (f : PoseFilter np nr) (hm : f.GoodModel) (i : Fin 7) :
    (poseFunctor f.insideOut 0 np nr f.state.value).1 (poseIndex hp hr i) = f.state.value (poseIndex hp hr i) := by
  set k := poseIndex (np := np) hp hr i with hk
  have hk' : k.val < 3 ∨ (3 * np ≤ k.val ∧ k.val < 3 * np + 4) := by
    rw [hk]
    unfold poseIndex
    simp only
    split_ifs <;> omega
  unfold poseFunctor
  split_ifs with hb
  · have h2 := insideOut_eq 0 np (hm.2 hb).1 id (vecBuf f.state.value) (vecBuf f.state.value) (Src.id _)
    have hr0 : ∀ w, rotationVelocityIntegration 0 w = ![0, 0, 0, 1] := by
      intro w
      simp [rotationVelocityIntegration]
    have hrot : ∀ v : Vec ℝ 3, quaternionVectorRotation ![0, 0, 0, 1] v = v := by
      intro v
      funext k
      fin_cases k <;> simp [quaternionVectorRotation] <;> ring
    have hint : ∀ w, integrate w 0 = ⟨0, 0, 0, 1⟩ := by
      intro w
      unfold integrate
      simp only [mul_zero]
      exact fromLogarithm_zero
    have hone : ∀ q : Quat ℝ, q.mul ⟨0, 0, 0, 1⟩ = q := by
      intro q
      simp [Quat.mul]
    simp only [hr0, hrot, hint, hone, zero_mul, ite_self, add_zero] at h2
    show insideOutTimeUpdate 0 np id (vecBuf f.state.value) k.val = _
    rw [← vecBuf_apply f.state.value k]
    generalize k.val = j at hk'
    rcases hk' with hk' | hk'
    · have := congrFun h2.1 ⟨j, hk'⟩
      simpa [vecAt] using this
    · obtain ⟨m, rfl⟩ : ∃ m, j = 3 * np + m := ⟨j - 3 * np, by omega⟩
      have hm5 : m < 4 := by omega
      have := congrArg Quat.toVector h2.2.2.1
      have := congrFun this ⟨m, hm5⟩
      interval_cases m <;> simpa [quatAt, Quat.toVector] using this
  · show poseTimeUpdate 0 np nr id (vecBuf f.state.value) k.val = _
    rw [C43_zero np nr _ k.val k.isLt, vecBuf_apply]

/-- A prediction for the time of the last measurement is the position and orientation of the state. -/
theorem C57_predict_now (hp : 0 < np) (hr : 0 < nr) (f : PoseFilter np nr) (hm : f.GoodModel) (hf : f.Valid) (ht : f.time ≠ 0) :
    ∃ p, f.predictPose hp hr f.time = some p ∧ p.toPose = ⟨f.quat hr, f.position hp⟩ := by
  refine ⟨_, predictPose_eq hp hr f f.time ht, ?_⟩
  have h0 : signedSeconds f.time f.time = 0 := by simp [signedSeconds]
  rw [h0]
  unfold ErrorPose.fromAdditive
  simp only
  rw [transformRange_errorConversion]
  · simp only [functor_zero hp hr f hm]
    simp only [Pose.fromVector, Pose.mk.injEq]
    refine ⟨?_, ?_⟩
    · simp [quat, poseIndex, sub, Quat.fromVector]
    · funext i
      fin_cases i <;> simp [poseIndex, position]
  · exact symm_of_psd (Matrix.PosSemidef.submatrix (C44_noise f.pn hm.1 _ (transform_psd _ f.state hf.1) _ 0).1 _)

/-- The first pose measurement always succeeds, and the filter then predicts exactly that pose for its time. -/
theorem C57_pose_first (insideOut : Bool) (hio : insideOut → 0 < np) (pn : ℕ → ℝ) (hpn : ∀ i < stateSize np nr, 0 ≤ pn i)
    (f0 : PoseFilter np nr) (h0 : init np nr insideOut pn = some f0) (hp : 0 < np) (hr : 0 < nr) (p : ErrorPose ℝ)
    (hu : UnitQ p.toPose.rotation) (hc : p.covariance.PosSemidef) (t : BitVec 64) (ht : t ≠ 0) :
    ∃ f r, f0.addPose hp hr p t = some f ∧ f.predictPose hp hr t = some r ∧ r.toPose = p.toPose := by
  have hi := (C57_pose_filter_init np nr insideOut pn).2 f0 h0
  have hm : f0.GoodModel := by
    refine ⟨by rw [hi.2.2.1]; exact hpn, ?_⟩
    rw [hi.2.2.2]
    intro hb
    have hn : ¬ (insideOut ∧ (np > 2 ∨ nr ≠ 2)) := by
      rw [← (C57_pose_filter_init np nr insideOut pn).1, h0]
      simp
    have := hio hb
    have hn2 : ¬ (np > 2 ∨ nr ≠ 2) := fun h => hn ⟨hb, h⟩
    omega
  have hsz := stateSize_quat (np := np) hr
  set g : PoseFilter np nr := { f0 with
    state := ⟨setSub (setSub f0.state.value 0 p.toPose.translation) (3 * np) p.toPose.rotation.toVector, f0.state.covariance⟩
    time := t } with hg
  have hgq : g.quat hr = p.toPose.rotation := by
    simp [hg, quat, setSub, sub, loc, Quat.fromVector, Quat.toVector]
  have hgp : g.position hp = p.toPose.translation := by
    funext i
    have hi := i.isLt
    have h1 : ¬ (3 * np ≤ i.val ∧ i.val < 3 * np + 4) := by omega
    simp only [hg, position, setSub, loc]
    rw [dif_neg h1]
    simp
  have hgm : g.GoodModel := hm
  have hgc : g.state.covariance.PosDef := by
    have : f0.state.covariance = 1 := by
      unfold init at h0
      split_ifs at h0
      simp only [Option.some.injEq] at h0
      rw [← h0]
    show f0.state.covariance.PosDef
    rw [this]
    exact Matrix.PosDef.one
  have hadd : f0.addPose hp hr p t = (do
      let s ← checkedUpdate (poseMeasurement np) g.state p.toAdditive 0 (by omega)
      normalize { g with state := s }) := by
    unfold addPose
    rw [if_pos hi.2.1]
    simp only [timeUpdate, hi.2.1, true_or, if_true]
    have hz : hemisphere (g.quat hr).toVector ![p.toAdditive.value 3, p.toAdditive.value 4, p.toAdditive.value 5, p.toAdditive.value 6]
        = ![p.toAdditive.value 3, p.toAdditive.value 4, p.toAdditive.value 5, p.toAdditive.value 6] := by
      have : (![p.toAdditive.value 3, p.toAdditive.value 4, p.toAdditive.value 5, p.toAdditive.value 6] : Vec ℝ 4) = (g.quat hr).toVector := by
        rw [toAdditive_value p (symm_of_psd hc), hgq]
        funext i
        fin_cases i <;> simp [Pose.toVector, Quat.toVector]
      rw [this]
      exact hemisphere_self _
    have hz' := hz
    rw [hg] at hz'
    rw [hz']
    have hv : (⟨![p.toAdditive.value 0, p.toAdditive.value 1, p.toAdditive.value 2,
        (![p.toAdditive.value 3, p.toAdditive.value 4, p.toAdditive.value 5, p.toAdditive.value 6] : Vec ℝ 4) 0,
        (![p.toAdditive.value 3, p.toAdditive.value 4, p.toAdditive.value 5, p.toAdditive.value 6] : Vec ℝ 4) 1,
        (![p.toAdditive.value 3, p.toAdditive.value 4, p.toAdditive.value 5, p.toAdditive.value 6] : Vec ℝ 4) 2,
        (![p.toAdditive.value 3, p.toAdditive.value 4, p.toAdditive.value 5, p.toAdditive.value 6] : Vec ℝ 4) 3], p.toAdditive.covariance⟩ : ErrorVector ℝ 7)
        = p.toAdditive := by
      cases hA : p.toAdditive with
      | mk val cov =>
        congr 1
        funext i
        fin_cases i <;> rfl
    rw [hv]
  have hval := toAdditive_value p (symm_of_psd hc)
  have hmeas : p.toAdditive.value = (poseMeasurement np fun i => g.state.value ⟨0 + i, by omega⟩).1 := by
    rw [hval]
    have hq : ∀ i : Fin 4, g.state.value (sub (3 * np) hsz i) = p.toPose.rotation.toVector i := by
      intro i
      rw [← hgq]
      fin_cases i <;> rfl
    have hpz : ∀ i : Fin 3, g.state.value ⟨i, by omega⟩ = p.toPose.translation i := by
      intro i
      rw [← hgp]
      rfl
    funext i
    simp only [poseMeasurement, vecBuf]
    rw [dif_pos (by split_ifs <;> omega)]
    by_cases h3 : i.val < 3
    · have e : (⟨0 + (if i.val < 3 then i.val else 3 * np + (i.val - 3)), by rw [if_pos h3]; omega⟩ : Fin (stateSize np nr)) = ⟨(⟨i, h3⟩ : Fin 3).val, by simp only; omega⟩ :=
        Fin.ext (by simp [h3])
      refine Eq.trans ?_ ((hpz ⟨i, h3⟩).symm.trans (congrArg g.state.value e.symm))
      clear e
      fin_cases i <;> first | rfl | (exfalso; revert h3; decide)
    · have e : (⟨0 + (if i.val < 3 then i.val else 3 * np + (i.val - 3)), by rw [if_neg h3]; omega⟩ : Fin (stateSize np nr))
          = sub (3 * np) hsz ⟨i.val - 3, by omega⟩ := Fin.ext (by simp [h3, sub])
      simp only [e]
      rw [hq]
      clear e
      fin_cases i <;> first | rfl | (exfalso; revert h3; decide)
  have hdet : ((poseMeasurement np fun i => g.state.value (sub 0 (by omega) i)).2 * g.state.covariance.submatrix (sub 0 (by omega)) (sub 0 (by omega)) *
      (poseMeasurement np fun i => g.state.value (sub 0 (by omega) i)).2ᵀ + p.toAdditive.covariance).det ≠ 0 := by
    have hone : g.state.covariance.submatrix (sub 0 (by omega)) (sub 0 (by omega)) = (1 : Mat ℝ (3 * np + 4) (3 * np + 4)) := by
      have : g.state.covariance = 1 := by
        show f0.state.covariance = 1
        unfold init at h0
        split_ifs at h0
        simp only [Option.some.injEq] at h0
        rw [← h0]
      rw [this]
      refine Matrix.submatrix_one _ fun a b hab => ?_
      have := congrArg Fin.val hab
      simp only [sub] at this
      exact Fin.ext (by omega)
    rw [hone, Matrix.mul_one]
    set idx : Fin 7 → Fin (3 * np + 4) := fun i => ⟨if i.val < 3 then i.val else 3 * np + (i.val - 3), by split_ifs <;> omega⟩ with hidx
    have hH : (poseMeasurement np fun i => g.state.value (sub 0 (by omega) i)).2 = (1 : Mat ℝ (3 * np + 4) (3 * np + 4)).submatrix idx id := by
      ext i j
      have hi := i.isLt
      have hj := j.isLt
      simp only [poseMeasurement, Matrix.of_apply, Matrix.submatrix_apply, Matrix.one_apply, hidx, Fin.ext_iff, id]
      split_ifs <;> first | rfl | (exfalso; omega)
    have hHH : (poseMeasurement np fun i => g.state.value (sub 0 (by omega) i)).2 * (poseMeasurement np fun i => g.state.value (sub 0 (by omega) i)).2ᵀ
        = (1 : Mat ℝ 7 7) := by
      rw [hH, Matrix.transpose_submatrix, Matrix.transpose_one, ← Matrix.submatrix_mul _ _ _ _ _ Function.bijective_id, Matrix.one_mul]
      refine Matrix.submatrix_one _ fun a b hab => ?_
      have := congrArg Fin.val hab
      simp only [hidx] at this
      refine Fin.ext ?_
      split_ifs at this <;> omega
    rw [hHH]
    exact isUnit_iff_ne_zero.mp ((Matrix.isUnit_iff_isUnit_det _).mp (Matrix.PosDef.add_posSemidef Matrix.PosDef.one (toAdditive_psd hc)).isUnit)
  have hperf := C29_perfect_prediction (poseMeasurement np) g.state p.toAdditive 0 (by omega) hmeas
  have hupd : checkedUpdate (poseMeasurement np) g.state p.toAdditive 0 (by omega) = some (kalmanUpdate (poseMeasurement np) g.state p.toAdditive 0 (by omega)) := by
    unfold checkedUpdate
    rw [if_neg hdet]
  set s := kalmanUpdate (poseMeasurement np) g.state p.toAdditive 0 (by omega) with hs
  set g1 : PoseFilter np nr := { g with state := s } with hg1
  have hq1 : ∀ h, g1.quat h = g.quat h := fun h => by
    unfold quat
    show Quat.fromVector (fun i => s.value _) = _
    rw [hperf]
  have hw1 : ∀ h, Quat.norm3 (g1.velocity h) ≤ 10 := by
    intro h
    have := hi.1.2.2 h
    have e : g1.velocity h = f0.velocity h := by
      unfold velocity
      show (fun i => s.value _) = _
      rw [hperf]
      funext i
      have h1 : ¬ (3 * np ≤ (sub (3 * np + 4) (stateSize_velocity (np := np) h) i).val ∧ (sub (3 * np + 4) (stateSize_velocity (np := np) h) i).val < 3 * np + 4) := by
        simp only [sub]
        omega
      have h2 : ¬ (0 ≤ (sub (3 * np + 4) (stateSize_velocity (np := np) h) i).val ∧ (sub (3 * np + 4) (stateSize_velocity (np := np) h) i).val < 0 + 3) := by
        simp only [sub]
        omega
      simp only [hg, setSub, loc]
      rw [dif_neg h1, dif_neg h2]
    rw [e]
    exact this
  obtain ⟨f, hf⟩ := normalize_isSome (f := g1) (by
    intro h hall
    refine RotationFilter.unit_ne_zero hu fun i => ?_
    rw [← hgq, ← hq1]
    have := hall i
    revert this
    fin_cases i <;> exact id)
  have hps : s.covariance.PosSemidef := checkedUpdate_psd hupd hgc.posSemidef (toAdditive_psd hc)
  have hn := normalize_spec hf hps
  have hfv : f.state.value = g.state.value := (hn.2.2.2.2 (fun h => by rw [hq1, hgq]; exact hu) hw1).trans hperf
  have hft : f.time = t := hn.2.1
  have hfm : f.GoodModel := by
    unfold GoodModel
    rw [hn.2.2.1, hn.2.2.2.1]
    exact hgm
  obtain ⟨r, hr1, hr2⟩ := C57_predict_now hp hr f hfm hn.1 (by rw [hft]; exact ht)
  refine ⟨f, r, ?_, by rw [← hft]; exact hr1, ?_⟩
  · rw [hadd, hupd]
    exact hf
  · rw [hr2]
    have e1 : f.quat hr = p.toPose.rotation := by
      rw [← hgq]
      unfold quat
      rw [hfv]
    have e2 : f.position hp = p.toPose.translation := by
      rw [← hgp]
      unfold position
      rw [hfv]
    rw [e1, e2]

example : ∃ f0 : PoseFilter 2 2, init 2 2 true (fun _ => 1) = some f0 := ⟨_, if_neg (by simp)⟩

example : (⟨⟨⟨0, 0, 3 / 5, 4 / 5⟩, ![1, 2, 3]⟩, 1⟩ : ErrorPose ℝ).covariance.PosSemidef := Matrix.PosSemidef.one

end PoseFilter

end Ubitrack.Tracking
