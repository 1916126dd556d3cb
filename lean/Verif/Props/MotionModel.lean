import Verif.Proofs.Tracking
import Verif.Spec.Motion
import Verif.Spec.Jacobian
import Verif.Props.RotationReal
import Verif.Props.ExpLog
import Verif.Proofs.Jacobian
import Mathlib.Analysis.SpecialFunctions.Exponential
import Mathlib.LinearAlgebra.Matrix.PosDef
import Mathlib.Algebra.Order.Star.Real

/-!
# C43, C44, C53: motion models
-/

namespace Ubitrack.Tracking

open Spec

theorem deriv_polyMotion (n : ℕ) (d : ℕ → ℝ) : deriv (polyMotion n d) = polyMotion (n - 1) (fun m => d (m + 1)) := by
  funext t
  apply HasDerivAt.deriv
  unfold polyMotion
  cases n with
  | zero => simpa using hasDerivAt_const t (0 : ℝ)
  | succ n =>
    have h : ∀ m ∈ Finset.range (n + 1), HasDerivAt (fun t : ℝ => t ^ m / (m.factorial : ℝ) * d m)
        (((m : ℝ) * t ^ (m - 1)) / (m.factorial : ℝ) * d m) t := fun m _ => ((hasDerivAt_pow m t).div_const _).mul_const _
    refine (HasDerivAt.fun_sum h).congr_deriv ?_
    rw [Finset.sum_range_succ']
    simp only [Nat.add_sub_cancel, Nat.cast_zero, zero_mul, zero_div, add_zero]
    refine Finset.sum_congr rfl fun m _ => ?_
    rw [Nat.factorial_succ]
    have h1 : (m.factorial : ℝ) ≠ 0 := Nat.cast_ne_zero.mpr (Nat.factorial_ne_zero m)
    have h2 : ((m : ℝ) + 1) ≠ 0 := by positivity
    push_cast
    field_simp

theorem iteratedDeriv_polyMotion (n i : ℕ) (d : ℕ → ℝ) :
    iteratedDeriv i (polyMotion n d) = polyMotion (n - i) (fun m => d (m + i)) := by
  induction i with
  | zero => simp
  | succ i ih =>
    rw [iteratedDeriv_succ, ih, deriv_polyMotion]
    congr 1
    funext m
    congr 1
    omega

/-- The functions read their input before overwriting it: updating a state in place gives the same result as writing into
another vector with arbitrary contents. -/
theorem C53_in_place (dt : ℝ) (np nr : ℕ) (x y : ℕ → ℝ) (j : ℕ) (hj : j < stateSize np nr) :
    poseTimeUpdate dt np nr id x j = poseTimeUpdate dt np nr (fun _ => x) y j := by
  rw [poseTimeUpdate_eq dt np nr id x x (Src.id x) j hj, poseTimeUpdate_eq dt np nr _ x y (Src.const x y) j hj]

/-- Position and its derivatives are those of the polynomial motion through the given state, for every order. -/
theorem C43_position (dt : ℝ) (np nr : ℕ) (x : ℕ → ℝ) (i k : ℕ) (hi : i < np) (hk : k < 3) :
    poseTimeUpdate dt np nr id x (3 * i + k) = iteratedDeriv i (polyMotion np fun m => x (3 * m + k)) dt := by
  rw [poseTimeUpdate_eq dt np nr id x x (Src.id x) _ (by unfold stateSize; omega), iteratedDeriv_polyMotion]
  unfold poseValue
  rw [if_pos (by omega)]
  unfold taylor polyMotion
  have : np - (3 * i + k) / 3 = np - i := by omega
  rw [this]
  refine Finset.sum_congr rfl fun m _ => ?_
  congr 2
  omega

/-- Angular velocity and its derivatives likewise. -/
theorem C43_angular_velocity (dt : ℝ) (np nr : ℕ) (x : ℕ → ℝ) (i k : ℕ) (hi : i + 1 < nr) (hk : k < 3) :
    poseTimeUpdate dt np nr id x (3 * np + 4 + 3 * i + k)
      = iteratedDeriv i (polyMotion (nr - 1) fun m => x (3 * np + 4 + 3 * m + k)) dt := by
  rw [poseTimeUpdate_eq dt np nr id x x (Src.id x) _ (by unfold stateSize; rw [if_pos (by omega)]; omega), iteratedDeriv_polyMotion]
  unfold poseValue
  rw [if_neg (by omega), if_neg (by omega)]
  unfold taylor polyMotion
  have : nr - 1 - (3 * np + 4 + 3 * i + k - (3 * np + 4)) / 3 = nr - 1 - i := by omega
  rw [this]
  refine Finset.sum_congr rfl fun m _ => ?_
  congr 2
  omega

theorem binomial_div (a b : ℝ) (n : ℕ) :
    (a + b) ^ n / (n.factorial : ℝ) = ∑ k ∈ Finset.range (n + 1), b ^ k / (k.factorial : ℝ) * (a ^ (n - k) / ((n - k).factorial : ℝ)) := by
  rw [add_comm a b, add_pow, Finset.sum_div]
  refine Finset.sum_congr rfl fun k hk => ?_
  have hk' : k ≤ n := by simpa [Nat.lt_succ_iff] using hk
  rw [Nat.cast_choose ℝ hk']
  have h1 : (n.factorial : ℝ) ≠ 0 := Nat.cast_ne_zero.mpr (Nat.factorial_ne_zero n)
  have h2 : (k.factorial : ℝ) ≠ 0 := Nat.cast_ne_zero.mpr (Nat.factorial_ne_zero k)
  have h3 : ((n - k).factorial : ℝ) ≠ 0 := Nat.cast_ne_zero.mpr (Nat.factorial_ne_zero (n - k))
  field_simp

theorem taylor_flow (a b : ℝ) (N : ℕ) (x : ℕ → ℝ) (j : ℕ) :
    taylor b 3 N (fun i => taylor a 3 (N - (i - j) / 3) x i) j = taylor (a + b) 3 N x j := by
  unfold taylor
  have h : ∀ m ∈ Finset.range N, b ^ m / (m.factorial : ℝ) *
        ∑ l ∈ Finset.range (N - (j + 3 * m - j) / 3), a ^ l / (l.factorial : ℝ) * x (j + 3 * m + 3 * l)
      = ∑ l ∈ Finset.range (N - m), (fun m l => b ^ m / (m.factorial : ℝ) * (a ^ l / (l.factorial : ℝ)) * x (j + 3 * (m + l))) m l := by
    intro m _
    have : (j + 3 * m - j) / 3 = m := by omega
    rw [this, Finset.mul_sum]
    refine Finset.sum_congr rfl fun l _ => ?_
    simp only
    rw [mul_assoc]
    congr 3
    omega
  rw [Finset.sum_congr rfl h, ← Finset.sum_range_diag_flip]
  refine Finset.sum_congr rfl fun n _ => ?_
  rw [binomial_div, Finset.sum_mul]
  refine Finset.sum_congr rfl fun k hk => ?_
  have hk' : k ≤ n := by simpa [Nat.lt_succ_iff] using hk
  rw [Nat.add_sub_cancel' hk']

theorem taylor_congr {dt : ℝ} {n : ℕ} {x y : ℕ → ℝ} {j : ℕ} (h : ∀ m < n, x (j + 3 * m) = y (j + 3 * m)) :
    taylor dt 3 n x j = taylor dt 3 n y j := by
  unfold taylor
  refine Finset.sum_congr rfl fun m hm => ?_
  rw [h m (by simpa using hm)]

/-- Predicting by `dt1` and then by `dt2` is predicting by `dt1 + dt2`, for the position, the angular velocity and all of their
derivatives, for every order. -/
theorem C43_flow (dt1 dt2 : ℝ) (np nr : ℕ) (x : ℕ → ℝ) (j : ℕ) (hj : j < stateSize np nr)
    (hpart : j < 3 * np ∨ 3 * np + 4 ≤ j) :
    poseTimeUpdate dt2 np nr id (poseTimeUpdate dt1 np nr id x) j = poseTimeUpdate (dt1 + dt2) np nr id x j := by
  rw [poseTimeUpdate_eq dt2 np nr id _ _ (Src.id _) j hj, poseTimeUpdate_eq (dt1 + dt2) np nr id x x (Src.id x) j hj]
  have hstep : ∀ i, i < stateSize np nr → poseTimeUpdate dt1 np nr id x i = poseValue dt1 np nr x i :=
    fun i hi => poseTimeUpdate_eq dt1 np nr id x x (Src.id x) i hi
  have hn := hj
  unfold stateSize at hn
  rcases hpart with h | h
  · unfold poseValue
    rw [if_pos h, if_pos h, ← taylor_flow dt1 dt2]
    refine taylor_congr fun m hm => ?_
    rw [hstep _ (by unfold stateSize; omega)]
    unfold poseValue
    rw [if_pos (by omega)]
    congr 1
    omega
  · have h0 : 0 < nr := by
      by_contra h0
      rw [if_neg h0] at hn
      omega
    rw [if_pos h0] at hn
    unfold poseValue
    rw [if_neg (by omega), if_neg (by omega), if_neg (by omega), if_neg (by omega), ← taylor_flow dt1 dt2]
    refine taylor_congr fun m hm => ?_
    rw [hstep _ (by unfold stateSize; rw [if_pos h0]; omega)]
    unfold poseValue
    rw [if_neg (by omega), if_neg (by omega)]
    congr 1
    omega

theorem fromLogarithm_zero : Quat.fromLogarithm (fun _ => 0) = ⟨0, 0, 0, 1⟩ := by
  unfold Quat.fromLogarithm Quat.norm3
  simp only [mul_zero, add_zero, Real.sqrt_zero]
  rw [if_neg (by norm_num)]

/-- The quaternion part of the pose update. -/
theorem quatAt_poseTimeUpdate (dt : ℝ) (np nr : ℕ) (hnr : 0 < nr) (x : ℕ → ℝ) :
    quatAt (poseTimeUpdate dt np nr id x) (3 * np) = turned dt (nr - 1) x (3 * np) := by
  have h : ∀ k, k < 4 → poseTimeUpdate dt np nr id x (3 * np + k) = vecBuf (turned dt (nr - 1) x (3 * np)).toVector k := by
    intro k hk
    rw [poseTimeUpdate_eq dt np nr id x x (Src.id x) _ (by unfold stateSize; rw [if_pos hnr]; omega)]
    unfold poseValue
    rw [if_neg (by omega), if_pos (by omega)]
    congr 1
    omega
  have e0 := h 0 (by norm_num)
  rw [Nat.add_zero] at e0
  unfold quatAt
  rw [e0, h 1 (by norm_num), h 2 (by norm_num), h 3 (by norm_num)]
  simp [vecBuf, Quat.toVector]

/-- Predicting by 0 changes nothing, for every order. -/
theorem C43_zero (np nr : ℕ) (x : ℕ → ℝ) (j : ℕ) (hj : j < stateSize np nr) : poseTimeUpdate 0 np nr id x j = x j := by
  have ht : ∀ n j, 0 < n → taylor 0 3 n x j = x j := by
    intro n j hn
    unfold taylor
    rw [Finset.sum_eq_single 0]
    · simp
    · intro m _ hm
      simp [zero_pow hm]
    · intro h
      simp at h
      omega
  rw [poseTimeUpdate_eq 0 np nr id x x (Src.id x) j hj]
  have hn := hj
  unfold stateSize at hn
  unfold poseValue
  by_cases h1 : j < 3 * np
  · rw [if_pos h1, ht _ _ (by omega)]
  · have h0 : 0 < nr := by
      by_contra h0
      rw [if_neg h0] at hn
      omega
    rw [if_pos h0] at hn
    rw [if_neg h1]
    by_cases h2 : j < 3 * np + 4
    · rw [if_pos h2]
      have hq : ∀ n, turned 0 n x (3 * np) = quatAt x (3 * np) := by
        intro n
        induction n with
        | zero => rfl
        | succ n ih =>
          unfold turned at ih ⊢
          rw [List.range_succ, List.foldl_append, ih]
          simp only [List.foldl_cons, List.foldl_nil, integrate]
          simp only [ne_eq, Nat.add_eq_zero_iff, one_ne_zero, and_false, not_false_eq_true, zero_pow, mul_zero]
          rw [fromLogarithm_zero]
          simp [Quat.mul]
      rw [hq]
      have hk : j - 3 * np < 4 := by omega
      unfold vecBuf
      rw [dif_pos hk]
      generalize hm : j - 3 * np = m at hk ⊢
      have hjm : j = 3 * np + m := by omega
      subst hjm
      interval_cases m <;> simp [Quat.toVector, quatAt]
    · rw [if_neg h2, ht _ _ (by omega)]

/-- Predicting back undoes the prediction of position, angular velocity and their derivatives. -/
theorem C43_inverse (dt : ℝ) (np nr : ℕ) (x : ℕ → ℝ) (j : ℕ) (hj : j < stateSize np nr)
    (hpart : j < 3 * np ∨ 3 * np + 4 ≤ j) :
    poseTimeUpdate (-dt) np nr id (poseTimeUpdate dt np nr id x) j = x j := by
  rw [C43_flow dt (-dt) np nr x j hj hpart, add_neg_cancel, C43_zero np nr x j hj]

example : (5 : ℕ) < stateSize 2 2 ∧ (5 < 3 * 2 ∨ 3 * 2 + 4 ≤ 5) ∧ 11 < stateSize 2 2 ∧ 3 * 2 + 4 ≤ 11 := by decide

/-! ## Orientation -/

theorem norm_pure (v : Vec ℝ 3) : ‖(pure v : Quaternion ℝ)‖ = Quat.norm3 v := by
  have h : ‖(pure v : Quaternion ℝ)‖ ^ 2 = Quat.norm3 v ^ 2 := by
    rw [Quat.norm3_sq, pow_two, ← Quaternion.normSq_eq_norm_mul_self, Quaternion.normSq_def']
    simp
  rwa [sq_eq_sq₀ (norm_nonneg _) (Quat.norm3_nonneg _)] at h

theorem smul_pure (t : ℝ) (v : Vec ℝ 3) : t • (pure v : Quaternion ℝ) = pure fun i => t * v i := by
  ext <;> simp

theorem norm3_smul (t : ℝ) (v : Vec ℝ 3) : Quat.norm3 (fun i => t * v i) = |t| * Quat.norm3 v := by
  rw [← norm_pure, ← smul_pure, norm_smul, norm_pure, Real.norm_eq_abs]

theorem toH_mul (p q : Quat ℝ) : toH (p.mul q) = toH p * toH q := by
  ext <;> simp [Quat.mul]

theorem toH_integrate (v : Vec ℝ 3) (t : ℝ) (h : t • (pure v : Quaternion ℝ) = 0 ∨ 1e-12 < ‖t • (pure v : Quaternion ℝ)‖) :
    toH (integrate v t) = NormedSpace.exp ((t / 2) • pure v) := by
  have e2 : (t / 2) • (pure v : Quaternion ℝ) = (1 / 2 : ℝ) • t • pure v := by rw [smul_smul]; congr 1; ring
  have ec : (fun i => v i * t) = fun i => t * v i := by funext i; ring
  unfold integrate
  rw [ec]
  rcases h with h | h
  · rw [e2, h, smul_zero, NormedSpace.exp_zero]
    rw [smul_pure] at h
    have : (fun i => t * v i) = fun _ : Fin 3 => (0 : ℝ) := by
      funext i
      have h0 := congrArg (·.imI) h
      have h1 := congrArg (·.imJ) h
      have h2 := congrArg (·.imK) h
      simp only [pure_imI, pure_imJ, pure_imK] at h0 h1 h2
      fin_cases i <;> assumption
    rw [this, fromLogarithm_zero]
    rfl
  · rw [smul_pure, norm_pure] at h
    unfold Quat.fromLogarithm
    rw [if_pos h, e2, smul_pure]
    set u : Vec ℝ 3 := fun i => t * v i
    have hpos : 0 < Quat.norm3 u := lt_trans (by norm_num) h
    have hn : ‖(1 / 2 : ℝ) • (pure u : Quaternion ℝ)‖ = Quat.norm3 u / 2 := by
      rw [norm_smul, norm_pure, Real.norm_eq_abs, abs_of_pos (by norm_num : (0 : ℝ) < 1 / 2)]
      ring
    rw [Quaternion.exp_of_re_eq_zero _ (by simp), hn]
    ext <;> simp <;> field_simp

/-- With one angular derivative, the new orientation is the old one turned with the constant angular velocity. The code treats
rotations of less than 1e-12 rad as none; this is the second condition. -/
theorem C53_orientation (dt : ℝ) (np : ℕ) (x : ℕ → ℝ)
    (h : dt • (pure (vecAt x (3 * np + 4)) : Quaternion ℝ) = 0 ∨ 1e-12 < ‖dt • (pure (vecAt x (3 * np + 4)) : Quaternion ℝ)‖) :
    toH (quatAt (poseTimeUpdate dt np 2 id x) (3 * np)) = turnedBy (quatAt x (3 * np)) (vecAt x (3 * np + 4)) dt := by
  rw [quatAt_poseTimeUpdate dt np 2 (by norm_num)]
  have : turned dt (2 - 1) x (3 * np) = (quatAt x (3 * np)).mul (integrate (vecAt x (3 * np + 4)) dt) := by
    simp [turned]
  rw [this, toH_mul, toH_integrate _ _ h]
  rfl

theorem vecAt_angular (dt : ℝ) (np : ℕ) (x : ℕ → ℝ) :
    vecAt (poseTimeUpdate dt np 2 id x) (3 * np + 4) = vecAt x (3 * np + 4) := by
  funext k
  unfold vecAt
  have hk := k.isLt
  rw [poseTimeUpdate_eq dt np 2 id x x (Src.id x) _ (by unfold stateSize; rw [if_pos (by omega)]; omega)]
  unfold poseValue
  rw [if_neg (by omega), if_neg (by omega)]
  have : 2 - 1 - (3 * np + 4 + k.val - (3 * np + 4)) / 3 = 1 := by omega
  rw [this]
  simp [taylor]

/-- Predicting the orientation by `dt1` and then by `dt2` is predicting by `dt1 + dt2`, if there is no angular acceleration and no
turn of less than 1e-12 rad other than zero. -/
theorem C43_orientation_partial (dt1 dt2 : ℝ) (np : ℕ) (x : ℕ → ℝ)
    (h : ∀ dt ∈ [dt1, dt2, dt1 + dt2], dt • (pure (vecAt x (3 * np + 4)) : Quaternion ℝ) = 0 ∨ 1e-12 < ‖dt • (pure (vecAt x (3 * np + 4)) : Quaternion ℝ)‖) :
    quatAt (poseTimeUpdate dt2 np 2 id (poseTimeUpdate dt1 np 2 id x)) (3 * np)
      = quatAt (poseTimeUpdate (dt1 + dt2) np 2 id x) (3 * np) := by
  have hinj : ∀ p q : Quat ℝ, toH p = toH q → p = q := by
    intro p q h
    have h0 := congrArg (·.re) h
    have h1 := congrArg (·.imI) h
    have h2 := congrArg (·.imJ) h
    have h3 := congrArg (·.imK) h
    simp only [toH_re, toH_imI, toH_imJ, toH_imK] at h0 h1 h2 h3
    cases p
    cases q
    simp_all
  apply hinj
  rw [C53_orientation dt2 np _ (by rw [vecAt_angular]; exact h dt2 (by simp)), vecAt_angular,
    C53_orientation (dt1 + dt2) np _ (h _ (by simp))]
  unfold turnedBy
  rw [C53_orientation dt1 np _ (h dt1 (by simp))]
  unfold turnedBy
  have hexp : ∀ a b : Quaternion ℝ, Commute a b → NormedSpace.exp (a + b) = NormedSpace.exp a * NormedSpace.exp b := by
    intro a b hab
    exact NormedSpace.exp_add_of_commute_of_mem_ball (𝕂 := ℝ) hab
      ((NormedSpace.expSeries_radius_eq_top ℝ (Quaternion ℝ)).symm ▸ edist_lt_top _ _)
      ((NormedSpace.expSeries_radius_eq_top ℝ (Quaternion ℝ)).symm ▸ edist_lt_top _ _)
  rw [mul_assoc, ← hexp, ← add_smul]
  · congr 3
    ring
  · exact Commute.smul_left (Commute.smul_right (Commute.refl _) _) _

example : ∀ dt ∈ [(1 : ℝ), 2, 1 + 2],
    dt • (pure (vecAt (fun i => if i = 4 then 1 else 0) (3 * 0 + 4)) : Quaternion ℝ) = 0
      ∨ 1e-12 < ‖dt • (pure (vecAt (fun i => if i = 4 then 1 else 0) (3 * 0 + 4)) : Quaternion ℝ)‖ := by
  intro dt hdt
  right
  rw [norm_smul, norm_pure]
  have : Quat.norm3 (vecAt (fun i => if i = 4 then 1 else 0) (3 * 0 + 4)) = 1 := by simp [Quat.norm3, vecAt]
  rw [this]
  simp only [List.mem_cons, List.not_mem_nil, or_false] at hdt
  rcases hdt with rfl | rfl | rfl <;> norm_num

/-- With an angular acceleration the prediction of the orientation is not a flow: the acceleration enters with `dt^2` instead of
`dt^2 / 2`. Two steps of a second with an angular acceleration of pi rad/s^2 about z from rest give three half turns, one step of
two seconds gives four. -/
theorem C43_orientation_acceleration_refuted :
    ∃ x : ℕ → ℝ, quatAt (poseTimeUpdate 1 0 3 id (poseTimeUpdate 1 0 3 id x)) 0 ≠ quatAt (poseTimeUpdate (1 + 1) 0 3 id x) 0 := by
  refine ⟨fun i => if i = 3 then 1 else if i = 9 then Real.pi else 0, ?_⟩
  have hq := fun dt x => quatAt_poseTimeUpdate dt 0 3 (by norm_num) x
  simp only [Nat.mul_zero] at hq
  rw [hq, hq]
  set x : ℕ → ℝ := fun i => if i = 3 then 1 else if i = 9 then Real.pi else 0 with hx
  have hturn : ∀ dt x, turned dt (3 - 1) x 0 = ((quatAt x 0).mul (integrate (vecAt x 4) dt)).mul (integrate (vecAt x 7) (dt ^ 2)) := by
    intro dt x
    simp [turned, List.range_succ]
  rw [hturn, hturn, hq, hturn]
  have hpi : (3 : ℝ) < Real.pi := Real.pi_gt_three
  have hint : ∀ t : ℝ, 1 ≤ t → integrate ![0, 0, Real.pi] t = ⟨0, 0, Real.sin (t * Real.pi / 2), Real.cos (t * Real.pi / 2)⟩ := by
    intro t ht
    have hp : 0 < Real.pi * t := by positivity
    have hn : Quat.norm3 (fun i => ![0, 0, Real.pi] i * t) = Real.pi * t := by
      simp only [Quat.norm3, Matrix.cons_val]
      rw [zero_mul, zero_mul, zero_add, zero_add, Real.sqrt_mul_self hp.le]
    unfold integrate Quat.fromLogarithm
    rw [hn, if_pos (by nlinarith)]
    simp only [Matrix.cons_val]
    have e : Real.pi * t / 2 = t * Real.pi / 2 := by ring
    rw [e]
    congr 1
    · ring
    · ring
    · field_simp
  have hint0 : ∀ t : ℝ, integrate ![0, 0, 0] t = ⟨0, 0, 0, 1⟩ := by
    intro t
    unfold integrate
    rw [show (fun i => (![0, 0, 0] : Vec ℝ 3) i * t) = fun _ => 0 from by funext i; fin_cases i <;> simp]
    exact fromLogarithm_zero
  have hw : vecAt x 4 = ![0, 0, 0] := by funext k; fin_cases k <;> simp [vecAt, hx]
  have ha : vecAt x 7 = ![0, 0, Real.pi] := by funext k; fin_cases k <;> simp [vecAt, hx]
  have hq0 : quatAt x 0 = ⟨0, 0, 0, 1⟩ := by simp [quatAt, hx]
  have hw' : vecAt (poseTimeUpdate 1 0 3 id x) 4 = ![0, 0, Real.pi] := by
    funext k
    unfold vecAt
    have hk := k.isLt
    rw [poseTimeUpdate_eq 1 0 3 id x x (Src.id x) _ (by unfold stateSize; rw [if_pos (by omega)]; omega)]
    unfold poseValue
    rw [if_neg (by omega), if_neg (by omega)]
    have : 3 - 1 - (4 + k.val - (3 * 0 + 4)) / 3 = 2 := by omega
    rw [this]
    fin_cases k <;> simp [taylor, hx, Finset.sum_range_succ]
  have ha' : vecAt (poseTimeUpdate 1 0 3 id x) 7 = ![0, 0, Real.pi] := by
    funext k
    unfold vecAt
    have hk := k.isLt
    rw [poseTimeUpdate_eq 1 0 3 id x x (Src.id x) _ (by unfold stateSize; rw [if_pos (by omega)]; omega)]
    unfold poseValue
    rw [if_neg (by omega), if_neg (by omega)]
    have : 3 - 1 - (7 + k.val - (3 * 0 + 4)) / 3 = 1 := by omega
    rw [this]
    fin_cases k <;> simp [taylor, hx]
  rw [hw, ha, hw', ha', hq0, hint0, hint0, hint 1 le_rfl, hint (1 ^ 2) (by norm_num), hint ((1 + 1) ^ 2) (by norm_num)]
  have e1 : (1 : ℝ) ^ 2 * Real.pi / 2 = Real.pi / 2 := by ring
  have e2 : (1 : ℝ) * Real.pi / 2 = Real.pi / 2 := by ring
  have e3 : ((1 : ℝ) + 1) ^ 2 * Real.pi / 2 = 2 * Real.pi := by ring
  rw [e1, e2, e3, Real.sin_two_pi, Real.cos_two_pi, Real.sin_pi_div_two, Real.cos_pi_div_two]
  simp [Quat.mul]

/-- The orientation stays a unit quaternion, for every order. -/
theorem C53_unit (dt : ℝ) (np nr : ℕ) (hnr : 0 < nr) (x : ℕ → ℝ) (hq : UnitQ (quatAt x (3 * np))) :
    UnitQ (quatAt (poseTimeUpdate dt np nr id x) (3 * np)) := by
  rw [quatAt_poseTimeUpdate dt np nr hnr]
  have hmul : ∀ p q : Quat ℝ, UnitQ p → UnitQ q → UnitQ (p.mul q) := by
    intro p q hp hq
    unfold UnitQ at *
    simp only [Quat.mul]
    have : (1 : ℝ) = 1 * 1 := by norm_num
    rw [this]
    nth_rewrite 1 [← hp]
    rw [← hq]
    ring
  generalize nr - 1 = n
  induction n with
  | zero => exact hq
  | succ n ih =>
    unfold turned at ih ⊢
    rw [List.range_succ, List.foldl_append]
    exact hmul _ _ ih (C05_exp_unit _)

/-! ## Jacobians -/

theorem taylor_eq_sum (dt : ℝ) (n terms j : ℕ) (x : ℕ → ℝ) (h : terms = 0 ∨ j + 3 * (terms - 1) < n) :
    taylor dt 3 terms x j = ∑ c : Fin n, taylorJac dt terms j c * x c := by
  rw [Finset.sum_range (n := n) (f := fun c => taylorJac dt terms j c * x c) |>.symm]
  unfold taylor
  refine Finset.sum_of_injOn (fun m => j + 3 * m) ?_ ?_ ?_ ?_
  · intro a _ b _ hab
    simp only at hab
    omega
  · intro m hm
    simp only [Finset.coe_range, Set.mem_Iio] at hm ⊢
    omega
  · intro c hc hnot
    have : taylorJac dt terms j c = 0 := by
      unfold taylorJac
      rw [if_neg]
      rintro ⟨h1, h2, h3⟩
      apply hnot
      refine ⟨(c - j) / 3, ?_, ?_⟩
      · simpa using h3
      · simp only
        omega
    rw [this, zero_mul]
  · intro m hm
    have hm' : m < terms := by simpa using hm
    have e : (j + 3 * m - j) / 3 = m := by omega
    simp only [taylorJac]
    rw [if_pos (by omega), e]

/-- The rows of the model that do not belong to the orientation are linear in the state. -/
theorem row_linear (dt : ℝ) (np nr : ℕ) (x y : ℕ → ℝ) (J0 : ℕ → ℕ → ℝ) (j : ℕ) (hj : j < stateSize np nr)
    (hpart : (j < 3 * np ∨ 3 * np + 4 ≤ j) ∨ nr = 1) :
    poseTimeUpdate dt np nr id x j = ∑ c : Fin (stateSize np nr), poseTimeUpdateJac dt np nr y J0 j c * x c := by
  rw [poseTimeUpdate_eq dt np nr id x x (Src.id x) j hj]
  have hJ : ∀ c : Fin (stateSize np nr), poseTimeUpdateJac dt np nr y J0 j c = poseJac dt np nr y j c :=
    fun c => poseTimeUpdateJac_eq dt np nr y J0 j c hj c.isLt
  simp only [hJ]
  have hn := hj
  unfold stateSize at hn
  by_cases h1 : j < 3 * np
  · unfold poseValue
    rw [if_pos h1, taylor_eq_sum dt (stateSize np nr) _ _ _ (by unfold stateSize; omega)]
    refine Finset.sum_congr rfl fun c _ => ?_
    unfold poseJac
    rw [if_pos h1]
    by_cases hc : c.val < 3 * np
    · rw [if_pos hc]
    · rw [if_neg hc]
      unfold taylorJac
      rw [if_neg (by omega)]
  · have h0 : 0 < nr := by
      by_contra h0
      rw [if_neg h0] at hn
      omega
    rw [if_pos h0] at hn
    by_cases h2 : j < 3 * np + 4
    · have hnr : nr = 1 := by omega
      subst hnr
      unfold poseValue
      rw [if_neg h1, if_pos h2]
      have hv : vecBuf (turned dt (1 - 1) x (3 * np)).toVector (j - 3 * np) = x j := by
        have hk : j - 3 * np < 4 := by omega
        unfold vecBuf
        rw [dif_pos hk]
        generalize hm : j - 3 * np = m at hk ⊢
        have hjm : j = 3 * np + m := by omega
        subst hjm
        interval_cases m <;> simp [Quat.toVector, quatAt, turned]
      rw [hv]
      rw [Finset.sum_eq_single ⟨j, hj⟩]
      · simp only [poseJac, quatJac]
        rw [if_neg h1, if_pos h2, if_neg h1, if_pos h2]
        simp
      · intro c _ hc
        have hne : j ≠ c.val := fun h => hc (Fin.ext h.symm)
        have hcl : c.val < 3 * np + 4 := by
          have h9 : stateSize np 1 = 3 * np + 4 := rfl
          have := c.isLt
          omega
        simp only [poseJac, quatJac]
        rw [if_neg h1, if_pos h2]
        split_ifs <;> simp_all
      · intro h
        exact absurd (Finset.mem_univ _) h
    · unfold poseValue
      rw [if_neg h1, if_neg h2, taylor_eq_sum dt (stateSize np nr) _ _ _ (by unfold stateSize; rw [if_pos h0]; omega)]
      refine Finset.sum_congr rfl fun c _ => ?_
      unfold poseJac
      rw [if_neg h1, if_neg h2]

theorem isJacobian_linear {m n : ℕ} {f : Vec ℝ n → Vec ℝ m} {J : Mat ℝ m n} (x : Vec ℝ n) (h : ∀ y, f y = J.mulVec y) : IsJacobian f x J := by
  have e : f = fun y => LinearMap.toContinuousLinearMap (Matrix.mulVecLin J) y := funext h
  unfold IsJacobian
  rw [e]
  exact ContinuousLinearMap.hasFDerivAt _

theorem vecBuf_apply {n : ℕ} (x : Vec ℝ n) (c : Fin n) : vecBuf x c = x c := by
  unfold vecBuf
  rw [dif_pos c.isLt]

/-- For the rows of the position, the angular velocity and their derivatives, the Jacobian returned by the time update is the
derivative of the result, for every order and at every state. -/
theorem C43_jacobian (dt : ℝ) (np nr : ℕ) (x : Vec ℝ (stateSize np nr)) (j : Fin (stateSize np nr))
    (hpart : j.val < 3 * np ∨ 3 * np + 4 ≤ j.val) :
    IsJacobian (fun y _ => (poseFunctor false dt np nr y).1 j) x (Matrix.of fun (_ : Fin 1) c => (poseFunctor false dt np nr x).2 j c) := by
  refine isJacobian_linear x fun y => ?_
  funext _
  have h := row_linear dt np nr (vecBuf y) (vecBuf x) (fun _ _ => 0) j j.isLt (Or.inl hpart)
  simp only [vecBuf_apply] at h
  exact h

/-- Without angular derivatives the whole Jacobian is exact. -/
theorem C53_jacobian_order0 (dt : ℝ) (np nr : ℕ) (hnr : nr ≤ 1) (x : Vec ℝ (stateSize np nr)) :
    IsJacobian (fun y => (poseFunctor false dt np nr y).1) x (poseFunctor false dt np nr x).2 := by
  refine isJacobian_linear x fun y => ?_
  funext j
  have hj := j.isLt
  have hs : nr = 0 → stateSize np nr = 3 * np := by rintro rfl; rfl
  have h := row_linear dt np nr (vecBuf y) (vecBuf x) (fun _ _ => 0) j hj (by
    by_cases h0 : 0 < nr
    · right
      omega
    · have := hs (by omega)
      left
      left
      omega)
  simp only [vecBuf_apply] at h
  exact h

/-- Whatever the Jacobian matrix contains beforehand is overwritten. -/
theorem C53_jacobian_complete (dt : ℝ) (np nr : ℕ) (x : ℕ → ℝ) (J J' : ℕ → ℕ → ℝ) (r c : ℕ) (hr : r < stateSize np nr)
    (hc : c < stateSize np nr) : poseTimeUpdateJac dt np nr x J r c = poseTimeUpdateJac dt np nr x J' r c := by
  rw [poseTimeUpdateJac_eq dt np nr x J r c hr hc, poseTimeUpdateJac_eq dt np nr x J' r c hr hc]

/-- The directional derivative of the orientation for an angular velocity along `v`, according to the returned Jacobian. -/
noncomputable def claimedTurn (dt : ℝ) (np nr : ℕ) (x : ℕ → ℝ) (v : Vec ℝ 3) : Quaternion ℝ :=
  let D := fun a : ℕ => ∑ c : Fin 3, poseTimeUpdateJac dt np nr x (fun _ _ => 0) (3 * np + a) (3 * np + 4 + c) * v c
  ⟨D 3, D 0, D 1, D 2⟩

theorem claimedTurn_eq (dt : ℝ) (np nr : ℕ) (hnr : 2 ≤ nr) (x : ℕ → ℝ) (v : Vec ℝ 3) :
    claimedTurn dt np nr x v = (dt ^ 2 / 2) • (toH (quatAt x (3 * np)) * pure v) := by
  have hJ : ∀ a c, a < 4 → c < 3 → poseTimeUpdateJac dt np nr x (fun _ _ => 0) (3 * np + a) (3 * np + 4 + c)
      = matBuf (quatBlock (dt ^ 2) (quatAt x (3 * np))) a c := by
    intro a c ha hc
    rw [poseTimeUpdateJac_eq _ _ _ _ _ _ _ (by unfold stateSize; rw [if_pos (by omega)]; omega)
      (by unfold stateSize; rw [if_pos (by omega)]; omega)]
    unfold poseJac
    rw [if_neg (by omega), if_pos (by omega)]
    unfold quatJac
    rw [if_neg (by omega), if_neg (by omega)]
    have e1 : (3 * np + 4 + c - (3 * np + 4)) / 3 = 0 := by omega
    have e2 : (3 * np + 4 + c - (3 * np + 4)) % 3 = c := by omega
    have e3 : 3 * np + a - 3 * np = a := by omega
    rw [e1, e2, e3]
  have hD : ∀ a, a < 4 → (∑ c : Fin 3, poseTimeUpdateJac dt np nr x (fun _ _ => 0) (3 * np + a) (3 * np + 4 + c) * v c)
      = ∑ c : Fin 3, matBuf (quatBlock (dt ^ 2) (quatAt x (3 * np))) a c * v c := by
    intro a ha
    exact Finset.sum_congr rfl fun c _ => by rw [hJ a c ha c.isLt]
  unfold claimedTurn
  simp only
  rw [hD 0 (by norm_num), hD 1 (by norm_num), hD 2 (by norm_num), hD 3 (by norm_num)]
  ext <;> simp [matBuf, quatBlock, Fin.sum_univ_three] <;> ring

/-- The derivative of the turned orientation with respect to the angular velocity, at zero angular velocity. -/
theorem hasDerivAt_turnedBy (q : Quat ℝ) (v : Vec ℝ 3) (dt : ℝ) :
    HasDerivAt (fun s : ℝ => turnedBy q (fun i => s * v i) dt) ((dt / 2) • (toH q * pure v)) 0 := by
  have h := (hasDerivAt_exp_smul_const (𝕂 := ℝ) ((dt / 2) • (pure v : Quaternion ℝ)) (0 : ℝ)).const_mul (toH q)
  have e : (fun s : ℝ => turnedBy q (fun i => s * v i) dt) = fun s : ℝ => toH q * NormedSpace.exp (s • (dt / 2) • (pure v : Quaternion ℝ)) := by
    funext s
    unfold turnedBy
    rw [← smul_pure, smul_comm]
  rw [e]
  refine h.congr_deriv ?_
  rw [zero_smul, NormedSpace.exp_zero, one_mul, mul_smul_comm]

/-- The orientation block of the Jacobian at zero angular velocity is `dt` times the derivative of the turned orientation; it is
the derivative for `dt = 1`. Missing: other time differences (refuted below) and other angular velocities. -/
theorem C53_jacobian_orientation_partial (dt : ℝ) (np nr : ℕ) (hnr : 2 ≤ nr) (x : ℕ → ℝ) (v : Vec ℝ 3) :
    ∃ D, HasDerivAt (fun s : ℝ => turnedBy (quatAt x (3 * np)) (fun i => s * v i) dt) D 0 ∧ claimedTurn dt np nr x v = dt • D := by
  refine ⟨_, hasDerivAt_turnedBy _ v dt, ?_⟩
  rw [claimedTurn_eq dt np nr hnr, smul_smul]
  congr 1
  ring

/-- For a time difference of 1/100 s the block is 100 times too small. -/
theorem C53_jacobian_orientation_refuted :
    ∃ (x : ℕ → ℝ) (v : Vec ℝ 3), UnitQ (quatAt x (3 * 1)) ∧
      ¬ HasDerivAt (fun s : ℝ => turnedBy (quatAt x (3 * 1)) (fun i => s * v i) (1 / 100)) (claimedTurn (1 / 100) 1 2 x v) 0 := by
  refine ⟨fun i => if i = 6 then 1 else 0, ![1, 0, 0], by simp [UnitQ, quatAt], fun h => ?_⟩
  have h2 := h.unique (hasDerivAt_turnedBy _ _ _)
  rw [claimedTurn_eq _ _ _ le_rfl] at h2
  have h3 := congrArg (·.imI) h2
  simp [quatAt] at h3
  norm_num at h3

/-! ## Process noise -/

/-- A position setting changes exactly the entries of its derivative. -/
theorem C44_position (np order : ℕ) (h : order < np) (pn : ℕ → ℝ) (value : ℝ) (i : ℕ) :
    setPosPN pn order value i = if partOf np i = .position order then value ^ 2 else pn i := by
  unfold setPosPN partOf
  split_ifs with h1 h2 h3 h4 h5 h6 h7 <;> (try simp only [Part.position.injEq, Part.orientation.injEq, reduceCtorEq] at *) <;>
    first | (exfalso; omega) | ring

/-- An orientation setting changes exactly the entries of its derivative. -/
theorem C44_orientation (np order : ℕ) (pn : ℕ → ℝ) (value : ℝ) (i : ℕ) :
    setOriPN np pn order value i = if partOf np i = .orientation order then value ^ 2 else pn i := by
  unfold setOriPN partOf
  split_ifs with h1 h2 h3 h4 h5 h6 h7 h8 <;> (try simp only [Part.position.injEq, Part.orientation.injEq, reduceCtorEq] at *) <;>
    first | (exfalso; omega) | ring

/-- Every entry of the state belongs to a part the settings can address, and all entries of such a part are in the state. -/
theorem C44_cover (np nr i : ℕ) :
    i < stateSize np nr ↔ (∃ o < np, partOf np i = .position o) ∨ (∃ o < nr, partOf np i = .orientation o) := by
  unfold stateSize partOf
  by_cases h1 : i < 3 * np
  · simp only [h1, ↓reduceIte, Part.position.injEq, reduceCtorEq, and_false, exists_false, or_false]
    refine ⟨fun _ => ⟨i / 3, by omega, rfl⟩, fun _ => by omega⟩
  · by_cases h2 : i < 3 * np + 4
    · simp only [h1, h2, ↓reduceIte, Part.orientation.injEq, reduceCtorEq, and_false, exists_false, false_or]
      constructor
      · intro h
        refine ⟨0, ?_, rfl⟩
        by_contra hn
        rw [if_neg hn] at h
        omega
      · rintro ⟨o, ho, _⟩
        rw [if_pos (by omega)]
        omega
    · simp only [h1, h2, ↓reduceIte, Part.orientation.injEq, reduceCtorEq, and_false, exists_false, false_or]
      constructor
      · intro h
        refine ⟨_, ?_, rfl⟩
        by_cases hn : 0 < nr
        · rw [if_pos hn] at h
          omega
        · rw [if_neg hn] at h
          omega
      · rintro ⟨o, ho, rfl⟩
        rw [if_pos (by omega)]
        omega

/-- The number of entries of the parts: 3 for each vector, 4 for the quaternion. -/
theorem C44_sizes (np i : ℕ) (o : ℕ) :
    (o < np → (partOf np i = .position o ↔ i ∈ Finset.Ico (3 * o) (3 * o + 3))) ∧
    (partOf np i = .orientation 0 ↔ i ∈ Finset.Ico (3 * np) (3 * np + 4)) ∧
    (partOf np i = .orientation (o + 1) ↔ i ∈ Finset.Ico (3 * np + 4 + 3 * o) (3 * np + 4 + 3 * o + 3)) := by
  unfold partOf
  simp only [Finset.mem_Ico]
  refine ⟨fun h => ?_, ?_, ?_⟩ <;> split_ifs <;> simp <;> omega

/-- Settings are independent: after any sequence of settings each entry has the value of the last setting of its part, and its
old value if there was none. -/
theorem C44_history (np : ℕ) (sets : List (Part × ℝ)) (hs : ∀ s ∈ sets, ∀ o, s.1 = .position o → o < np) (pn : ℕ → ℝ) (i : ℕ) :
    (sets.foldl (fun pn s => match s.1 with
        | .position o => setPosPN pn o s.2
        | .orientation o => setOriPN np pn o s.2) pn) i
      = match (sets.filter fun s => s.1 = partOf np i).getLast? with
        | some s => s.2 ^ 2
        | none => pn i := by
  induction sets using List.reverseRecOn with
  | nil => rfl
  | append_singleton l s ih =>
    have ih := ih (fun s hs' => hs s (by simp [hs']))
    rw [List.foldl_append]
    simp only [List.foldl_cons, List.foldl_nil]
    have hstep : ∀ pn' : ℕ → ℝ, (match s.1 with
        | .position o => setPosPN pn' o s.2
        | .orientation o => setOriPN np pn' o s.2) i = if s.1 = partOf np i then s.2 ^ 2 else pn' i := by
      intro pn'
      have h2 := hs s (by simp)
      rcases hs1 : s.1 with o | o
      · simp only
        rw [C44_position np o (h2 o hs1)]
        simp only [eq_comm]
      · simp only
        rw [C44_orientation]
        simp only [eq_comm]
    rw [hstep, ih, List.filter_append]
    by_cases h : s.1 = partOf np i
    · simp [h]
    · simp [h]

/-- Noise is added to the variances only, grows with the elapsed time in either direction, and keeps a covariance a
covariance. -/
theorem C44_noise {n : ℕ} (pn : ℕ → ℝ) (hpn : ∀ i < n, 0 ≤ pn i) (cov : Mat ℝ n n) (hcov : cov.PosSemidef) (dt dt' : ℝ) :
    (addNoise pn cov dt).PosSemidef ∧ (∀ i j, i ≠ j → addNoise pn cov dt i j = cov i j) ∧
    (∀ i, addNoise pn cov dt i i = cov i i + |dt| * pn i) ∧
    addNoise pn (addNoise pn cov dt) dt' = addNoise pn cov (|dt| + |dt'|) := by
  refine ⟨?_, ?_, ?_, ?_⟩
  · have e : addNoise pn cov dt = cov + Matrix.diagonal fun i : Fin n => |dt| * pn i := by
      ext i j
      by_cases h : i = j
      · subst h
        simp [addNoise]
      · simp [addNoise, h]
    rw [e]
    refine hcov.add (Matrix.PosSemidef.diagonal fun i => ?_)
    exact mul_nonneg (abs_nonneg _) (hpn i i.isLt)
  · intro i j h
    simp [addNoise, h]
  · intro i
    simp [addNoise]
  · ext i j
    by_cases h : i = j
    · subst h
      have : |(|dt| + |dt'|)| = |dt| + |dt'| := abs_of_nonneg (by positivity)
      simp [addNoise, this]
      ring
    · simp [addNoise, h]

example : partOf 2 7 = .orientation 0 ∧ partOf 2 10 = .orientation 1 ∧ (1 : Mat ℝ 13 13).PosSemidef :=
  ⟨by decide, by decide, Matrix.PosSemidef.one⟩

/-! ## Inside-out motion -/

theorem insideOut_eq (dt : ℝ) (np : ℕ) (hnp : np = 1 ∨ np = 2) (rd : (ℕ → ℝ) → ℕ → ℝ) (x b0 : ℕ → ℝ) (hrd : Src rd x b0) :
    let r := RotationFunction.rotationVelocityIntegration dt
      (RotationFunction.quaternionVectorRotation (quatAt x (3 * np)).toVector (vecAt x (3 * np + 4)))
    vecAt (insideOutTimeUpdate dt np rd b0) 0
        = (fun k => RotationFunction.quaternionVectorRotation r (vecAt x 0) k + if np = 2 then dt * vecAt x 3 k else 0) ∧
      (np = 2 → vecAt (insideOutTimeUpdate dt np rd b0) 3 = RotationFunction.quaternionVectorRotation r (vecAt x 3)) ∧
      quatAt (insideOutTimeUpdate dt np rd b0) (3 * np) = (quatAt x (3 * np)).mul (integrate (vecAt x (3 * np + 4)) dt) ∧
      vecAt (insideOutTimeUpdate dt np rd b0) (3 * np + 4) = vecAt x (3 * np + 4) := by
  intro r
  have hx : ∀ i, rd b0 i = x i := fun i => hrd 0 b0 (fun _ _ => rfl) i (Nat.zero_le _)
  have hx' : rd b0 = x := funext hx
  set p' : Vec ℝ 3 := fun k => RotationFunction.quaternionVectorRotation r (vecAt x 0) k + if np = 2 then dt * vecAt x 3 k else 0 with hp'
  set v' : Vec ℝ 3 := RotationFunction.quaternionVectorRotation r (vecAt x 3) with hv'
  set b1 : ℕ → ℝ := bset b0 0 3 (vecBuf p') with hb1
  set b2 : ℕ → ℝ := if np = 2 then bset b1 3 3 (vecBuf v') else b1 with hb2
  have hb1x : ∀ j, 3 ≤ j → b1 j = b0 j := by
    intro j hj
    rw [hb1]
    unfold bset
    rw [if_neg (by omega)]
  have hb2x : ∀ j, 3 * np ≤ j → b2 j = b0 j := by
    intro j hj
    rw [hb2]
    rcases hnp with rfl | rfl
    · rw [if_neg (by norm_num)]
      exact hb1x j (by omega)
    · rw [if_pos rfl]
      unfold bset
      rw [if_neg (by omega)]
      exact hb1x j (by omega)
  have hr1 : ∀ j, 3 ≤ j → rd b1 j = x j := fun j hj => hrd 3 b1 hb1x j hj
  have e : insideOutTimeUpdate dt np rd b0 = linearTimeUpdate dt 3 0 rd (3 * np + 4) (quaternionTimeUpdate dt 1 rd (3 * np) b2) := by
    unfold insideOutTimeUpdate
    simp only [hx']
    have hp2 : (if np = 2 then fun k => RotationFunction.quaternionVectorRotation r (vecAt x 0) k + dt * vecAt x 3 k
        else RotationFunction.quaternionVectorRotation r (vecAt x 0)) = p' := by
      rw [hp']
      rcases hnp with rfl | rfl <;> simp
    have hv3 : vecAt (rd b1) 3 = vecAt x 3 := by
      funext k
      unfold vecAt
      rw [hr1 _ (by omega)]
    have hb1' : bset b0 0 3 (vecBuf (if np = 2 then fun k => RotationFunction.quaternionVectorRotation r (vecAt x 0) k + dt * vecAt x 3 k
        else RotationFunction.quaternionVectorRotation r (vecAt x 0))) = b1 := by rw [hp2]
    change linearTimeUpdate dt 3 0 rd (3 * np + 4) (quaternionTimeUpdate dt 1 rd (3 * np)
      (if np = 2 then bset (bset b0 0 3 (vecBuf (if np = 2 then fun k => RotationFunction.quaternionVectorRotation r (vecAt x 0) k + dt * vecAt x 3 k
        else RotationFunction.quaternionVectorRotation r (vecAt x 0)))) 3 3 (vecBuf (RotationFunction.quaternionVectorRotation r
        (vecAt (rd (bset b0 0 3 (vecBuf (if np = 2 then fun k => RotationFunction.quaternionVectorRotation r (vecAt x 0) k + dt * vecAt x 3 k
        else RotationFunction.quaternionVectorRotation r (vecAt x 0))))) 3)))
      else bset b0 0 3 (vecBuf (if np = 2 then fun k => RotationFunction.quaternionVectorRotation r (vecAt x 0) k + dt * vecAt x 3 k
        else RotationFunction.quaternionVectorRotation r (vecAt x 0))))) = _
    rw [hb1', hv3]
  have hq := quaternionTimeUpdate_eq dt 1 rd (3 * np) b2 x b0 hrd hb2x
  set b3 := quaternionTimeUpdate dt 1 rd (3 * np) b2 with hb3
  have hb3x : ∀ j, 3 * np + 4 ≤ j → b3 j = b0 j := by
    intro j hj
    rw [hq]
    unfold bset
    rw [if_neg (by omega)]
    exact hb2x j (by omega)
  have hl := linearTimeUpdate_eq dt 3 0 rd (3 * np + 4) b3 x b0 hrd hb3x
  rw [e, hl]
  refine ⟨?_, ?_, ?_, ?_⟩
  · funext k
    have hk := k.isLt
    show (if 3 * np + 4 ≤ 0 + k.val ∧ 0 + k.val < 3 * np + 4 + 3 then taylor dt 3 (0 + 1) x (0 + k.val) else b3 (0 + k.val)) = _
    rw [if_neg (by omega), hq]
    unfold bset
    rw [if_neg (by omega), hb2]
    have : b1 (0 + k.val) = p' k := by
      rw [hb1]
      unfold bset vecBuf
      rw [if_pos (by omega), dif_pos (by omega)]
      congr 1
      exact Fin.ext (by simp)
    rcases hnp with rfl | rfl
    · rw [if_neg (by norm_num), this]
    · rw [if_pos rfl]
      unfold bset
      rw [if_neg (by omega), this]
  · rintro rfl
    funext k
    have hk := k.isLt
    show (if 3 * 2 + 4 ≤ 3 + k.val ∧ 3 + k.val < 3 * 2 + 4 + 3 then taylor dt 3 (0 + 1) x (3 + k.val) else b3 (3 + k.val)) = _
    rw [if_neg (by omega), hq]
    unfold bset
    rw [if_neg (by omega), hb2, if_pos rfl]
    unfold bset vecBuf
    rw [if_pos (by omega), dif_pos (by omega)]
    congr 1
    exact Fin.ext (by simp)
  · have hcomp : ∀ k, k < 4 → (fun j => if 3 * np + 4 ≤ j ∧ j < 3 * np + 4 + 3 then taylor dt 3 (0 + 1) x j else b3 j) (3 * np + k)
        = vecBuf (turned dt 1 x (3 * np)).toVector k := by
      intro k hk
      show ite _ _ _ = _
      rw [if_neg (by omega), hq]
      unfold bset
      rw [if_pos (by omega)]
      congr 1
      omega
    have h0 := hcomp 0 (by norm_num)
    simp only [Nat.add_zero] at h0
    unfold quatAt
    simp only at hcomp ⊢
    rw [h0, hcomp 1 (by norm_num), hcomp 2 (by norm_num), hcomp 3 (by norm_num)]
    simp [vecBuf, Quat.toVector, turned, quatAt]
  · funext k
    have hk := k.isLt
    show ite _ _ _ = _
    rw [if_pos (by omega)]
    simp [taylor, vecAt]

/-- Without rotation the inside-out update moves the position with its velocity and keeps everything else. -/
theorem C53_inside_out_partial (dt : ℝ) (np : ℕ) (hnp : np = 1 ∨ np = 2) (x : ℕ → ℝ) (hw : vecAt x (3 * np + 4) = 0) :
    vecAt (insideOutTimeUpdate dt np id x) 0 = (fun k => vecAt x 0 k + if np = 2 then dt * vecAt x 3 k else 0) ∧
    (np = 2 → vecAt (insideOutTimeUpdate dt np id x) 3 = vecAt x 3) ∧
    quatAt (insideOutTimeUpdate dt np id x) (3 * np) = quatAt x (3 * np) ∧
    vecAt (insideOutTimeUpdate dt np id x) (3 * np + 4) = 0 := by
  have h := insideOut_eq dt np hnp id x x (Src.id x)
  have hr : RotationFunction.rotationVelocityIntegration dt
      (RotationFunction.quaternionVectorRotation (quatAt x (3 * np)).toVector (vecAt x (3 * np + 4))) = ![0, 0, 0, 1] := by
    have h0 : RotationFunction.quaternionVectorRotation (quatAt x (3 * np)).toVector (vecAt x (3 * np + 4)) = 0 := by
      rw [hw]
      funext k
      fin_cases k <;> simp [RotationFunction.quaternionVectorRotation]
    rw [h0]
    simp [RotationFunction.rotationVelocityIntegration]
  have hrot : ∀ v : Vec ℝ 3, RotationFunction.quaternionVectorRotation ![0, 0, 0, 1] v = v := by
    intro v
    funext k
    fin_cases k <;> simp [RotationFunction.quaternionVectorRotation] <;> ring
  simp only [hr, hrot] at h
  refine ⟨h.1, h.2.1, ?_, h.2.2.2.trans hw⟩
  rw [h.2.2.1, hw]
  have : integrate 0 dt = ⟨0, 0, 0, 1⟩ := by
    unfold integrate
    simp only [Pi.zero_apply, zero_mul]
    exact fromLogarithm_zero
  rw [this]
  simp [Quat.mul]

theorem mset_in {J B : ℕ → ℕ → ℝ} {r0 a c0 b r c : ℕ} (h : (r0 ≤ r ∧ r < r0 + a) ∧ c0 ≤ c ∧ c < c0 + b) :
    mset J r0 a c0 b B r c = B (r - r0) (c - c0) := if_pos h

theorem mset_out {J B : ℕ → ℕ → ℝ} {r0 a c0 b r c : ℕ} (h : ¬ ((r0 ≤ r ∧ r < r0 + a) ∧ c0 ≤ c ∧ c < c0 + b)) :
    mset J r0 a c0 b B r c = J r c := if_neg h

/-- The Jacobian of the inside-out update is put together from the Jacobians of its parts by the chain rule: rotating the velocity by the orientation,
integrating it, and rotating position and velocity. All other entries are those of the orientation alone, or zero; nothing of the former contents is left.
Missing: that the product is the derivative, since the parts are not (C52_velocity_jacobian_refuted, C53_jacobian_orientation_refuted). -/
theorem C53_inside_out_jacobian_partial (dt : ℝ) (np : ℕ) (hnp : np = 1 ∨ np = 2) (x : ℕ → ℝ) (J0 : ℕ → ℕ → ℝ) :
    let q := (quatAt x (3 * np)).toVector
    let w := vecAt x (3 * np + 4)
    let turned := RotationFunction.quaternionVectorRotation q w
    let r := RotationFunction.rotationVelocityIntegration dt turned
    let byVelocity := fun v => RotationFunction.quaternionVectorRotationJacQ r v * RotationFunction.rotationVelocityIntegrationJacobian dt turned
    let byOrientation := RotationFunction.quaternionVectorRotationJacQ q w
    let J := insideOutTimeUpdateJac dt np x J0
    (∀ m < np, ∀ a c : Fin 3,
      J (3 * m + a) (3 * m + c) = RotationFunction.quaternionVectorRotationJacVec r a c ∧
      J (3 * m + a) (3 * np + 4 + c) = (byVelocity (vecAt x (3 * m)) * RotationFunction.quaternionVectorRotationJacVec q) a c) ∧
    (∀ m < np, ∀ (a : Fin 3) (c : Fin 4), J (3 * m + a) (3 * np + c) = (byVelocity (vecAt x (3 * m)) * byOrientation) a c) ∧
    (np = 2 → ∀ a c : Fin 3, J a (3 + c) = (if a = c then dt else 0) ∧ J (3 + a) c = 0) ∧
    (∀ a c : Fin 4, J (3 * np + a) (3 * np + c) = if a = c then 1 else 0) ∧
    (∀ (a : Fin 4) (c : Fin 3), J (3 * np + a) (3 * np + 4 + c) = quatBlock (dt * dt) (quatAt x (3 * np)) a c) ∧
    (∀ a : Fin 4, ∀ c < 3 * np, J (3 * np + a) c = 0) ∧
    (∀ a c : Fin 3, J (3 * np + 4 + a) (3 * np + 4 + c) = if a = c then 1 else 0) ∧
    (∀ a : Fin 3, ∀ c < 3 * np + 4, J (3 * np + 4 + a) c = 0) := by
  intro q w turned r byVelocity byOrientation J
  have hmat : ∀ {m n : ℕ} (M : Mat ℝ m n) (i : Fin m) (j : Fin n), matBuf M i j = M i j := by
    intro m n M i j
    simp [matBuf]
  have hJ : J = insideOutTimeUpdateJac dt np x J0 := rfl
  clear_value J
  unfold insideOutTimeUpdateJac quaternionTimeUpdateJac linearTimeUpdateJac at hJ
  simp only [List.range_one, List.foldl_cons, List.foldl_nil, List.range_zero, zero_mul, add_zero] at hJ
  have hmat' : ∀ {m n : ℕ} (M : Mat ℝ m n) (i : Fin m) (j : Fin n) (i' j' : ℕ), i' = i → j' = j → matBuf M i' j' = M i j := by
    rintro m n M i j _ _ rfl rfl
    exact hmat M i j
  have heq : ∀ {n : ℕ} (a c : Fin n) (i j : ℕ), i = a → j = c → (if i = j then (1 : ℝ) else 0) = if a = c then 1 else 0 := by
    rintro n a c _ _ rfl rfl
    simp [Fin.ext_iff]
  rcases hnp with rfl | rfl
  · simp only [show ¬ (1 = 2) by norm_num, if_false, mul_one] at hJ ⊢
    subst hJ
    refine ⟨?_, ?_, by simp, ?_, ?_, ?_, ?_, ?_⟩
    · intro m hm a c
      obtain rfl : m = 0 := by omega
      constructor
      all_goals
        repeat rw [mset_out (by omega)]
        rw [mset_in (by omega)]
        exact hmat' _ _ _ _ _ (by omega) (by omega)
    · intro m hm a c
      obtain rfl : m = 0 := by omega
      repeat rw [mset_out (by omega)]
      rw [mset_in (by omega)]
      exact hmat' _ _ _ _ _ (by omega) (by omega)
    · intro a c
      repeat rw [mset_out (by omega)]
      rw [mset_in (by omega)]
      exact heq _ _ _ _ (by omega) (by omega)
    · intro a c
      repeat rw [mset_out (by omega)]
      rw [mset_in (by omega)]
      exact hmat' _ _ _ _ _ (by omega) (by omega)
    · intro a c hc
      repeat rw [mset_out (by omega)]
      rw [mset_in (by omega)]
    · intro a c
      repeat rw [mset_out (by omega)]
      rw [mset_in (by omega)]
      exact heq _ _ _ _ (by omega) (by omega)
    · intro a c hc
      rw [mset_in (by omega)]
  · simp only [if_true] at hJ ⊢
    subst hJ
    refine ⟨?_, ?_, ?_, ?_, ?_, ?_, ?_, ?_⟩
    · intro m hm a c
      obtain rfl | rfl : m = 0 ∨ m = 1 := by omega
      all_goals
        constructor
        all_goals
          repeat rw [mset_out (by omega)]
          rw [mset_in (by omega)]
          exact hmat' _ _ _ _ _ (by omega) (by omega)
    · intro m hm a c
      obtain rfl | rfl : m = 0 ∨ m = 1 := by omega
      all_goals
        repeat rw [mset_out (by omega)]
        rw [mset_in (by omega)]
        exact hmat' _ _ _ _ _ (by omega) (by omega)
    · intro _ a c
      constructor
      · repeat rw [mset_out (by omega)]
        rw [mset_in (by omega), heq a c _ _ (by omega) (by omega), ite_mul, one_mul, zero_mul]
      · repeat rw [mset_out (by omega)]
        rw [mset_in (by omega)]
    · intro a c
      repeat rw [mset_out (by omega)]
      rw [mset_in (by omega)]
      exact heq _ _ _ _ (by omega) (by omega)
    · intro a c
      repeat rw [mset_out (by omega)]
      rw [mset_in (by omega)]
      exact hmat' _ _ _ _ _ (by omega) (by omega)
    · intro a c hc
      repeat rw [mset_out (by omega)]
      rw [mset_in (by omega)]
    · intro a c
      repeat rw [mset_out (by omega)]
      rw [mset_in (by omega)]
      exact heq _ _ _ _ (by omega) (by omega)
    · intro a c hc
      rw [mset_in (by omega)]

/-- The inside-out update is supposed to turn the position: its length has to stay the same if there is no velocity. It does not:
the rotation it is multiplied with is only used as such above 1e12 rad, below it is not a rotation. Turning by half a turn about
the unit position vector gives a position of length pi²/2 - 1. -/
theorem C53_inside_out_refuted :
    ∃ x : ℕ → ℝ, UnitQ (quatAt x 3) ∧ lenSq (vecAt x 0) = 1 ∧ lenSq (vecAt (insideOutTimeUpdate 1 1 id x) 0) ≠ 1 := by
  refine ⟨fun i => if i = 2 then 1 else if i = 6 then 1 else if i = 9 then Real.pi else 0, by simp [UnitQ, quatAt], by simp [lenSq, vecAt], ?_⟩
  rw [(insideOut_eq 1 1 (Or.inl rfl) id _ _ (Src.id _)).1]
  have hw : RotationFunction.quaternionVectorRotation (quatAt (fun i => if i = 2 then 1 else if i = 6 then 1 else if i = 9 then Real.pi else 0) (3 * 1)).toVector
      (vecAt (fun i => if i = 2 then 1 else if i = 6 then 1 else if i = 9 then Real.pi else 0) (3 * 1 + 4)) = ![0, 0, Real.pi] := by
    funext k
    fin_cases k <;> simp [RotationFunction.quaternionVectorRotation, quatAt, vecAt, Quat.toVector]
    norm_num
  rw [hw]
  have hpi := Real.pi_gt_three
  have hpi4 := Real.pi_le_four
  have hr : RotationFunction.rotationVelocityIntegration 1 ![0, 0, Real.pi] = ![0, 0, Real.pi / 2, 0] := by
    unfold RotationFunction.rotationVelocityIntegration
    simp only [Matrix.cons_val, mul_zero, zero_add, zero_mul, mul_one]
    rw [Real.sqrt_mul_self Real.pi_pos.le, if_neg (by rw [abs_of_pos Real.pi_pos]; norm_num; linarith)]
    have : Real.pi * 0.5 = Real.pi / 2 := by norm_num; ring
    rw [this, Real.cos_pi_div_two]
    norm_num
    ring
  rw [hr]
  simp [lenSq, RotationFunction.quaternionVectorRotation, vecAt]
  intro h
  nlinarith [mul_pos Real.pi_pos Real.pi_pos, sq_nonneg Real.pi]

end Ubitrack.Tracking
