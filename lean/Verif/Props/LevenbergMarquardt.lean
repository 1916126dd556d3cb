import Verif.Model.LevenbergMarquardt
import Mathlib.Tactic.Linarith
import Mathlib.Tactic.Positivity
import Mathlib.Tactic.Ring

/-!
# C23: Levenberg-Marquardt
-/

namespace Ubitrack.LM

open scoped Matrix

variable {n m : ℕ}

/-- Specification: the sum of squared differences between measurement and prediction, each weighted. -/
def residual (f : Vec ℝ n → Vec ℝ m) (w : Vec ℝ m → Vec ℝ m) (z : Vec ℝ m) (x : Vec ℝ n) : ℝ :=
  ∑ i, w (z - f x) i * (z i - f x i) ^ 2

/-- The weights in use; all 1 without weight function. -/
def weights (wf : Weight m) : Vec ℝ m → Vec ℝ m :=
  match wf with
  | none => fun _ _ => 1
  | some w => w

/-- The prediction of the measurement. -/
def Call.predict (c : Call n m) (x : Vec ℝ n) : Vec ℝ m := (c.problem x).1

/-- The weighted residual of parameters. -/
def Call.residual (c : Call n m) (x : Vec ℝ n) : ℝ := LM.residual c.predict (weights c.weight) c.measurement x

/-- The weight function yields no negative weights. -/
def Call.NonnegWeights (c : Call n m) : Prop := ∀ d i, 0 ≤ weights c.weight d i

theorem innerSelf_weightedDiff (c : Call n m) (hw : c.NonnegWeights) (x : Vec ℝ n) :
    innerSelf (weightedDiff c.weight (c.measurement - (c.problem x).1)) = c.residual x := by
  unfold innerSelf weightedDiff Call.residual residual Call.predict
  unfold Call.NonnegWeights weights at hw
  unfold weights
  rcases hc : c.weight with _ | w
  · simp only
    refine Finset.sum_congr rfl fun i _ => ?_
    simp; ring
  · rw [hc] at hw
    simp only at hw ⊢
    refine Finset.sum_congr rfl fun i _ => ?_
    have := Real.mul_self_sqrt (hw (c.measurement - (c.problem x).1) i)
    simp only [Pi.sub_apply] at this ⊢
    calc _ = (Real.sqrt (w (c.measurement - (c.problem x).1) i) * Real.sqrt (w (c.measurement - (c.problem x).1) i)) *
          ((c.measurement i - (c.problem x).1 i) ^ 2) := by ring
      _ = _ := by rw [this]

/-- The buffers hold residual, difference and Jacobian of the current parameters. -/
def Sync (c : Call n m) (s : St n m) : Prop :=
  let d := c.measurement - (c.problem s.params).1
  s.errPrev = c.residual s.params ∧ s.diff = weightedDiff c.weight d ∧
    s.jacobian = weightedJac c.weight d (c.problem s.params).2

theorem init_sync (c : Call n m) (hw : c.NonnegWeights) (x : Vec ℝ n) : Sync c (init c x) :=
  ⟨innerSelf_weightedDiff c hw x, rfl, rfl⟩

/-- **C23** Every pass through the loop keeps residual, measurement difference and Jacobian those of the
current parameters; it either keeps the parameters or replaces them by parameters with a strictly
smaller residual. -/
theorem C23_step (c : Call n m) (hw : c.NonnegWeights) (s s' : St n m) (b : Bool) (hs : Sync c s)
    (h : step c s = .next s' b) :
    Sync c s' ∧ (s'.params = s.params ∨ c.residual s'.params < c.residual s.params) := by
  unfold step at h
  dsimp only at h
  split at h
  · unfold evaluateStep at h
    dsimp only at h
    split_ifs at h with hlt
    · cases h
      exact ⟨hs, Or.inl rfl⟩
    · cases h
      rename_i pd _
      have he := innerSelf_weightedDiff c hw (c.normalize (s.params + pd))
      refine ⟨⟨he, rfl, rfl⟩, Or.inr ?_⟩
      rw [he] at hlt
      rw [← hs.1]
      exact not_le.mp hlt
  · split at h
    · cases h
      exact ⟨hs, Or.inl rfl⟩
    · cases h

theorem loop_inv (c : Call n m) (hw : c.NonnegWeights) (fuel : ℕ) (s t : St n m) (b : Bool) (hs : Sync c s)
    (h : loop c fuel s = some (t, b)) :
    Sync c t ∧ c.residual t.params ≤ c.residual s.params := by
  induction fuel generalizing s with
  | zero => simp [loop] at h
  | succ k ih =>
    unfold loop at h
    rcases hst : step c s with _ | ⟨s', bt⟩
    · rw [hst] at h
      simp only [Option.some.injEq, Prod.mk.injEq] at h
      obtain ⟨rfl, -⟩ := h
      exact ⟨hs, le_rfl⟩
    · obtain ⟨h1, h2⟩ := C23_step c hw s s' bt hs hst
      have h3 : c.residual s'.params ≤ c.residual s.params := by
        rcases h2 with h2 | h2
        · rw [h2]
        · exact h2.le
      rw [hst] at h
      cases bt with
      | true =>
        simp only [Option.some.injEq, Prod.mk.injEq] at h
        obtain ⟨rfl, -⟩ := h
        exact ⟨h1, h3⟩
      | false =>
        obtain ⟨h4, h5⟩ := ih s' h1 h
        exact ⟨h4, h5.trans h3⟩

/-- **C23** Whenever the optimizer returns, for whatever problem function, normalisation, termination
criterion, linear solver and number of iterations: the returned value is the residual of the returned
parameters, and not larger than the residual of the initial parameters. -/
theorem C23_result (c : Call n m) (hw : c.NonnegWeights) (x0 x : Vec ℝ n) (r : ℝ) (fuel : ℕ)
    (h : levenbergMarquardt c x0 fuel = some (x, some r)) :
    r = c.residual x ∧ r ≤ c.residual x0 := by
  unfold levenbergMarquardt at h
  rcases hl : loop c fuel (init c x0) with _ | ⟨s, b⟩
  · rw [hl] at h; cases h
  · obtain ⟨h1, h2⟩ := loop_inv c hw fuel _ s b (init_sync c hw x0) hl
    rw [hl] at h
    cases b with
    | true => simp at h
    | false =>
      simp only [Option.some.injEq, Prod.mk.injEq] at h
      obtain ⟨rfl, rfl⟩ := h
      exact ⟨h1.1, by rw [h1.1]; exact h2⟩

/-- **C23** Also when an exception is thrown, the parameters left behind are not worse than the initial ones. -/
theorem C23_exception (c : Call n m) (hw : c.NonnegWeights) (x0 x : Vec ℝ n) (fuel : ℕ)
    (h : levenbergMarquardt c x0 fuel = some (x, none)) : c.residual x ≤ c.residual x0 := by
  unfold levenbergMarquardt at h
  rcases hl : loop c fuel (init c x0) with _ | ⟨s, b⟩
  · rw [hl] at h; cases h
  · obtain ⟨h1, h2⟩ := loop_inv c hw fuel _ s b (init_sync c hw x0) hl
    rw [hl] at h
    cases b with
    | true =>
      simp only [Option.some.injEq, Prod.mk.injEq] at h
      obtain ⟨rfl, -⟩ := h
      exact h2
    | false => simp at h

/-- A pass that evaluates a trial step is the last one when the iteration number has reached the limit. -/
theorem step_last (c : Call n m) (M : ℕ) (p : ℝ) (hM : 0 < M) (hterm : c.terminate = optTerminate M p) (s s' : St n m) (b : Bool)
    (h : step c s = .next s' b) :
    s'.iteration = s.iteration + 1 ∧
      (((s'.solver = s.solver) ∧ (s'.iteration ≥ M → b = true)) ∨ (s.solver = .cholesky ∧ s'.solver = .svd)) := by
  unfold step at h
  dsimp only at h
  split at h
  · unfold evaluateStep at h
    dsimp only at h
    rw [hterm] at h
    split_ifs at h with hlt
    · cases h
      refine ⟨rfl, Or.inl ⟨rfl, fun hge => ?_⟩⟩
      unfold optTerminate
      exact decide_eq_true (Or.inl ⟨hM, hge⟩)
    · cases h
      refine ⟨rfl, Or.inl ⟨rfl, fun hge => ?_⟩⟩
      unfold optTerminate
      exact decide_eq_true (Or.inl ⟨hM, hge⟩)
  · split at h
    · cases h
      rename_i hsol
      exact ⟨rfl, Or.inr ⟨hsol, rfl⟩⟩
    · cases h

theorem loop_terminates (c : Call n m) (M : ℕ) (p : ℝ) (hM : 0 < M) (hterm : c.terminate = optTerminate M p) (fuel : ℕ)
    (s : St n m) (hf : s.iteration + fuel ≥ M + (if s.solver = .cholesky then 1 else 0))
    (hf0 : fuel ≥ 1 + (if s.solver = .cholesky then 1 else 0)) :
    ∃ r, loop c fuel s = some r := by
  induction fuel generalizing s with
  | zero => omega
  | succ k ih =>
    unfold loop
    rcases hst : step c s with _ | ⟨s', bt⟩
    · exact ⟨_, rfl⟩
    · cases bt with
      | true => exact ⟨_, rfl⟩
      | false =>
        obtain ⟨h1, h2⟩ := step_last c M p hM hterm s s' false hst
        rcases h2 with ⟨h2, h3⟩ | ⟨h2, h3⟩
        · have : ¬ s'.iteration ≥ M := fun h => by simpa using h3 h
          apply ih <;> rw [h2] <;> split_ifs at hf hf0 ⊢ <;> omega
        · rw [h2] at hf hf0
          apply ih <;> rw [h3] <;> simp at hf hf0 ⊢ <;> omega

theorem loop_terminates' (c : Call n m) (M : ℕ) (p : ℝ) (hM : 0 < M) (hterm : c.terminate = optTerminate M p) (fuel : ℕ)
    (s : St n m) (hsol : s.solver ≠ .cholesky ∨ ∀ A b, c.lapack .cholesky A b ≠ none) (hf : s.iteration + fuel ≥ M) (hf0 : fuel ≥ 1) :
    ∃ r, loop c fuel s = some r := by
  induction fuel generalizing s with
  | zero => omega
  | succ k ih =>
    unfold loop
    rcases hst : step c s with _ | ⟨s', bt⟩
    · exact ⟨_, rfl⟩
    · cases bt with
      | true => exact ⟨_, rfl⟩
      | false =>
        obtain ⟨h1, h2⟩ := step_last c M p hM hterm s s' false hst
        rcases h2 with ⟨h2, h3⟩ | ⟨h2, h3⟩
        · have : ¬ s'.iteration ≥ M := fun h => by simpa using h3 h
          apply ih
          · rw [h2]; exact hsol
          · omega
          · omega
        · exfalso
          rcases hsol with hsol | hsol
          · exact hsol h2
          · unfold step at hst
            dsimp only at hst
            split at hst
            · unfold evaluateStep at hst
              dsimp only at hst
              split_ifs at hst
              · simp only [Outcome.next.injEq] at hst
                rw [← hst.1] at h3
                simp only [h2] at h3
                cases h3
              · simp only [Outcome.next.injEq] at hst
                rw [← hst.1] at h3
                simp only [h2] at h3
                cases h3
            · rename_i hn
              rw [h2] at hn
              exact hsol _ _ hn

/-- **C23** With a positive iteration limit the optimizer stops, for every problem function and linear solver:
after at most `M` passes if the solver is not Cholesky or Cholesky does not fail, after at most `M + 1` passes
otherwise (the additional pass is the one in which the solver is switched to SVD). -/
theorem C23_terminates (c : Call n m) (M : ℕ) (p : ℝ) (hM : 0 < M) (hterm : c.terminate = optTerminate M p)
    (x0 : Vec ℝ n) :
    levenbergMarquardt c x0 (M + 1) ≠ none ∧
    ((c.solver ≠ .cholesky ∨ ∀ A b, c.lapack .cholesky A b ≠ none) → levenbergMarquardt c x0 M ≠ none) := by
  constructor
  · obtain ⟨⟨s, b⟩, h⟩ := loop_terminates c M p hM hterm (M + 1) (init c x0)
      (by split_ifs <;> simp [init]) (by split_ifs <;> omega)
    unfold levenbergMarquardt
    rw [h]
    cases b <;> simp
  · intro hsol
    obtain ⟨⟨s, b⟩, h⟩ := loop_terminates' c M p hM hterm M (init c x0) hsol (by simp [init]) hM
    unfold levenbergMarquardt
    rw [h]
    cases b <;> simp

/-- A call with limit 1 whose Cholesky decomposition fails: identity problem in one dimension. -/
noncomputable def switching : Call 1 1 where
  problem x := (x, 1)
  measurement := fun _ => 3
  terminate := optTerminate 1 0
  normalize := id
  weight := none
  solver := .cholesky
  stepSize := 1
  stepFactor := 10
  lapack s _ _ := if s = .cholesky then none else some (fun _ => 1)

/-- **C23 (refuted as first stated)** The number of passes can exceed the limit by one: with limit 1, the
loop is still running after one pass if Cholesky fails in it. -/
theorem C23_extra_pass_refuted : levenbergMarquardt switching (fun _ => 0) 1 = none := by
  unfold levenbergMarquardt loop step
  simp [switching, init, loop]

/-- The same call ends in the second pass, with a smaller residual (9 at the start, 4 at the end). -/
example : levenbergMarquardt switching (fun _ => 0) 2 = some (fun _ => 1, some 4) := by
  unfold levenbergMarquardt
  simp [loop, step, switching, init, evaluateStep, optTerminate, innerSelf, weightedDiff]
  norm_num
  rfl

/-- **C23 (no limit)** Without iteration limit and precision the loop never stops by itself. -/
theorem C23_unlimited_refuted (c : Call n m) (hterm : c.terminate = optTerminate 0 0)
    (hl : ∀ s A b, c.lapack s A b ≠ none) (x0 : Vec ℝ n) (fuel : ℕ) : levenbergMarquardt c x0 fuel = none := by
  have key : ∀ s : St n m, loop c fuel s = none := by
    induction fuel with
    | zero => intro s; rfl
    | succ k ih =>
      intro s
      unfold loop step
      dsimp only
      rcases h : c.lapack s.solver (normalMatrix { s with iteration := s.iteration + 1 })
        (rhs { s with iteration := s.iteration + 1 }) with _ | d
      · exact absurd h (hl _ _ _)
      · simp only [evaluateStep, hterm]
        have hn : ∀ i a b, optTerminate 0 0 i a b = false := by
          intro i a b; unfold optTerminate; simp
        split_ifs
        · simp only [hn]; exact ih _
        · simp only [hn]; exact ih _
  unfold levenbergMarquardt
  rw [key]

/-! ### The step itself -/

/-- Specification: the damped linearised residual, for a step `δ`. -/
def damped (J : Mat ℝ m n) (d : Vec ℝ m) (lam : ℝ) (δ : Vec ℝ n) : ℝ :=
  (∑ i, (d i - (J *ᵥ δ) i) ^ 2) + lam * ∑ j, δ j ^ 2

theorem sum_sq_eq_dot {k : ℕ} (v : Vec ℝ k) : ∑ i, v i ^ 2 = v ⬝ᵥ v := by
  simp [dotProduct, pow_two]

/-- **C23** If the linear solver solves its equations exactly, the step minimises the linearised
residual with the damping penalty `λ|δ|²`, among all steps, and is the only step doing so when `λ > 0`. -/
theorem C23_damped_step (s : St n m) (δ : Vec ℝ n) (hsolve : normalMatrix s *ᵥ δ = rhs s) (hlam : 0 ≤ s.lambda)
    (δ' : Vec ℝ n) :
    damped s.jacobian s.diff s.lambda δ ≤ damped s.jacobian s.diff s.lambda δ' ∧
      (0 < s.lambda → damped s.jacobian s.diff s.lambda δ' ≤ damped s.jacobian s.diff s.lambda δ → δ' = δ) := by
  set J := s.jacobian
  set d := s.diff
  set e := δ' - δ with he
  have hδ' : δ' = δ + e := by rw [he]; abel
  have key : damped J d s.lambda δ' = damped J d s.lambda δ + (∑ i, ((J *ᵥ e) i) ^ 2 + s.lambda * ∑ j, e j ^ 2) := by
    have h1 : (J *ᵥ e) ⬝ᵥ (d - J *ᵥ δ) = s.lambda * (e ⬝ᵥ δ) := by
      have h2 : Jᵀ *ᵥ (J *ᵥ δ) + s.lambda • δ = Jᵀ *ᵥ d := by
        have := hsolve
        unfold normalMatrix rhs at this
        rw [Matrix.add_mulVec, ← Matrix.mulVec_mulVec] at this
        rw [← this]
        congr 1
        ext i
        simp [Matrix.mulVec_diagonal]
      have h3 : (J *ᵥ e) ⬝ᵥ (d - J *ᵥ δ) = e ⬝ᵥ (Jᵀ *ᵥ (d - J *ᵥ δ)) := by
        rw [Matrix.dotProduct_mulVec e, Matrix.vecMul_transpose]
      rw [h3, Matrix.mulVec_sub, ← h2, add_sub_cancel_left, dotProduct_smul, smul_eq_mul]
    unfold damped
    have e1 : ∑ i, (d i - (J *ᵥ δ') i) ^ 2 = (∑ i, (d i - (J *ᵥ δ) i) ^ 2) - 2 * ((J *ᵥ e) ⬝ᵥ (d - J *ᵥ δ)) + ∑ i, ((J *ᵥ e) i) ^ 2 := by
      rw [dotProduct, Finset.mul_sum, ← Finset.sum_sub_distrib, ← Finset.sum_add_distrib]
      refine Finset.sum_congr rfl fun i _ => ?_
      rw [hδ', Matrix.mulVec_add]
      simp only [Pi.add_apply, Pi.sub_apply]
      ring
    have e2 : ∑ j, δ' j ^ 2 = (∑ j, δ j ^ 2) + 2 * (e ⬝ᵥ δ) + ∑ j, e j ^ 2 := by
      rw [dotProduct, Finset.mul_sum, ← Finset.sum_add_distrib, ← Finset.sum_add_distrib]
      refine Finset.sum_congr rfl fun i _ => ?_
      rw [hδ']
      simp only [Pi.add_apply]
      ring
    rw [e1, e2, h1]
    ring
  have p1 : 0 ≤ ∑ i, ((J *ᵥ e) i) ^ 2 := Finset.sum_nonneg fun i _ => sq_nonneg _
  have p2 : 0 ≤ ∑ j, e j ^ 2 := Finset.sum_nonneg fun i _ => sq_nonneg _
  refine ⟨by rw [key]; have := mul_nonneg hlam p2; linarith, ?_⟩
  intro hpos hle
  rw [key] at hle
  have h0 : ∑ j, e j ^ 2 = 0 := by
    by_contra hne
    have : 0 < ∑ j, e j ^ 2 := lt_of_le_of_ne p2 (Ne.symm hne)
    have := mul_pos hpos this
    linarith
  have hz : ∀ j, e j = 0 := by
    intro j
    have := (Finset.sum_eq_zero_iff_of_nonneg (fun i _ => sq_nonneg (e i))).mp h0 j (Finset.mem_univ j)
    exact pow_eq_zero_iff (two_ne_zero) |>.mp this
  rw [hδ']
  ext j
  simp [hz j]

/-- The damping factor stays positive. -/
theorem step_lambda (c : Call n m) (hf : 0 < c.stepFactor) (s s' : St n m) (b : Bool) (hs : 0 < s.lambda)
    (h : step c s = .next s' b) : 0 < s'.lambda := by
  unfold step at h
  dsimp only at h
  split at h
  · unfold evaluateStep at h
    dsimp only at h
    split_ifs at h with hlt
    · cases h
      exact mul_pos hs hf
    · cases h
      exact div_pos hs hf
  · split at h
    · cases h
      exact hs
    · cases h

/-- The states the loop passes through. -/
inductive Reachable (c : Call n m) (x0 : Vec ℝ n) : St n m → Prop
  | init : Reachable c x0 (init c x0)
  | step {s s' : St n m} {b : Bool} : Reachable c x0 s → step c s = .next s' b → Reachable c x0 s'

/-- **C23** In every state the loop passes through, the damping factor is positive (for positive step size and
factor), the buffers belong to the current parameters and these are not worse than the initial ones. So the
hypotheses of `C23_step` and `C23_damped_step` hold in every iteration. -/
theorem C23_reachable (c : Call n m) (hw : c.NonnegWeights) (hz : 0 < c.stepSize) (hf : 0 < c.stepFactor)
    (x0 : Vec ℝ n) (s : St n m) (h : Reachable c x0 s) :
    0 < s.lambda ∧ Sync c s ∧ c.residual s.params ≤ c.residual x0 := by
  induction h with
  | init => exact ⟨hz, init_sync c hw x0, le_rfl⟩
  | step hr hst ih =>
    obtain ⟨h1, h2, h3⟩ := ih
    obtain ⟨h4, h5⟩ := C23_step c hw _ _ _ h2 hst
    refine ⟨step_lambda c hf _ _ _ h1 hst, h4, ?_⟩
    rcases h5 with h5 | h5
    · rw [h5]; exact h3
    · exact h5.le.trans h3

/-- The hypotheses on weights and factors are met by the call above. -/
example : switching.NonnegWeights ∧ 0 < switching.stepSize ∧ 0 < switching.stepFactor :=
  ⟨fun _ _ => by simp [switching, weights], by norm_num [switching], by norm_num [switching]⟩

/-- **C23** The Tukey weights are never negative, so they meet the hypothesis on the weight function. -/
theorem C23_tukey_nonneg (c e : ℝ) (he : 0 ≤ e) : 0 ≤ tukeyWeight c e := by
  have hro : e ≠ 0 → 0 ≤ (if ¬ e > c * c then c ^ 2 / 6 * (1 - (1 - e / (c * c)) ^ 3) else c * c / 6) := by
    intro h
    by_cases h2 : e > c * c
    · rw [if_neg (by simpa using h2)]
      have := mul_self_nonneg c; linarith
    · rw [if_pos h2]
      rw [not_lt] at h2
      have hcc : 0 < c * c := lt_of_lt_of_le (lt_of_le_of_ne he (Ne.symm h)) h2
      have h3 : 0 ≤ 1 - e / (c * c) := by rw [sub_nonneg, div_le_one hcc]; exact h2
      have h4 : 1 - e / (c * c) ≤ 1 := by have := div_nonneg he hcc.le; linarith
      have h5 : (1 - e / (c * c)) ^ 3 ≤ 1 := pow_le_one₀ h3 h4
      have : 0 ≤ c ^ 2 / 6 := by positivity
      exact mul_nonneg this (by linarith)
  unfold tukeyWeight
  by_cases h : e ≠ 0
  · rw [if_pos h]
    exact div_nonneg (Real.sqrt_nonneg _) (hro h)
  · rw [if_neg h]

end Ubitrack.LM
