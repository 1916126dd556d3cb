import Verif.Model.PoseOptimization
import Verif.Spec.PoseOptimization
import Verif.Props.PlanarPose
import Verif.Props.ProjectionFunction
import Verif.Props.LevenbergMarquardt
import Mathlib.Algebra.Order.Star.Real

/-!
# C95: refinement of a camera pose
-/

namespace Ubitrack.PoseOptimization

open Spec ProjectionFunction
open scoped Matrix

variable {n m : ℕ}

theorem kind_finite (p3D : Fin n → Vec ℝ 3) (cam : Mat ℝ 3 3) (x : Vec ℝ (3 + 4)) :
    kind p3D cam x = .finite ↔ ∀ i, projected p3D cam x i 2 ≠ 0 := by
  unfold kind
  constructor
  · intro h i h0
    split_ifs at h with h1 h2
    have a : pointKind (projected p3D cam x i) ≠ .nan := fun e => h1 ⟨i, e⟩
    have b : pointKind (projected p3D cam x i) ≠ .infinite := fun e => h2 ⟨i, e⟩
    unfold pointKind at a b
    rw [if_neg (not_not.mpr h0)] at a b
    split_ifs at a b
    · exact a rfl
    · exact b rfl
  · intro h
    have e : ∀ i, pointKind (projected p3D cam x i) = .finite := fun i => by
      unfold pointKind; rw [if_pos (h i)]
    simp [e]

theorem unit_pose {x : Vec ℝ (3 + 4)} : UnitInput x ↔ UnitQ (Pose.fromVector x).rotation := Iff.rfl

theorem toVector_fromVector (p : Pose ℝ) : Pose.fromVector p.toVector = p := by
  rcases p with ⟨⟨a, b, c, d⟩, t⟩
  simp only [Pose.fromVector, Pose.toVector, Quat.fromVector, Quat.toVector]
  congr 1
  funext i
  fin_cases i <;> rfl

theorem projected_seen (p3D : Fin n → Vec ℝ 3) (cam : Mat ℝ 3 3) {x : Vec ℝ (3 + 4)} (hx : UnitInput x) (i : Fin n) :
    projected p3D cam x i = seen cam (Pose.fromVector x) (p3D i) := by
  unfold projected seen
  have h := (C03_quaternion_to_matrix _ (unit_pose.mp hx)).1 (p3D i)
  have e : (Pose.fromVector x).rotation = Quat.fromVector (inputR x) := rfl
  have e2 : (Pose.fromVector x).translation = inputT x := inputT_eq7 x
  rw [← h, e, e2]

theorem normalize_unit {x r : Vec ℝ (3 + 4)} (h : PlanarPose.projectivePoseNormalize x = some r) : UnitInput r := by
  by_cases h0 : ∃ i, inputR x i ≠ 0
  · obtain ⟨r', h1, h2, -⟩ := PlanarPose.C78_normalize x h0
    rw [h1] at h
    cases h
    exact h2
  · push Not at h0
    unfold PlanarPose.projectivePoseNormalize at h
    simp [h0] at h

theorem sum_stack2 (a b : Fin n → Vec ℝ 2) :
    ∑ r, (stack2 a r - stack2 b r) ^ 2 = ∑ i, ((a i 0 - b i 0) ^ 2 + (a i 1 - b i 1) ^ 2) := by
  rw [← (finProdFinEquiv.trans (finCongr (Nat.mul_comm n 2))).sum_comp]
  rw [Fintype.sum_prod_type]
  refine Finset.sum_congr rfl fun i _ => ?_
  rw [Fin.sum_univ_two]
  have h : ∀ (c : Fin n → Vec ℝ 2) (k : Fin 2), stack2 c ((finProdFinEquiv.trans (finCongr (Nat.mul_comm n 2))) (i, k)) = c i k := by
    intro c k
    unfold stack2
    congr 1
    · congr 1
      simp [finProdFinEquiv]
      omega
    · apply Fin.ext
      simp [finProdFinEquiv]
      omega
  simp only [h]

theorem sum_zip {α β : Type*} (f : α × β → ℝ) : ∀ (xs : List α) (ys : List β) (h : ys.length = xs.length),
    ((xs.zip ys).map f).sum = ∑ i : Fin xs.length, f (xs.get i, ys.get (i.cast h.symm))
  | [], ys, h => by simp
  | x :: xs, [], h => by simp at h
  | x :: xs, y :: ys, h => by
    have := sum_zip f xs ys (by simpa using h)
    simp only [List.zip_cons_cons, List.map_cons, List.sum_cons, this, List.length_cons]
    rw [Fin.sum_univ_succ]
    rfl

theorem measurements_eq (p2D : List (Vec ℝ 2)) (h : p2D.length = n) (r : Fin (2 * n)) :
    measurements p2D (r.cast (by rw [h])) = stack2 (fun i : Fin n => p2D.get (i.cast h.symm)) r := by
  subst h
  unfold measurements
  rw [foldl_setRange]
  rfl

/-- The residual of the optimiser is the squared image error of the pose. -/
theorem residual_eq (lapack : LM.Lapack (3 + 4)) (p2D : List (Vec ℝ 2)) (p3D : List (Vec ℝ 3)) (cam : Mat ℝ 3 3) (N : ℕ)
    (h : p2D.length = p3D.length) {x : Vec ℝ (3 + 4)} (hx : UnitInput x) :
    (call lapack p3D.get cam (fun r => measurements p2D (r.cast (by rw [h]))) N).residual x =
      squaredImageError cam (Pose.fromVector x) p2D p3D := by
  simp only [LM.Call.residual, LM.residual, LM.Call.predict, call, LM.weights, one_mul]
  simp only [measurements_eq p2D h, C55_point_evaluate _ _ _ _ hx]
  rw [sum_stack2]
  unfold squaredImageError
  rw [sum_zip _ p3D p2D h]
  refine Finset.sum_congr rfl fun i _ => ?_
  have e : pointProjection cam (p3D.get i) x = image cam (Pose.fromVector x) (p3D.get i) := by
    unfold pointProjection image
    have h1 := projected_seen p3D.get cam hx i
    unfold projected at h1
    rw [hx.rot] at h1
    rw [inputR_eq, inputT_eq7, h1]
    rfl
  rw [e]
  ring

theorem call_weights (lapack : LM.Lapack (3 + 4)) (p3D : Fin n → Vec ℝ 3) (cam : Mat ℝ 3 3) (z : Vec ℝ (2 * n)) (N : ℕ) :
    (call lapack p3D cam z N).NonnegWeights := by
  intro d i
  simp [LM.weights, call]

/-- What a pass does: it changes the solver, rejects a trial, or takes over a normalised trial with finite numbers. -/
theorem pass_next {lapack : LM.Lapack (3 + 4)} {p3D : Fin n → Vec ℝ 3} {cam : Mat ℝ 3 3} {z : Vec ℝ (2 * n)} {N : ℕ}
    {s s' : LM.St (3 + 4) (2 * n)} {b : Bool}
    (h : pass (call lapack p3D cam z N) p3D cam N s = .next s' b) :
    (s.solver = .cholesky ∧ s' = { s with iteration := s.iteration + 1, solver := .svd }) ∨
    ((N > 0 ∧ s.iteration + 1 ≥ N → b = true) ∧ s'.iteration = s.iteration + 1 ∧ s'.solver = s.solver ∧
      ((∃ l, s' = { s with iteration := s.iteration + 1, lambda := l }) ∨
        (∃ d, PlanarPose.projectivePoseNormalize (s.params + d) = some s'.params ∧ kind p3D cam s'.params = .finite ∧
          LM.evaluateStep (call lapack p3D cam z N) { s with iteration := s.iteration + 1 } d = .next s' b))) := by
  unfold pass at h
  dsimp only at h
  split at h
  · split at h
    · rename_i hs
      cases h
      exact Or.inl ⟨hs, rfl⟩
    · cases h
  · right
    rename_i d _
    split at h
    · cases h
    · rename_i x hx
      split at h
      · cases h
      · cases h
        refine ⟨fun h => by simpa using h, rfl, rfl, Or.inl ⟨_, rfl⟩⟩
      · rename_i hk
        split at h
        · cases h
        · rename_i s2 b2 he
          cases h
          have hn : (call lapack p3D cam z N).normalize (s.params + d) = x := by simp [call, hx]
          have he' := he
          unfold LM.evaluateStep at he
          dsimp only at he
          rw [hn] at he
          have hb : N > 0 ∧ s.iteration + 1 ≥ N → ∀ a c, (call lapack p3D cam z N).terminate (s.iteration + 1) a c = true := by
            intro h a c
            simp [call, LM.optTerminate, h.1, h.2]
          split_ifs at he
          · cases he
            exact ⟨fun h => hb h _ _, rfl, rfl, Or.inl ⟨_, rfl⟩⟩
          · cases he
            exact ⟨fun h => hb h _ _, rfl, rfl, Or.inr ⟨d, hx, hk, he'⟩⟩

/-- What holds for the state of the optimiser all the time. -/
structure Good (c : LM.Call (3 + 4) (2 * n)) (p3D : Fin n → Vec ℝ 3) (cam : Mat ℝ 3 3) (s : LM.St (3 + 4) (2 * n)) : Prop where
  unit : UnitInput s.params
  finite : kind p3D cam s.params = .finite
  sync : LM.Sync c s

theorem pass_good {lapack : LM.Lapack (3 + 4)} {p3D : Fin n → Vec ℝ 3} {cam : Mat ℝ 3 3} {z : Vec ℝ (2 * n)} {N : ℕ}
    {s s' : LM.St (3 + 4) (2 * n)} {b : Bool} (hs : Good (call lapack p3D cam z N) p3D cam s)
    (h : pass (call lapack p3D cam z N) p3D cam N s = .next s' b) :
    Good (call lapack p3D cam z N) p3D cam s' ∧
      (s'.params = s.params ∨ (call lapack p3D cam z N).residual s'.params < (call lapack p3D cam z N).residual s.params) := by
  rcases pass_next h with ⟨-, rfl⟩ | ⟨-, -, -, ⟨l, rfl⟩ | ⟨d, h1, h2, h3⟩⟩
  · exact ⟨⟨hs.unit, hs.finite, hs.sync⟩, Or.inl rfl⟩
  · exact ⟨⟨hs.unit, hs.finite, hs.sync⟩, Or.inl rfl⟩
  · have hw := call_weights lapack p3D cam z N
    have hstep : LM.step { call lapack p3D cam z N with lapack := fun _ _ _ => some d } s = .next s' b := h3
    obtain ⟨h4, h5⟩ := LM.C23_step { call lapack p3D cam z N with lapack := fun _ _ _ => some d } hw s s' b hs.sync hstep
    exact ⟨⟨normalize_unit h1, h2, h4⟩, h5⟩

theorem loop_ok {lapack : LM.Lapack (3 + 4)} {p3D : Fin n → Vec ℝ 3} {cam : Mat ℝ 3 3} {z : Vec ℝ (2 * n)} {N : ℕ} {q : Pose ℝ} {r : ℝ} :
    ∀ (fuel : ℕ) (s : LM.St (3 + 4) (2 * n)), Good (call lapack p3D cam z N) p3D cam s →
      loop (call lapack p3D cam z N) p3D cam N fuel s = some (.ok q r) →
      ∃ x, q = Pose.fromVector x ∧ UnitInput x ∧ kind p3D cam x = .finite ∧ r = (call lapack p3D cam z N).residual x ∧
        (x = s.params ∨ r < (call lapack p3D cam z N).residual s.params)
  | 0, s, _, h => by simp [loop] at h
  | fuel + 1, s, hs, h => by
    unfold loop at h
    rcases hp : pass (call lapack p3D cam z N) p3D cam N s with _ | _ | ⟨s', b⟩
    · simp [hp] at h
    · simp [hp] at h
    · obtain ⟨h1, h2⟩ := pass_good hs hp
      rw [hp] at h
      cases b with
      | true =>
        simp only [Option.some.injEq, Result.ok.injEq] at h
        obtain ⟨rfl, rfl⟩ := h
        exact ⟨s'.params, rfl, h1.unit, h1.finite, h1.sync.1, by rw [h1.sync.1]; exact h2⟩
      | false =>
        obtain ⟨x, e, hx, hk, hr, h3⟩ := loop_ok fuel s' h1 h
        refine ⟨x, e, hx, hk, hr, ?_⟩
        rcases h3 with h3 | h3
        · rcases h2 with h2 | h2
          · exact Or.inl (h3.trans h2)
          · right
            rw [hr, h3]
            exact h2
        · rcases h2 with h2 | h2
          · right
            rw [← h2]
            exact h3
          · exact Or.inr (h3.trans h2)

theorem kind_start {p : Pose ℝ} (hp : UnitQ p.rotation) (p3D : List (Vec ℝ 3)) (cam : Mat ℝ 3 3) :
    kind p3D.get cam p.toVector = .finite ↔ ∀ x ∈ p3D, seen cam p x 2 ≠ 0 := by
  have hu : UnitInput (p.toVector : Vec ℝ (3 + 4)) := by rw [unit_pose, toVector_fromVector]; exact hp
  rw [kind_finite]
  simp only [projected_seen _ _ hu, toVector_fromVector]
  constructor
  · intro h x hx
    obtain ⟨i, rfl⟩ := List.mem_iff_get.mp hx
    exact h i
  · intro h i
    exact h _ (List.get_mem _ _)

/-- **C95** Whenever `optimizePose` returns numbers, for whatever points, camera matrix, linear solver and number of iterations: the
returned pose has a unit quaternion and no point in the plane of the camera, the returned value is the sum of the squared distances
between the measured points and the images under the returned pose, and the pose is the initial one or has a smaller sum. -/
theorem C95_result (lapack : LM.Lapack (3 + 4)) (p q : Pose ℝ) (r : ℝ) (p2D : List (Vec ℝ 2)) (p3D : List (Vec ℝ 3)) (cam : Mat ℝ 3 3)
    (N fuel : ℕ) (hp : UnitQ p.rotation) (h : optimizePose lapack p p2D p3D cam N fuel = some (some (.ok q r))) :
    UnitQ q.rotation ∧ (∀ x ∈ p3D, seen cam q x 2 ≠ 0) ∧ r = squaredImageError cam q p2D p3D ∧
      (q = p ∨ r < squaredImageError cam p p2D p3D) := by
  obtain ⟨x0, hx0⟩ : ∃ x0 : Vec ℝ (3 + 4), p.toVector = x0 := ⟨_, rfl⟩
  have e0 : Pose.fromVector x0 = p := by rw [← hx0, toVector_fromVector]
  have hu : UnitInput x0 := by rw [unit_pose, e0]; exact hp
  unfold optimizePose at h
  split_ifs at h with hl
  dsimp only at h
  rw [hx0] at h
  obtain ⟨z, hz⟩ : ∃ z : Vec ℝ (2 * p3D.length), (fun r => measurements p2D (r.cast (by rw [hl]))) = z := ⟨_, rfl⟩
  have hres : ∀ x, UnitInput x → (call lapack p3D.get cam z N).residual x = squaredImageError cam (Pose.fromVector x) p2D p3D := by
    intro x hx
    rw [← hz]
    exact residual_eq lapack p2D p3D cam N hl hx
  rw [hz] at h
  split at h
  · rename_i hk
    simp only [Option.some.injEq] at h
    have hg := LM.init_sync _ (call_weights lapack p3D.get cam z N) x0
    obtain ⟨x, rfl, hx, hkx, hr, hlt⟩ := loop_ok fuel (LM.init (call lapack p3D.get cam z N) x0) ⟨hu, hk, hg⟩ h
    rw [hres x hx] at hr
    refine ⟨unit_pose.mp hx, ?_, hr, ?_⟩
    · rw [kind_finite] at hkx
      intro y hy
      obtain ⟨i, rfl⟩ := List.mem_iff_get.mp hy
      rw [← projected_seen p3D.get cam hx i]
      exact hkx i
    · rcases hlt with hlt | hlt
      · left
        rw [hlt]
        exact e0
      · right
        rw [← e0, ← hres x0 hu]
        exact hlt
  · simp at h

/-- **C95** With a positive number of iterations the optimisation ends after that many passes, and one more if the first solver fails. -/
theorem C95_ends (lapack : LM.Lapack (3 + 4)) (p : Pose ℝ) (p2D : List (Vec ℝ 2)) (p3D : List (Vec ℝ 3)) (cam : Mat ℝ 3 3) (N : ℕ)
    (hN : 0 < N) : optimizePose lapack p p2D p3D cam N (N + 1) ≠ some none ∧
      ((∀ A b, lapack .cholesky A b ≠ none) → optimizePose lapack p p2D p3D cam N N ≠ some none) := by
  have key : ∀ (z : Vec ℝ (2 * p3D.length)) (fuel : ℕ) (s : LM.St (3 + 4) (2 * p3D.length)) (extra : ℕ),
      (extra = 1 ∨ ∀ A b, lapack .cholesky A b ≠ none) →
      s.iteration + fuel ≥ N + (if s.solver = .cholesky then extra else 0) → fuel ≥ 1 + (if s.solver = .cholesky then extra else 0) →
      loop (call lapack p3D.get cam z N) p3D.get cam N fuel s ≠ none := by
    intro z fuel
    induction fuel with
    | zero => intro s extra _ _ h; omega
    | succ k ih =>
      intro s extra he h1 h2
      unfold loop
      rcases hp : pass (call lapack p3D.get cam z N) p3D.get cam N s with _ | _ | ⟨s', b⟩
      · simp
      · simp
      · cases b with
        | true => simp
        | false =>
          simp only
          rcases pass_next hp with ⟨hc, rfl⟩ | ⟨hb, hi, hsol, -⟩
          · rcases he with rfl | he
            · simp only [hc, if_true] at h1 h2
              apply ih _ 1 (Or.inl rfl)
              · simp; omega
              · simp; omega
            · exfalso
              unfold pass at hp
              dsimp only at hp
              split at hp
              · rename_i hn
                rw [hc] at hn
                exact he _ _ hn
              · rename_i d _
                split at hp
                · cases hp
                · split at hp
                  · cases hp
                  · simp only [Pass.next.injEq] at hp
                    have := congrArg LM.St.solver hp.1
                    simp [hc] at this
                  · split at hp
                    · cases hp
                    · rename_i s2 b2 hev
                      cases hp
                      unfold LM.evaluateStep at hev
                      dsimp only at hev
                      split_ifs at hev
                      · simp only [LM.Outcome.next.injEq] at hev
                        have := congrArg LM.St.solver hev.1
                        simp [hc] at this
                      · simp only [LM.Outcome.next.injEq] at hev
                        have := congrArg LM.St.solver hev.1
                        simp [hc] at this
          · have hlt : ¬ (s.iteration + 1 ≥ N) := fun h => by simpa using hb ⟨hN, h⟩
            apply ih _ extra he
            · rw [hi, hsol]; omega
            · rw [hsol]
              split_ifs at h1 h2 ⊢ <;> omega
  constructor
  · unfold optimizePose
    split_ifs with hl
    · dsimp only
      split
      · simp only [ne_eq, Option.some.injEq]
        apply key _ _ _ 1 (Or.inl rfl)
        · simp [LM.init, call]
        · simp [LM.init, call]; omega
      · simp
    · simp
  · intro he
    unfold optimizePose
    split_ifs with hl
    · dsimp only
      split
      · simp only [ne_eq, Option.some.injEq]
        apply key _ _ _ 0 (Or.inr he)
        · simp [LM.init, call]
        · simp; omega
      · simp
    · simp

/-! ## Exact solvers -/

theorem normal_posDef (s : LM.St n m) (hl : 0 < s.lambda) : (LM.normalMatrix s).PosDef := by
  unfold LM.normalMatrix
  apply Matrix.PosDef.posSemidef_add
  · have := Matrix.posSemidef_conjTranspose_mul_self s.jacobian
    rwa [Matrix.conjTranspose_eq_transpose_of_trivial] at this
  · rw [Matrix.posDef_diagonal_iff]
    exact fun _ => hl

theorem posDef_inj {A : Mat ℝ n n} (hA : A.PosDef) {a b : Vec ℝ n} (h : A *ᵥ a = A *ᵥ b) : a = b := by
  have hu := hA.isUnit
  exact Matrix.mulVec_injective_of_isUnit hu h

theorem normalize_of_unit {x : Vec ℝ (3 + 4)} (hx : UnitInput x) : PlanarPose.projectivePoseNormalize x = some x := by
  have h := hx.inputR
  have e : inputR x 0 * inputR x 0 + inputR x 1 * inputR x 1 + inputR x 2 * inputR x 2 + inputR x 3 * inputR x 3 = 1 := by
    linarith
  unfold PlanarPose.projectivePoseNormalize
  simp only [e, Real.sqrt_one, one_ne_zero, if_false, div_one]
  congr 1
  exact Fin.append_castAdd_natAdd

theorem pass_of_solution {c : LM.Call (3 + 4) (2 * n)} {p3D : Fin n → Vec ℝ 3} {cam : Mat ℝ 3 3} {N : ℕ} {s : LM.St (3 + 4) (2 * n)}
    {d x : Vec ℝ (3 + 4)}
    (h : c.lapack s.solver (LM.normalMatrix { s with iteration := s.iteration + 1 }) (LM.rhs { s with iteration := s.iteration + 1 }) =
      some d) (hn : PlanarPose.projectivePoseNormalize (s.params + d) = some x) :
    pass c p3D cam N s = match kind p3D cam x with
      | .nan => .nan
      | .infinite => .next { s with iteration := s.iteration + 1, lambda := s.lambda * c.stepFactor }
          (decide (N > 0 ∧ s.iteration + 1 ≥ N))
      | .finite =>
        match LM.evaluateStep c { s with iteration := s.iteration + 1 } d with
        | .throws => .throws
        | .next s' b => .next s' b := by
  unfold pass
  dsimp only
  rw [h]
  simp only [hn]
  cases kind p3D cam x <;> rfl

/-- The optimiser in an exact pose: every pass keeps the pose and counts on. -/
theorem exact_pass {lapack : LM.Lapack (3 + 4)} (hlap : CholeskySolver (lapack .cholesky)) {p3D : Fin n → Vec ℝ 3} {cam : Mat ℝ 3 3}
    {z : Vec ℝ (2 * n)} {N : ℕ} {s : LM.St (3 + 4) (2 * n)} (hs : Good (call lapack p3D cam z N) p3D cam s) (h0 : s.errPrev = 0)
    (hl : 0 < s.lambda) (hc : s.solver = .cholesky) :
    pass (call lapack p3D cam z N) p3D cam N s =
      .next { s with iteration := s.iteration + 1, lambda := s.lambda * 10 } (decide (N > 0 ∧ s.iteration + 1 ≥ N)) := by
  have hw := call_weights lapack p3D cam z N
  have hr : (call lapack p3D cam z N).residual s.params = 0 := by rw [← hs.sync.1, h0]
  have hd : s.diff = 0 := by
    have h1 := LM.innerSelf_weightedDiff _ hw s.params
    rw [← hs.sync.2.1, hr] at h1
    unfold LM.innerSelf at h1
    funext i
    have := (Finset.sum_eq_zero_iff_of_nonneg fun i _ => mul_self_nonneg (s.diff i)).mp h1 i (Finset.mem_univ _)
    simpa using this
  set s1 : LM.St (3 + 4) (2 * n) := { s with iteration := s.iteration + 1 } with hs1
  have hpd : (LM.normalMatrix s1).PosDef := normal_posDef s1 hl
  obtain ⟨d, hd1, hd2⟩ := hlap (LM.normalMatrix s1) (LM.rhs s1) hpd
  have hrhs : LM.rhs s1 = 0 := by simp [LM.rhs, hs1, hd]
  have hd0 : d = 0 := by
    apply posDef_inj hpd
    rw [hd2, hrhs, Matrix.mulVec_zero]
  have hn := normalize_of_unit hs.unit
  have e1 : (call lapack p3D cam z N).lapack s.solver (LM.normalMatrix s1) (LM.rhs s1) = some 0 := by
    rw [hc, ← hd0]
    exact hd1
  have hn0 : PlanarPose.projectivePoseNormalize (s.params + 0) = some s.params := by rw [add_zero]; exact hn
  rw [pass_of_solution e1 hn0, hs.finite]
  have he : LM.evaluateStep (call lapack p3D cam z N) s1 0 =
      .next { s with iteration := s.iteration + 1, lambda := s.lambda * 10 } (decide (N > 0 ∧ s.iteration + 1 ≥ N)) := by
    unfold LM.evaluateStep
    have hn' : (call lapack p3D cam z N).normalize (s1.params + 0) = s.params := by
      simp only [call, add_zero, hs1, hn, Option.getD_some]
    simp only [hn']
    rw [LM.innerSelf_weightedDiff _ hw s.params, hr]
    have e2 : s1.errPrev = 0 := h0
    rw [e2, if_pos le_rfl]
    simp [call, LM.optTerminate, hs1]
  simp only [← hs1, he]

/-- **C95** A pose that explains the measurements exactly is kept, with residual zero, whatever the number of iterations. -/
theorem C95_exact (lapack : LM.Lapack (3 + 4)) (hlap : CholeskySolver (lapack .cholesky)) (p : Pose ℝ) (hp : UnitQ p.rotation)
    (p3D : List (Vec ℝ 3)) (cam : Mat ℝ 3 3) (hseen : ∀ x ∈ p3D, seen cam p x 2 ≠ 0) (N fuel : ℕ) (hN : 0 < N)
    (hf : N ≤ fuel) : optimizePose lapack p (p3D.map (image cam p)) p3D cam N fuel = some (some (.ok p 0)) := by
  obtain ⟨x0, hx0⟩ : ∃ x0 : Vec ℝ (3 + 4), p.toVector = x0 := ⟨_, rfl⟩
  have e0 : Pose.fromVector x0 = p := by rw [← hx0, toVector_fromVector]
  have hu : UnitInput x0 := by rw [unit_pose, e0]; exact hp
  have hk := (kind_start hp p3D cam).mpr hseen
  have hl : (p3D.map (image cam p)).length = p3D.length := by simp
  unfold optimizePose
  rw [dif_pos hl]
  dsimp only
  rw [hk, hx0]
  obtain ⟨z, hz⟩ : ∃ z : Vec ℝ (2 * p3D.length), (fun r => measurements (p3D.map (image cam p)) (r.cast (by rw [hl]))) = z := ⟨_, rfl⟩
  have hres : (call lapack p3D.get cam z N).residual x0 = 0 := by
    rw [← hz, residual_eq lapack _ p3D cam N hl hu, e0]
    unfold squaredImageError
    apply List.sum_eq_zero
    intro v hv
    obtain ⟨⟨a, b⟩, hab, rfl⟩ := List.mem_map.mp hv
    have : b = image cam p a := by
      rw [List.zip_map_right] at hab
      obtain ⟨⟨c, d⟩, hcd, hcd'⟩ := List.mem_map.mp hab
      simp only [Prod.map, id, Prod.mk.injEq] at hcd'
      have : c = d := by
        clear hab hcd' hv
        induction p3D with
        | nil => simp at hcd
        | cons y ys ih =>
          simp only [List.zip_cons_cons, List.mem_cons, Prod.mk.injEq] at hcd
          rcases hcd with ⟨rfl, rfl⟩ | hcd
          · rfl
          · exact ih (fun x hx => hseen x (List.mem_cons_of_mem _ hx)) (by
              exact (kind_start hp ys cam).mpr fun x hx => hseen x (List.mem_cons_of_mem _ hx)) (by simp) _ rfl hcd
      rw [← hcd'.1, ← hcd'.2, this]
    simp [this]
  rw [hz]
  simp only [Option.some.injEq]
  have key : ∀ (fuel : ℕ) (s : LM.St (3 + 4) (2 * p3D.length)), Good (call lapack p3D.get cam z N) p3D.get cam s → s.params = x0 →
      s.errPrev = 0 → 0 < s.lambda → s.solver = .cholesky → s.iteration + fuel ≥ N → 0 < fuel →
      loop (call lapack p3D.get cam z N) p3D.get cam N fuel s = some (.ok p 0) := by
    intro fuel
    induction fuel with
    | zero => intro s _ _ _ _ _ _ h; omega
    | succ k ih =>
      intro s hs hx h0 hlam hc hi _
      unfold loop
      rw [exact_pass hlap hs h0 hlam hc]
      by_cases hb : N > 0 ∧ s.iteration + 1 ≥ N
      · rw [decide_eq_true hb]
        simp only [hx, h0, e0]
      · rw [decide_eq_false hb]
        have hb' : s.iteration + 1 < N := by
          by_contra h
          exact hb ⟨hN, by omega⟩
        exact ih _ ⟨hs.unit, hs.finite, hs.sync⟩ hx h0 (by positivity) hc (by simp only; omega) (by omega)
  have hg := LM.init_sync _ (call_weights lapack p3D.get cam z N) x0
  refine key fuel _ ⟨hu, ?_, hg⟩ rfl ?_ ?_ rfl ?_ (by omega)
  · rw [← hx0]; exact hk
  · rw [hg.1]; exact hres
  · simp [LM.init, call]
  · simp only [LM.init]; omega

/-- The Jacobian of the example below. -/
def exampleJacobian : Mat ℝ 4 7 :=
  !![1, 0, 0, 0, 0, 0, 0;
     0, 1, 0, 0, 0, 0, 0;
     1, 0, -1, 0, 2, 0, 2;
     0, 1, 0, 0, 0, 2, 0]

theorem hcat34 (A : Mat ℝ 2 3) (B : Mat ℝ 2 4) (r : Fin 2) :
    hcat A B r = ![A r 0, A r 1, A r 2, B r 0, B r 1, B r 2, B r 3] := by
  funext j
  fin_cases j <;> rfl

theorem exampleJacobian_eq :
    multiplePointProjectionJacobian (n := 2) ![![0, 0, 0], ![1, 0, 0]] (1 : Mat ℝ 3 3) 0 ![0, 0, 1, 0, 0, 0, 1] = exampleJacobian := by
  have eT : inputT (K := ℝ) (k := 4) ![0, 0, 1, 0, 0, 0, 1] = ![0, 0, 1] := by funext i; fin_cases i <;> rfl
  have eR : inputR (K := ℝ) (k := 4) ![0, 0, 1, 0, 0, 0, 1] = ![0, 0, 0, 1] := by funext i; fin_cases i <;> rfl
  have eM : (Quat.fromVector (![0, 0, 0, 1] : Vec ℝ 4)).toMatrix = 1 := by
    ext i j
    fin_cases i <;> fin_cases j <;> simp [Quat.fromVector, Quat.toMatrix]
  have d0 : FunctionComposition.dehomogenizationJacobian 2 (![0, 0, 1] : Vec ℝ 3) = !![1, 0, 0; 0, 1, 0] := by
    ext i j
    fin_cases i <;> fin_cases j <;> simp [FunctionComposition.dehomogenizationJacobian, Fin.last, Matrix.one_apply]
  have d1 : FunctionComposition.dehomogenizationJacobian 2 (![1, 0, 1] : Vec ℝ 3) = !![1, 0, -1; 0, 1, 0] := by
    ext i j
    fin_cases i <;> fin_cases j <;> simp [FunctionComposition.dehomogenizationJacobian, Fin.last, Matrix.one_apply]
  have r0 : RotationFunction.quaternionRotationJacobian (![0, 0, 0] : Vec ℝ 3) ![0, 0, 0, 1] = 0 := by
    ext i j
    fin_cases i <;> fin_cases j <;> simp [RotationFunction.quaternionRotationJacobian]
  have r1 : RotationFunction.quaternionRotationJacobian (![1, 0, 0] : Vec ℝ 3) ![0, 0, 0, 1] =
      !![0, 0, 0, 2; 0, 0, 2, 0; 0, -2, 0, 0] := by
    ext i j
    fin_cases i <;> fin_cases j <;> simp [RotationFunction.quaternionRotationJacobian]
  have v0 : (![0, 0, 0] : Vec ℝ 3) + ![0, 0, 1] = ![0, 0, 1] := by funext i; fin_cases i <;> simp
  have v1 : (![1, 0, 0] : Vec ℝ 3) + ![0, 0, 1] = ![1, 0, 1] := by funext i; fin_cases i <;> simp
  unfold multiplePointProjectionJacobian
  rw [foldl_setBlock₂]
  simp only [eT, eR, eM, Matrix.one_mulVec, Matrix.mul_one]
  funext i
  fin_cases i
  · simp only [stack2]
    simp [v0, d0, r0]
    funext j
    fin_cases j <;> simp [exampleJacobian, hcat34]
  · simp only [stack2]
    simp [v0, d0, r0]
    funext j
    fin_cases j <;> simp [exampleJacobian, hcat34]
  · simp only [stack2]
    simp [v1, d1, r1]
    funext j
    fin_cases j <;> simp [exampleJacobian, hcat34, Matrix.mul_apply, Fin.sum_univ_three]
  · simp only [stack2]
    simp [v1, d1, r1]
    funext j
    fin_cases j <;> simp [exampleJacobian, hcat34, Matrix.mul_apply, Fin.sum_univ_three]

theorem example_loop (lapack : LM.Lapack (3 + 4)) (hlap : CholeskySolver (lapack .cholesky)) (N fuel : ℕ)
    (hu : UnitInput (![0, 0, 1, 0, 0, 0, 1] : Vec ℝ 7)) :
    loop (call lapack (n := 2) ![![0, 0, 0], ![1, 0, 0]] 1 ![-1, 0, 11, 0] N) ![![0, 0, 0], ![1, 0, 0]] 1 N (fuel + 1)
      (LM.init (call lapack (n := 2) ![![0, 0, 0], ![1, 0, 0]] 1 ![-1, 0, 11, 0] N) ![0, 0, 1, 0, 0, 0, 1]) = some .nan := by
  obtain ⟨c, hc⟩ : ∃ c, call lapack (n := 2) ![![0, 0, 0], ![1, 0, 0]] 1 ![-1, 0, 11, 0] N = c := ⟨_, rfl⟩
  rw [hc]
  set s := LM.init c (![0, 0, 1, 0, 0, 0, 1] : Vec ℝ 7) with hs
  have hJ : s.jacobian = exampleJacobian := by
    rw [← exampleJacobian_eq, hs, ← hc]
    rfl
  have hd : s.diff = ![-1, 0, 10, 0] := by
    have : s.diff = ![-1, 0, 11, 0] - multiplePointProjection ![![0, 0, 0], ![1, 0, 0]] (1 : Mat ℝ 3 3) 0 ![0, 0, 1, 0, 0, 0, 1] := by
      rw [hs, ← hc]
      rfl
    rw [this, C55_point_evaluate _ _ _ _ hu]
    have a : pointProjection (1 : Mat ℝ 3 3) ![0, 0, 0] ![0, 0, 1, 0, 0, 0, 1] = ![0, 0] := by
      unfold pointProjection
      have : (RotationFunction.sandwich ![(![0, 0, 1, 0, 0, 0, 1] : Vec ℝ 7) 3, (![0, 0, 1, 0, 0, 0, 1] : Vec ℝ 7) 4, (![0, 0, 1, 0, 0, 0, 1] : Vec ℝ 7) 5,
          (![0, 0, 1, 0, 0, 0, 1] : Vec ℝ 7) 6] ![0, 0, 0] : Vec ℝ 3) = ![0, 0, 0] := by
        funext i
        fin_cases i <;> simp [RotationFunction.sandwich, Quat.fromVector, Quat.mul, Quat.conj]
      rw [this]
      funext i
      fin_cases i <;> simp [dehom]
    have b : pointProjection (1 : Mat ℝ 3 3) ![1, 0, 0] ![0, 0, 1, 0, 0, 0, 1] = ![1, 0] := by
      unfold pointProjection
      have : (RotationFunction.sandwich ![(![0, 0, 1, 0, 0, 0, 1] : Vec ℝ 7) 3, (![0, 0, 1, 0, 0, 0, 1] : Vec ℝ 7) 4, (![0, 0, 1, 0, 0, 0, 1] : Vec ℝ 7) 5,
          (![0, 0, 1, 0, 0, 0, 1] : Vec ℝ 7) 6] ![1, 0, 0] : Vec ℝ 3) = ![1, 0, 0] := by
        funext i
        fin_cases i <;> simp [RotationFunction.sandwich, Quat.fromVector, Quat.mul, Quat.conj]
      rw [this]
      funext i
      fin_cases i <;> simp [dehom]
    funext r
    fin_cases r
    · change (-1 : ℝ) - pointProjection (1 : Mat ℝ 3 3) ![0, 0, 0] ![0, 0, 1, 0, 0, 0, 1] 0 = -1
      rw [a]; simp
    · change (0 : ℝ) - pointProjection (1 : Mat ℝ 3 3) ![0, 0, 0] ![0, 0, 1, 0, 0, 0, 1] 1 = 0
      rw [a]; simp
    · change (11 : ℝ) - pointProjection (1 : Mat ℝ 3 3) ![1, 0, 0] ![0, 0, 1, 0, 0, 0, 1] 0 = 10
      rw [b]; norm_num
    · change (0 : ℝ) - pointProjection (1 : Mat ℝ 3 3) ![1, 0, 0] ![0, 0, 1, 0, 0, 0, 1] 1 = 0
      rw [b]; simp
  set s1 : LM.St (3 + 4) (2 * 2) := { s with iteration := s.iteration + 1 } with hs1
  have hl : s1.lambda = 1 := by rw [hs1, hs, ← hc]; rfl
  have hsol : (LM.normalMatrix s1) *ᵥ ![0, 0, -1, 0, 2, 0, 2] = LM.rhs s1 := by
    unfold LM.normalMatrix LM.rhs
    have e1 : s1.jacobian = exampleJacobian := hJ
    have e2 : s1.diff = ![-1, 0, 10, 0] := hd
    rw [e1, e2, hl, Matrix.add_mulVec, ← Matrix.mulVec_mulVec]
    have a : exampleJacobian *ᵥ ![0, 0, -1, 0, 2, 0, 2] = ![0, 0, 9, 0] := by
      funext i
      fin_cases i <;> simp [exampleJacobian] <;> norm_num
    have b : (Matrix.diagonal fun _ : Fin (3 + 4) => (1 : ℝ)) *ᵥ ![0, 0, -1, 0, 2, 0, 2] = ![0, 0, -1, 0, 2, 0, 2] := by
      rw [Matrix.diagonal_one, Matrix.one_mulVec]
    have c : exampleJacobianᵀ *ᵥ ![-1, 0, 1, 0] = ![0, 0, -1, 0, 2, 0, 2] := by
      funext i
      fin_cases i <;> simp [exampleJacobian, Matrix.mulVec, dotProduct, Fin.sum_univ_four]
    have d : (![-1, 0, 10, 0] : Vec ℝ 4) = ![0, 0, 9, 0] + ![-1, 0, 1, 0] := by
      funext i
      fin_cases i <;> simp; norm_num
    rw [a, d]
    refine Eq.trans ?_ (Matrix.mulVec_add _ _ _).symm
    rw [c]
    congr 1
  obtain ⟨δ, h1, h2⟩ := hlap (LM.normalMatrix s1) (LM.rhs s1) (normal_posDef s1 (by rw [hl]; norm_num))
  have hδ : δ = ![0, 0, -1, 0, 2, 0, 2] := posDef_inj (normal_posDef s1 (by rw [hl]; norm_num)) (h2.trans hsol.symm)
  have hR : inputR (s.params + δ) = ![0, 2, 0, 3] := by
    rw [hδ]
    funext i
    fin_cases i
    · change (0 : ℝ) + 0 = 0
      norm_num
    · change (0 : ℝ) + 2 = 2
      norm_num
    · change (0 : ℝ) + 0 = 0
      norm_num
    · change (1 : ℝ) + 2 = 3
      norm_num
  have hT : inputT (s.params + δ) = 0 := by
    rw [hδ]
    funext i
    fin_cases i
    · change (0 : ℝ) + 0 = 0
      norm_num
    · change (0 : ℝ) + 0 = 0
      norm_num
    · change (1 : ℝ) + -1 = 0
      norm_num
  obtain ⟨x, hx⟩ : ∃ x, PlanarPose.projectivePoseNormalize (s.params + δ) = some x :=
    (PlanarPose.C78_normalize _ ⟨1, by rw [hR]; simp⟩).imp fun _ h => h.1
  have hxT : inputT x = 0 := by
    unfold PlanarPose.projectivePoseNormalize at hx
    simp only [hT] at hx
    split_ifs at hx
    cases hx
    funext i
    simp [inputT]
  have hnan : kind ![![0, 0, 0], ![1, 0, 0]] (1 : Mat ℝ 3 3) x = .nan := by
    unfold kind
    rw [if_pos]
    refine ⟨0, ?_⟩
    have : projected ![![0, 0, 0], ![1, 0, 0]] (1 : Mat ℝ 3 3) x 0 = 0 := by
      unfold projected
      rw [hxT]
      have : (![![0, 0, 0], ![1, 0, 0]] : Fin 2 → Vec ℝ 3) 0 = 0 := by funext i; fin_cases i <;> rfl
      rw [this]
      simp
    rw [this]
    simp [pointKind]
  have e1 : c.lapack s.solver (LM.normalMatrix s1) (LM.rhs s1) = some δ := by
    rw [← h1, hs, ← hc]
    rfl
  unfold loop
  rw [pass_of_solution e1 hx, hnan]

/-- **C95** Refuted: "a valid pose and finite measurements give a valid pose". There are a pose, two points in front of the camera and
their measurements for which the first step of the optimiser, solved exactly, moves the first point into the centre of the camera.
Its image is zero over zero, and the comparison with NaN does not reject the step: pose and residual are NaN, for every number of
iterations. -/
theorem C95_nan_refuted : ∃ (p : Pose ℝ) (p2D : List (Vec ℝ 2)) (p3D : List (Vec ℝ 3)) (cam : Mat ℝ 3 3),
    UnitQ p.rotation ∧ p2D.length = p3D.length ∧ (∀ x ∈ p3D, 0 < seen cam p x 2) ∧
    ∀ lapack : LM.Lapack (3 + 4), CholeskySolver (lapack .cholesky) → ∀ N fuel,
      optimizePose lapack p p2D p3D cam N (fuel + 1) = some (some .nan) := by
  refine ⟨⟨⟨0, 0, 0, 1⟩, ![0, 0, 1]⟩, [![-1, 0], ![11, 0]], [![0, 0, 0], ![1, 0, 0]], 1, by norm_num [UnitQ], rfl, ?_, ?_⟩
  · intro x hx
    simp only [List.mem_cons, List.not_mem_nil, or_false] at hx
    rcases hx with rfl | rfl <;> simp [seen, Quat.rotate]
  · intro lapack hlap N fuel
    set p : Pose ℝ := ⟨⟨0, 0, 0, 1⟩, ![0, 0, 1]⟩ with hp
    have hx0 : p.toVector = ![0, 0, 1, 0, 0, 0, 1] := by
      simp [hp, Pose.toVector, Quat.toVector]
    have hup : UnitQ p.rotation := by norm_num [UnitQ, hp]
    have hk : kind [![0, 0, 0], ![1, 0, 0]].get (1 : Mat ℝ 3 3) p.toVector = .finite := by
      rw [kind_start hup]
      intro x hx
      simp only [List.mem_cons, List.not_mem_nil, or_false] at hx
      rcases hx with rfl | rfl <;> simp [seen, Quat.rotate, hp]
    have hu : UnitInput (![0, 0, 1, 0, 0, 0, 1] : Vec ℝ 7) := by
      rw [← hx0, unit_pose, toVector_fromVector]; exact hup
    have hget : [![0, 0, 0], ![1, 0, 0]].get = (![![0, 0, 0], ![1, 0, 0]] : Fin 2 → Vec ℝ 3) := by
      funext i
      fin_cases i <;> rfl
    unfold optimizePose
    have hlen : ([![-1, 0], ![11, 0]] : List (Vec ℝ 2)).length = ([![0, 0, 0], ![1, 0, 0]] : List (Vec ℝ 3)).length := rfl
    rw [dif_pos hlen]
    dsimp only
    rw [hk]
    simp only [Option.some.injEq]
    have hz : (fun r : Fin (2 * 2) => measurements [![-1, 0], ![11, 0]] (r.cast rfl)) = ![-1, 0, 11, 0] := by
      funext r
      rw [measurements_eq [![-1, 0], ![11, 0]] rfl r]
      fin_cases r <;> rfl
    change loop (call lapack (n := 2) [![0, 0, 0], ![1, 0, 0]].get 1 (fun r => measurements [![-1, 0], ![11, 0]] (r.cast rfl)) N)
      [![0, 0, 0], ![1, 0, 0]].get 1 N (fuel + 1)
      (LM.init (call lapack (n := 2) [![0, 0, 0], ![1, 0, 0]].get 1 (fun r => measurements [![-1, 0], ![11, 0]] (r.cast rfl)) N)
        p.toVector) = _
    rw [hz, hget, hx0]
    exact example_loop lapack hlap N fuel hu

/-- The inverse is a solver as it is required above. -/
theorem exists_choleskySolver (n : ℕ) : CholeskySolver (fun (A : Mat ℝ n n) b => some (A⁻¹ *ᵥ b)) := by
  intro A b hA
  refine ⟨_, rfl, ?_⟩
  rw [Matrix.mulVec_mulVec, Matrix.mul_nonsing_inv A (Matrix.isUnit_iff_isUnit_det A |>.mp hA.isUnit), Matrix.one_mulVec]

theorem stepJacobian_eq :
    multiplePointProjectionJacobian (n := 1) ![![0, 0, 0]] (1 : Mat ℝ 3 3) 0 ![0, 0, 1, 0, 0, 0, 1] =
      !![1, 0, 0, 0, 0, 0, 0; 0, 1, 0, 0, 0, 0, 0] := by
  have eT : inputT (K := ℝ) (k := 4) ![0, 0, 1, 0, 0, 0, 1] = ![0, 0, 1] := by funext i; fin_cases i <;> rfl
  have eR : inputR (K := ℝ) (k := 4) ![0, 0, 1, 0, 0, 0, 1] = ![0, 0, 0, 1] := by funext i; fin_cases i <;> rfl
  have eM : (Quat.fromVector (![0, 0, 0, 1] : Vec ℝ 4)).toMatrix = 1 := by
    ext i j
    fin_cases i <;> fin_cases j <;> simp [Quat.fromVector, Quat.toMatrix]
  have d0 : FunctionComposition.dehomogenizationJacobian 2 (![0, 0, 1] : Vec ℝ 3) = !![1, 0, 0; 0, 1, 0] := by
    ext i j
    fin_cases i <;> fin_cases j <;> simp [FunctionComposition.dehomogenizationJacobian, Fin.last, Matrix.one_apply]
  have r0 : RotationFunction.quaternionRotationJacobian (![0, 0, 0] : Vec ℝ 3) ![0, 0, 0, 1] = 0 := by
    ext i j
    fin_cases i <;> fin_cases j <;> simp [RotationFunction.quaternionRotationJacobian]
  have v0 : (![0, 0, 0] : Vec ℝ 3) + ![0, 0, 1] = ![0, 0, 1] := by funext i; fin_cases i <;> simp
  unfold multiplePointProjectionJacobian
  rw [foldl_setBlock₂]
  simp only [eT, eR, eM, Matrix.one_mulVec, Matrix.mul_one]
  funext i
  fin_cases i
  · simp only [stack2]
    simp [v0, d0, r0]
    funext j
    fin_cases j <;> simp [hcat34]
  · simp only [stack2]
    simp [v0, d0, r0]
    funext j
    fin_cases j <;> simp [hcat34]

theorem step_projection (a : ℝ) : pointProjection (1 : Mat ℝ 3 3) ![0, 0, 0] ![a, 0, 1, 0, 0, 0, 1] = ![a, 0] := by
  unfold pointProjection
  have : (RotationFunction.sandwich ![(![a, 0, 1, 0, 0, 0, 1] : Vec ℝ 7) 3, (![a, 0, 1, 0, 0, 0, 1] : Vec ℝ 7) 4, (![a, 0, 1, 0, 0, 0, 1] : Vec ℝ 7) 5,
      (![a, 0, 1, 0, 0, 0, 1] : Vec ℝ 7) 6] ![0, 0, 0] : Vec ℝ 3) = ![0, 0, 0] := by
    funext i
    fin_cases i <;> simp [RotationFunction.sandwich, Quat.fromVector, Quat.mul, Quat.conj]
  rw [this]
  funext i
  fin_cases i <;> simp [dehom]

theorem step_diff (a : ℝ) (hu : UnitInput (![a, 0, 1, 0, 0, 0, 1] : Vec ℝ 7)) :
    ![1, 0] - multiplePointProjection ![![0, 0, 0]] (1 : Mat ℝ 3 3) 0 ![a, 0, 1, 0, 0, 0, 1] = ![1 - a, 0] := by
  rw [C55_point_evaluate _ _ _ _ hu]
  funext r
  fin_cases r
  · change (1 : ℝ) - pointProjection (1 : Mat ℝ 3 3) ![0, 0, 0] ![a, 0, 1, 0, 0, 0, 1] 0 = 1 - a
    rw [step_projection]; simp
  · change (0 : ℝ) - pointProjection (1 : Mat ℝ 3 3) ![0, 0, 0] ![a, 0, 1, 0, 0, 0, 1] 1 = 0
    rw [step_projection]; simp

theorem step_loop (lapack : LM.Lapack (3 + 4)) (hlap : CholeskySolver (lapack .cholesky))
    (hu : ∀ a : ℝ, UnitInput (![a, 0, 1, 0, 0, 0, 1] : Vec ℝ 7)) :
    loop (call lapack (n := 1) ![![0, 0, 0]] 1 ![1, 0] 1) ![![0, 0, 0]] 1 1 1
      (LM.init (call lapack (n := 1) ![![0, 0, 0]] 1 ![1, 0] 1) ![0, 0, 1, 0, 0, 0, 1]) =
      some (.ok ⟨⟨0, 0, 0, 1⟩, ![1 / 2, 0, 1]⟩ (1 / 4)) := by
  obtain ⟨c, hc⟩ : ∃ c, call lapack (n := 1) ![![0, 0, 0]] 1 ![1, 0] 1 = c := ⟨_, rfl⟩
  rw [hc]
  set s := LM.init c (![0, 0, 1, 0, 0, 0, 1] : Vec ℝ 7) with hs
  have hJ : s.jacobian = !![1, 0, 0, 0, 0, 0, 0; 0, 1, 0, 0, 0, 0, 0] := by
    rw [← stepJacobian_eq, hs, ← hc]
    rfl
  have hd : s.diff = ![1, 0] := by
    have : s.diff = ![1, 0] - multiplePointProjection ![![0, 0, 0]] (1 : Mat ℝ 3 3) 0 ![0, 0, 1, 0, 0, 0, 1] := by
      rw [hs, ← hc]
      rfl
    rw [this, step_diff 0 (hu 0), sub_zero]
  set s1 : LM.St (3 + 4) (2 * 1) := { s with iteration := s.iteration + 1 } with hs1
  have hl : s1.lambda = 1 := by rw [hs1, hs, ← hc]; rfl
  have hsol : (LM.normalMatrix s1) *ᵥ ![1 / 2, 0, 0, 0, 0, 0, 0] = LM.rhs s1 := by
    unfold LM.normalMatrix LM.rhs
    have e1 : s1.jacobian = !![1, 0, 0, 0, 0, 0, 0; 0, 1, 0, 0, 0, 0, 0] := hJ
    have e2 : s1.diff = ![1, 0] := hd
    rw [e1, e2, hl, Matrix.add_mulVec, ← Matrix.mulVec_mulVec, Matrix.diagonal_one, Matrix.one_mulVec]
    funext i
    fin_cases i <;> simp [Matrix.mulVec, dotProduct, Fin.sum_univ_succ]
    norm_num
  obtain ⟨δ, h1, h2⟩ := hlap (LM.normalMatrix s1) (LM.rhs s1) (normal_posDef s1 (by rw [hl]; norm_num))
  have hδ : δ = ![1 / 2, 0, 0, 0, 0, 0, 0] := posDef_inj (normal_posDef s1 (by rw [hl]; norm_num)) (h2.trans hsol.symm)
  have hx : s.params + δ = ![1 / 2, 0, 1, 0, 0, 0, 1] := by
    rw [hδ]
    have : s.params = ![0, 0, 1, 0, 0, 0, 1] := by rw [hs]; rfl
    rw [this]
    funext i
    fin_cases i <;> simp
  have hn : PlanarPose.projectivePoseNormalize (s.params + δ) = some ![1 / 2, 0, 1, 0, 0, 0, 1] := by
    rw [hx]
    exact normalize_of_unit (hu _)
  have hfin : kind ![![0, 0, 0]] (1 : Mat ℝ 3 3) (![1 / 2, 0, 1, 0, 0, 0, 1] : Vec ℝ 7) = .finite := by
    rw [kind_finite]
    intro i
    fin_cases i
    unfold projected
    have : inputT (K := ℝ) (k := 4) ![1 / 2, 0, 1, 0, 0, 0, 1] = ![1 / 2, 0, 1] := by funext i; fin_cases i <;> rfl
    rw [this]
    have e : (![![0, 0, 0]] : Fin 1 → Vec ℝ 3) ⟨0, by norm_num⟩ = 0 := by funext i; fin_cases i <;> rfl
    simp only [e]
    simp
  have e1 : c.lapack s.solver (LM.normalMatrix s1) (LM.rhs s1) = some δ := by
    rw [← h1, hs, ← hc]
    rfl
  have hnew : c.normalize (s1.params + δ) = ![1 / 2, 0, 1, 0, 0, 0, 1] := by
    have : c.normalize (s1.params + δ) = (PlanarPose.projectivePoseNormalize (s.params + δ)).getD (s.params + δ) := by rw [← hc]; rfl
    rw [this, hn, Option.getD_some]
  have hdiff : c.measurement - (c.problem ![1 / 2, 0, 1, 0, 0, 0, 1]).1 = ![1 / 2, 0] := by
    have : c.measurement - (c.problem ![1 / 2, 0, 1, 0, 0, 0, 1]).1 =
        ![1, 0] - multiplePointProjection ![![0, 0, 0]] (1 : Mat ℝ 3 3) 0 ![1 / 2, 0, 1, 0, 0, 0, 1] := by rw [← hc]; rfl
    rw [this, step_diff _ (hu _)]
    norm_num
  have hprev : s1.errPrev = 1 := by
    have : s1.errPrev = LM.innerSelf s.diff := by rw [hs1, hs]; rfl
    rw [this, hd]
    simp [LM.innerSelf]
  have hw : c.weight = none := by rw [← hc]; rfl
  obtain ⟨s2, hstep, hp2, hr2⟩ : ∃ s2, LM.evaluateStep c s1 δ = .next s2 true ∧ s2.params = ![1 / 2, 0, 1, 0, 0, 0, 1] ∧ s2.errPrev = 1 / 4 := by
    unfold LM.evaluateStep
    simp only [hnew, hdiff, hw, hprev]
    have he : LM.innerSelf (LM.weightedDiff (m := 2) none ![1 / 2, 0]) = 1 / 4 := by
      simp [LM.innerSelf, LM.weightedDiff]
      norm_num
    have ht : c.terminate s1.iteration (1 / 4) 1 = true := by
      rw [← hc]
      simp [call, LM.optTerminate, hs1]
    rw [he, ht, if_neg (by norm_num)]
    exact ⟨_, rfl, rfl, rfl⟩
  unfold loop
  rw [pass_of_solution e1 hn, hfin]
  simp only [← hs1, hstep, hp2, hr2]
  refine congrArg some ?_
  simp [Pose.fromVector, Quat.fromVector]

/-- A step that improves the pose: one point, seen in the middle of the image and measured beside it. -/
example (lapack : LM.Lapack (3 + 4)) (hlap : CholeskySolver (lapack .cholesky)) :
    optimizePose lapack ⟨⟨0, 0, 0, 1⟩, ![0, 0, 1]⟩ [![1, 0]] [![0, 0, 0]] 1 1 1 = some (some (.ok ⟨⟨0, 0, 0, 1⟩, ![1 / 2, 0, 1]⟩ (1 / 4))) := by
  have hu : ∀ a : ℝ, UnitInput (![a, 0, 1, 0, 0, 0, 1] : Vec ℝ 7) := by
    intro a
    have : (![a, 0, 1, 0, 0, 0, 1] : Vec ℝ 7) = (⟨⟨0, 0, 0, 1⟩, ![a, 0, 1]⟩ : Pose ℝ).toVector := by
      simp [Pose.toVector, Quat.toVector]
    rw [this, unit_pose, toVector_fromVector]
    norm_num [UnitQ]
  set p : Pose ℝ := ⟨⟨0, 0, 0, 1⟩, ![0, 0, 1]⟩ with hp
  have hx0 : p.toVector = ![0, 0, 1, 0, 0, 0, 1] := by
    simp [hp, Pose.toVector, Quat.toVector]
  have hk : kind [![0, 0, 0]].get (1 : Mat ℝ 3 3) p.toVector = .finite := by
    rw [kind_start (by norm_num [UnitQ, hp])]
    intro x hx
    simp only [List.mem_cons, List.not_mem_nil, or_false] at hx
    rw [hx]
    simp [seen, Quat.rotate, hp]
  have hget : [![0, 0, 0]].get = (![![0, 0, 0]] : Fin 1 → Vec ℝ 3) := by
    funext i
    fin_cases i
    rfl
  unfold optimizePose
  have hlen : ([![1, 0]] : List (Vec ℝ 2)).length = ([![0, 0, 0]] : List (Vec ℝ 3)).length := rfl
  rw [dif_pos hlen]
  dsimp only
  rw [hk]
  simp only [Option.some.injEq]
  have hz : (fun r : Fin (2 * 1) => measurements [![1, 0]] (r.cast rfl)) = ![1, 0] := by
    funext r
    rw [measurements_eq [![1, 0]] rfl r]
    fin_cases r <;> rfl
  change loop (call lapack (n := 1) [![0, 0, 0]].get 1 (fun r => measurements [![1, 0]] (r.cast rfl)) 1)
    [![0, 0, 0]].get 1 1 1
    (LM.init (call lapack (n := 1) [![0, 0, 0]].get 1 (fun r => measurements [![1, 0]] (r.cast rfl)) 1) p.toVector) = _
  rw [hz, hget, hx0]
  exact step_loop lapack hlap hu

/-- The hypotheses of C95_exact: the corners of a square in front of the camera, with a solver that inverts the matrix. -/
example : optimizePose (fun _ A b => some (A⁻¹ *ᵥ b)) ⟨⟨0, 0, 0, 1⟩, ![0, 0, 2]⟩
    ([![1, 1, 0], ![-1, 1, 0], ![1, -1, 0], ![-1, -1, 0]].map (image 1 ⟨⟨0, 0, 0, 1⟩, ![0, 0, 2]⟩))
    [![1, 1, 0], ![-1, 1, 0], ![1, -1, 0], ![-1, -1, 0]] 1 6 7 = some (some (.ok ⟨⟨0, 0, 0, 1⟩, ![0, 0, 2]⟩ 0)) := by
  refine C95_exact _ (exists_choleskySolver 7) _ (by norm_num [UnitQ]) _ _ ?_ 6 7 (by norm_num) (by norm_num)
  intro x hx
  simp only [List.mem_cons, List.not_mem_nil, or_false] at hx
  rcases hx with rfl | rfl | rfl | rfl <;> simp [seen, Quat.rotate]

end Ubitrack.PoseOptimization
