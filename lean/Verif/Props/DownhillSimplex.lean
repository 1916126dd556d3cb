import Verif.Model.DownhillSimplex
import Verif.Model.LevenbergMarquardt
import Mathlib.Tactic.Linarith
import Mathlib.Tactic.Abel
import Mathlib.Tactic.Ring
import Mathlib.Algebra.BigOperators.Fin

/-!
# C24: downhill simplex
-/

namespace Ubitrack.Simplex

variable {n k : ℕ}

/-- The bookkeeping is right: stored values are those of the stored vertices, and the vertex sum is exact. -/
def Sound (c : Call n k) (s : St n) : Prop :=
  (∀ i, s.y i = value c (s.p i)) ∧ s.psum = ∑ i, s.p i

theorem sumRows_eq (p : Fin (n + 2) → Vec ℝ (n + 1)) : sumRows p = ∑ i, p i := by
  have key : ∀ (l : List (Fin (n + 1))) (a : Vec ℝ (n + 1)),
      l.foldl (fun acc i => acc + p i.succ) a = a + (l.map (fun i => p i.succ)).sum := by
    intro l
    induction l with
    | nil => intro a; simp
    | cons x xs ih => intro a; simp [ih, add_assoc]
  unfold sumRows
  rw [key, Fin.sum_univ_succ, Fin.sum_univ_def]

theorem init_sound (c : Call n k) (x : Vec ℝ (n + 1)) : Sound c (init c x) :=
  ⟨fun _ => rfl, sumRows_eq _⟩

theorem sum_update (p : Fin (n + 2) → Vec ℝ (n + 1)) (i : Fin (n + 2)) (v : Vec ℝ (n + 1)) :
    ∑ j, Function.update p i v j = ∑ j, p j + (v - p i) := by
  rw [Finset.sum_update_of_mem (Finset.mem_univ i), ← Finset.add_sum_erase Finset.univ p (Finset.mem_univ i),
    Finset.sdiff_singleton_eq_erase]
  abel

theorem tryPoint_sound (c : Call n k) (s : St n) (ihi : Fin (n + 2)) (fac : ℝ) (h : Sound c s) :
    Sound c (tryPoint c s ihi fac).1 ∧ (∀ i, (tryPoint c s ihi fac).1.y i ≤ s.y i) ∧
      (tryPoint c s ihi fac).1.nfunk = s.nfunk := by
  unfold tryPoint
  dsimp only
  split_ifs with hlt
  · refine ⟨⟨?_, ?_⟩, ?_, rfl⟩
    · intro i
      by_cases hi : i = ihi
      · subst hi; simp
      · simp [Function.update_of_ne hi, h.1 i]
    · dsimp only
      rw [sum_update, h.2]
    · intro i
      by_cases hi : i = ihi
      · subst hi; simpa using hlt.le
      · simp [Function.update_of_ne hi]
  · exact ⟨h, fun _ => le_rfl, rfl⟩

theorem contractStep_inv (c : Call n k) (ilo : Fin (n + 2)) (s : St n) (i : Fin (n + 2))
    (h : ∀ i, s.y i = value c (s.p i)) :
    (∀ j, (contractStep c ilo s i).y j = value c ((contractStep c ilo s i).p j)) ∧
      (contractStep c ilo s i).y ilo = s.y ilo := by
  unfold contractStep
  split_ifs with hi
  · refine ⟨?_, ?_⟩
    · intro j
      by_cases hj : j = i
      · subst hj; simp
      · simp [Function.update_of_ne hj, h j]
    · simp [Function.update_of_ne (Ne.symm hi)]
  · exact ⟨h, rfl⟩

theorem contract_sound (c : Call n k) (ilo : Fin (n + 2)) (s : St n) (h : Sound c s) :
    Sound c (contract c ilo s) ∧ (contract c ilo s).y ilo = s.y ilo := by
  have key : ∀ (l : List (Fin (n + 2))) (s : St n), (∀ i, s.y i = value c (s.p i)) →
      (∀ j, (l.foldl (contractStep c ilo) s).y j = value c ((l.foldl (contractStep c ilo) s).p j)) ∧
      (l.foldl (contractStep c ilo) s).y ilo = s.y ilo := by
    intro l
    induction l with
    | nil => intro s h; exact ⟨h, rfl⟩
    | cons x xs ih =>
      intro s h
      obtain ⟨h1, h2⟩ := contractStep_inv c ilo s x h
      obtain ⟨h3, h4⟩ := ih _ h1
      exact ⟨h3, h4.trans h2⟩
  obtain ⟨h1, h2⟩ := key (List.finRange (n + 2)) s h.1
  exact ⟨⟨h1, sumRows_eq _⟩, h2⟩

theorem improve_sound (c : Call n k) (s : St n) (ix : Idx n) (h : Sound c s) :
    Sound c (improve c s ix) ∧ (improve c s ix).y ix.ilo ≤ s.y ix.ilo := by
  have h0 : Sound c { s with nfunk := s.nfunk + 2 } := h
  unfold improve
  dsimp only
  obtain ⟨a1, a2, -⟩ := tryPoint_sound c _ ix.ihi (-1) h0
  split_ifs with c1 c2 c3
  · obtain ⟨b1, b2, -⟩ := tryPoint_sound c _ ix.ihi 2 a1
    exact ⟨b1, (b2 _).trans (a2 _)⟩
  · obtain ⟨b1, b2, -⟩ := tryPoint_sound c _ ix.ihi 0.5 a1
    obtain ⟨d1, d2⟩ := contract_sound c ix.ilo _ b1
    exact ⟨d1, by rw [d2]; exact (b2 _).trans (a2 _)⟩
  · obtain ⟨b1, b2, -⟩ := tryPoint_sound c _ ix.ihi 0.5 a1
    exact ⟨b1, (b2 _).trans (a2 _)⟩
  · exact ⟨a1, a2 _⟩

/-! ### The index search -/

/-- Invariant of the index search after looking at the vertices in `seen`. -/
def Found (y : Fin (n + 2) → ℝ) (seen : List (Fin (n + 2))) (s : Idx n) : Prop :=
  s.ihi ≠ s.inhi ∧ y s.inhi ≤ y s.ihi ∧
  ∀ i ∈ seen, y s.ilo ≤ y i ∧ y i ≤ y s.ihi ∧ (i ≠ s.ihi → y i ≤ y s.inhi)

theorem findStep_inv (y : Fin (n + 2) → ℝ) (seen : List (Fin (n + 2))) (s : Idx n) (i : Fin (n + 2))
    (h : Found y seen s) : Found y (seen ++ [i]) (findStep y s i) := by
  obtain ⟨h1, h2, h3⟩ := h
  have hlo : y (if y i ≤ y s.ilo then i else s.ilo) ≤ y i ∧ y (if y i ≤ y s.ilo then i else s.ilo) ≤ y s.ilo := by
    split_ifs with hc
    · exact ⟨le_rfl, hc⟩
    · exact ⟨(not_le.mp hc).le, le_rfl⟩
  unfold findStep
  dsimp only
  generalize (if y i ≤ y s.ilo then i else s.ilo) = il at hlo ⊢
  split_ifs with c1 c2
  · refine ⟨fun e => by simp only at e; rw [e] at c1; exact lt_irrefl _ c1, c1.le, ?_⟩
    intro j hj
    rw [List.mem_append, List.mem_singleton] at hj
    rcases hj with hj | rfl
    · obtain ⟨a, b, d⟩ := h3 j hj
      exact ⟨hlo.2.trans a, b.trans c1.le, fun _ => b⟩
    · exact ⟨hlo.1, le_rfl, fun hne => absurd rfl hne⟩
  · refine ⟨fun e => c2.2 e.symm, not_lt.mp c1, ?_⟩
    intro j hj
    rw [List.mem_append, List.mem_singleton] at hj
    rcases hj with hj | rfl
    · obtain ⟨a, b, d⟩ := h3 j hj
      exact ⟨hlo.2.trans a, b, fun hne => (d hne).trans c2.1.le⟩
    · exact ⟨hlo.1, not_lt.mp c1, fun _ => le_rfl⟩
  · refine ⟨h1, h2, ?_⟩
    intro j hj
    rw [List.mem_append, List.mem_singleton] at hj
    rcases hj with hj | rfl
    · obtain ⟨a, b, d⟩ := h3 j hj
      exact ⟨hlo.2.trans a, b, d⟩
    · refine ⟨hlo.1, not_lt.mp c1, fun hne => ?_⟩
      by_contra hc
      exact c2 ⟨not_le.mp hc, hne⟩

/-- **C24** The index search finds a lowest vertex, a highest vertex, and another vertex that is the highest
among the rest. -/
theorem C24_indices (y : Fin (n + 2) → ℝ) :
    let ix := findIdx y
    (∀ i, y ix.ilo ≤ y i) ∧ (∀ i, y i ≤ y ix.ihi) ∧ ix.inhi ≠ ix.ihi ∧ (∀ i ≠ ix.ihi, y i ≤ y ix.inhi) := by
  have key : ∀ (l seen : List (Fin (n + 2))) (s : Idx n), Found y seen s →
      Found y (seen ++ l) (l.foldl (findStep y) s) := by
    intro l
    induction l with
    | nil => intro seen s h; simpa using h
    | cons x xs ih =>
      intro seen s h
      have := ih (seen ++ [x]) _ (findStep_inv y seen s x h)
      simpa using this
  have h0 : Found y [] (if y 0 > y 1 then (⟨0, 0, 1⟩ : Idx n) else ⟨0, 1, 0⟩) := by
    split_ifs with hc
    · exact ⟨by simp, hc.le, by simp⟩
    · exact ⟨by simp, not_lt.mp hc, by simp⟩
  obtain ⟨h1, h2, h3⟩ := key (List.finRange (n + 2)) [] _ h0
  exact ⟨fun i => (h3 i (by simp)).1, fun i => (h3 i (by simp)).2.1, Ne.symm h1,
    fun i hi => (h3 i (by simp)).2.2 hi⟩

/-- The states the main loop passes through. -/
inductive Reachable (c : Call n k) (x0 : Vec ℝ (n + 1)) : St n → Prop
  | init : Reachable c x0 (init c x0)
  | step {s : St n} : Reachable c x0 s → Reachable c x0 (improve c s (findIdx s.y))

/-- **C24** In every state the minimisation passes through: each stored value is the function value of the
stored vertex, the vertex sum is exact, and the best vertex is at least as good as every initial vertex. -/
theorem C24_invariant (c : Call n k) (x0 : Vec ℝ (n + 1)) (s : St n) (h : Reachable c x0 s) :
    (∀ i, s.y i = value c (s.p i)) ∧ s.psum = ∑ i, s.p i ∧
      ∀ i, ∃ j, s.y j ≤ value c (initVertices c x0 i) := by
  have : Sound c s ∧ ∀ i, ∃ j, s.y j ≤ value c (initVertices c x0 i) := by
    induction h with
    | init => exact ⟨init_sound c x0, fun i => ⟨i, le_rfl⟩⟩
    | step hr ih =>
      rename_i s
      obtain ⟨h1, h2⟩ := ih
      obtain ⟨h3, h4⟩ := improve_sound c s (findIdx s.y) h1
      refine ⟨h3, fun i => ⟨(findIdx s.y).ilo, ?_⟩⟩
      obtain ⟨j, hj⟩ := h2 i
      exact (h4.trans ((C24_indices s.y).1 j)).trans hj
  exact ⟨this.1.1, this.1.2, this.2⟩

/-- The distance of what is evaluated at `x` from the measurement. -/
noncomputable def residual (c : Call n k) (x : Vec ℝ (n + 1)) : ℝ := Real.sqrt (∑ i, (c.evaluate x i - c.measurement i) ^ 2)

theorem value_eq (c : Call n k) (x : Vec ℝ (n + 1)) : value c x = residual c x := rfl

/-- **C24** Whenever the minimiser returns, the returned value is the distance from the measurement at the returned point, and
is not larger than that of any initial vertex, in particular of the initial parameters. -/
theorem C24_result (c : Call n k) (x0 x : Vec ℝ (n + 1)) (r : ℝ) (fuel : ℕ)
    (h : downhillSimplex c x0 fuel = some (x, r)) :
    r = residual c x ∧ r ≤ residual c x0 ∧ ∀ i, r ≤ residual c (initVertices c x0 i) := by
  have key : ∀ (fuel : ℕ) (s : St n), Reachable c x0 s → loop c fuel s = some (x, r) →
      r = value c x ∧ ∀ i, r ≤ value c (initVertices c x0 i) := by
    intro fuel
    induction fuel with
    | zero => intro s _ h; simp [loop] at h
    | succ f ih =>
      intro s hs h
      unfold loop at h
      dsimp only at h
      split_ifs at h with ht
      · simp only [Option.some.injEq, Prod.mk.injEq] at h
        obtain ⟨rfl, rfl⟩ := h
        obtain ⟨h1, h2, h3⟩ := C24_invariant c x0 s hs
        refine ⟨h1 _, fun i => ?_⟩
        obtain ⟨j, hj⟩ := h3 i
        exact ((C24_indices s.y).1 j).trans hj
      · exact ih _ (.step hs) h
  obtain ⟨h1, h2⟩ := key fuel _ .init h
  simp only [value_eq] at h1 h2
  exact ⟨h1, h2 0, h2⟩

/-- **C24** With a positive evaluation limit the minimiser stops: each pass adds at least 1 to the counter. -/
theorem C24_terminates (c : Call n k) (x0 : Vec ℝ (n + 1)) (M : ℕ) (hM : 0 < M) (p : ℝ)
    (hterm : c.terminate = LM.optTerminate M p) : downhillSimplex c x0 (M + 1) ≠ none := by
  have hcontract : ∀ (ilo : Fin (n + 2)) (l : List (Fin (n + 2))) (s : St n),
      (l.foldl (contractStep c ilo) s).nfunk = s.nfunk := by
    intro ilo l
    induction l with
    | nil => intro s; rfl
    | cons x xs ih =>
      intro s
      rw [List.foldl_cons, ih]
      unfold contractStep
      split_ifs <;> rfl
  have htry : ∀ (s : St n) ihi fac, (tryPoint c s ihi fac).1.nfunk = s.nfunk := by
    intro s ihi fac
    unfold tryPoint
    dsimp only
    split_ifs <;> rfl
  have himp : ∀ (s : St n) ix, (improve c s ix).nfunk ≥ s.nfunk + 1 := by
    intro s ix
    unfold improve
    dsimp only
    split_ifs
    · rw [htry, htry]; simp
    · unfold contract
      dsimp only
      rw [hcontract, htry, htry]
      dsimp only
      omega
    · rw [htry, htry]; simp
    · rw [htry]; simp
  have key : ∀ (fuel : ℕ) (s : St n), s.nfunk + fuel ≥ M + 1 → loop c fuel s ≠ none ∨ fuel = 0 := by
    intro fuel
    induction fuel with
    | zero => intro s _; exact Or.inr rfl
    | succ f ih =>
      intro s hs
      left
      unfold loop
      dsimp only
      split_ifs with ht
      · simp
      · have hlt : s.nfunk < M := by
          by_contra hge
          apply ht
          rw [hterm]
          unfold LM.optTerminate
          exact decide_eq_true (Or.inl ⟨hM, by omega⟩)
        have := himp s (findIdx s.y)
        rcases ih (improve c s (findIdx s.y)) (by omega) with h | h
        · exact h
        · omega
  rcases key (M + 1) (init c x0) (by simp [init]) with h | h
  · exact h
  · omega

/-! ### Zero coordinates never move -/

/-- **C24 (finding)** The initial vertices are spread by scaling each coordinate. A coordinate that is 0 at the start
is 0 in all vertices and (without normalisation) can never change: whatever the function and however long it
runs, the minimiser returns a point with this coordinate 0. -/
theorem C24_zero_coordinate_stuck (c : Call n k) (hnorm : ∀ x, c.normalize x = x) (x0 : Vec ℝ (n + 1)) (d : Fin (n + 1))
    (h0 : x0 d = 0) (fuel : ℕ) (x : Vec ℝ (n + 1)) (r : ℝ) (h : downhillSimplex c x0 fuel = some (x, r)) : x d = 0 := by
  have hinit : ∀ i, initVertices c x0 i d = 0 := by
    intro i
    refine Fin.cases h0 (fun j => ?_) i
    simp only [initVertices, Fin.cases_succ, hnorm]
    by_cases hj : d = j
    · subst hj; simp [h0]
    · simp [Function.update_of_ne hj, h0]
  have htry : ∀ (s : St n) ihi fac, (∀ i, s.p i d = 0) → s.psum d = 0 →
      (∀ i, (tryPoint c s ihi fac).1.p i d = 0) ∧ (tryPoint c s ihi fac).1.psum d = 0 := by
    intro s ihi fac hp hs
    unfold tryPoint
    dsimp only
    split_ifs
    · refine ⟨fun i => ?_, ?_⟩
      · by_cases hi : i = ihi
        · subst hi; simp [hnorm, hp, hs]
        · simp [Function.update_of_ne hi, hp]
      · simp [hnorm, hp, hs]
    · exact ⟨hp, hs⟩
  have hcon : ∀ ilo (l : List (Fin (n + 2))) (s : St n), (∀ i, s.p i d = 0) →
      ∀ i, (l.foldl (contractStep c ilo) s).p i d = 0 := by
    intro ilo l
    induction l with
    | nil => intro s hp; exact hp
    | cons y ys ih =>
      intro s hp
      rw [List.foldl_cons]
      apply ih
      intro i
      unfold contractStep
      split_ifs
      · by_cases hi : i = y
        · subst hi; simp [hnorm, hp]
        · simp [Function.update_of_ne hi, hp]
      · exact hp i
  have hsum : ∀ p : Fin (n + 2) → Vec ℝ (n + 1), (∀ i, p i d = 0) → sumRows p d = 0 := by
    intro p hp
    rw [sumRows_eq, Finset.sum_apply]
    exact Finset.sum_eq_zero fun i _ => hp i
  have himp : ∀ (s : St n) ix, (∀ i, s.p i d = 0) → s.psum d = 0 →
      (∀ i, (improve c s ix).p i d = 0) ∧ (improve c s ix).psum d = 0 := by
    intro s ix hp hs
    unfold improve
    dsimp only
    obtain ⟨a1, a2⟩ := htry { s with nfunk := s.nfunk + 2 } ix.ihi (-1) hp hs
    split_ifs
    · exact htry _ _ _ a1 a2
    · obtain ⟨b1, b2⟩ := htry _ ix.ihi 0.5 a1 a2
      unfold contract
      dsimp only
      exact ⟨hcon _ _ _ b1, hsum _ (hcon _ _ _ b1)⟩
    · exact htry _ _ _ a1 a2
    · exact ⟨a1, a2⟩
  have key : ∀ (fuel : ℕ) (s : St n), (∀ i, s.p i d = 0) → s.psum d = 0 → loop c fuel s = some (x, r) → x d = 0 := by
    intro fuel
    induction fuel with
    | zero => intro s _ _ h; simp [loop] at h
    | succ f ih =>
      intro s hp hs h
      unfold loop at h
      dsimp only at h
      split_ifs at h
      · simp only [Option.some.injEq, Prod.mk.injEq] at h
        rw [← h.1]; exact hp _
      · obtain ⟨a1, a2⟩ := himp s (findIdx s.y) hp hs
        exact ih _ a1 a2 h
  exact key fuel _ hinit (hsum _ hinit) h

/-! ### The geometry of the moves -/

/-- The mean of all vertices except one. -/
noncomputable def others (p : Fin (n + 2) → Vec ℝ (n + 1)) (i : Fin (n + 2)) : Vec ℝ (n + 1) :=
  (1 / (n + 1) : ℝ) • ∑ j ∈ Finset.univ.erase i, p j

/-- The normalised point on the line from the mean `o` through `w`, at `t` times the distance. -/
noncomputable def along (c : Call n k) (o w : Vec ℝ (n + 1)) (t : ℝ) : Vec ℝ (n + 1) :=
  c.normalize (o + t • (w - o))

theorem ptry_eq (c : Call n k) (s : St n) (h : Sound c s) (ihi : Fin (n + 2)) (fac : ℝ) :
    c.normalize (((1 - fac) / ((n + 1 : ℕ) : ℝ)) • s.psum - ((1 - fac) / ((n + 1 : ℕ) : ℝ) - fac) • s.p ihi) =
      along c (others s.p ihi) (s.p ihi) fac := by
  unfold along others
  congr 1
  rw [h.2, ← Finset.add_sum_erase Finset.univ s.p (Finset.mem_univ ihi)]
  have hn : (n + 1 : ℝ) ≠ 0 := by positivity
  ext i
  simp only [Pi.add_apply, Pi.sub_apply, Pi.smul_apply, smul_eq_mul]
  push_cast
  field_simp
  ring

/-- **C24** A trial evaluates the point on the line through the mean of the other vertices, and replaces the
vertex exactly if that point is better; the other vertices stay. -/
theorem C24_trial (c : Call n k) (s : St n) (h : Sound c s) (i : Fin (n + 2)) (fac : ℝ) :
    let x := along c (others s.p i) (s.p i) fac
    (tryPoint c s i fac).2 = value c x ∧ (∀ j ≠ i, (tryPoint c s i fac).1.p j = s.p j) ∧
    (tryPoint c s i fac).1.p i = if value c x < value c (s.p i) then x else s.p i := by
  dsimp only
  rw [← ptry_eq c s h i fac, ← h.1 i]
  unfold tryPoint
  dsimp only
  split_ifs with hlt
  · exact ⟨rfl, fun j hj => by simp [Function.update_of_ne hj], by simp⟩
  · exact ⟨rfl, fun _ _ => rfl, rfl⟩

theorem reachable_sound (c : Call n k) (x0 : Vec ℝ (n + 1)) (s : St n) (h : Reachable c x0 s) : Sound c s :=
  ⟨(C24_invariant c x0 s h).1, (C24_invariant c x0 s h).2.1⟩

theorem others_update (p q : Fin (n + 2) → Vec ℝ (n + 1)) (i : Fin (n + 2)) (h : ∀ j ≠ i, q j = p j) :
    others q i = others p i := by
  unfold others
  congr 1
  exact Finset.sum_congr rfl fun j hj => h j (Finset.ne_of_mem_erase hj)

/-- **C24** The shape of one step, from every state the minimisation reaches. Let `r` be the highest vertex
reflected through the mean of the others. If `r` is better than the next-highest vertex, only the highest vertex
is replaced, by something strictly better. A vertex other than the highest moves only if `r` is not better than
the next-highest vertex and the point half way from the mean to the better of `r` and the highest vertex is not
better than that one either; it then moves to the normalised midpoint with the lowest vertex. The lowest vertex
itself stays, unless it is also the highest. -/
theorem C24_step (c : Call n k) (x0 : Vec ℝ (n + 1)) (s : St n) (h : Reachable c x0 s) :
    let ix := findIdx s.y
    let o := others s.p ix.ihi
    let r := along c o (s.p ix.ihi) (-1)
    let w := if value c r < value c (s.p ix.ihi) then r else s.p ix.ihi
    let s' := improve c s ix
    (value c r < value c (s.p ix.inhi) →
      (∀ j ≠ ix.ihi, s'.p j = s.p j) ∧ value c (s'.p ix.ihi) < value c (s.p ix.ihi)) ∧
    (∀ j ≠ ix.ihi, s'.p j ≠ s.p j →
      value c (s.p ix.inhi) ≤ value c r ∧ value c w ≤ value c (along c o w 0.5) ∧
      s'.p j = c.normalize ((0.5 : ℝ) • (s.p j + s'.p ix.ilo))) ∧
    (ix.ilo ≠ ix.ihi → s'.p ix.ilo = s.p ix.ilo) := by
  dsimp only
  have hS := reachable_sound c x0 s h
  obtain ⟨i1, i2, i3, i4⟩ := C24_indices s.y
  obtain ⟨ix, hix⟩ : ∃ ix, ix = findIdx s.y := ⟨_, rfl⟩
  rw [← hix] at i1 i2 i3 i4 ⊢
  have h0 : Sound c { s with nfunk := s.nfunk + 2 } := hS
  obtain ⟨a1, a2, -⟩ := tryPoint_sound c _ ix.ihi (-1) h0
  obtain ⟨t1, t2, t3⟩ := C24_trial c { s with nfunk := s.nfunk + 2 } h0 ix.ihi (-1)
  dsimp only at t1 t2 t3
  obtain ⟨S, hSdef⟩ : ∃ S, S = (tryPoint c { s with nfunk := s.nfunk + 2 } ix.ihi (-1)) := ⟨_, rfl⟩
  rw [← hSdef] at a1 a2 t1 t2 t3
  have ho := others_update s.p S.1.p ix.ihi t2
  obtain ⟨b1, b2, -⟩ := tryPoint_sound c _ ix.ihi 2 a1
  obtain ⟨u1, u2, u3⟩ := C24_trial c _ a1 ix.ihi 2
  obtain ⟨b1', b2', -⟩ := tryPoint_sound c _ ix.ihi 0.5 a1
  obtain ⟨v1, v2, v3⟩ := C24_trial c _ a1 ix.ihi 0.5
  have hinhi : S.1.y ix.inhi = value c (s.p ix.inhi) := by rw [a1.1, t2 _ i3]
  have hlow : S.1.y ix.ilo ≤ value c (s.p ix.inhi) := by
    refine (a2 _).trans ?_
    change s.y ix.ilo ≤ _
    rw [← hS.1]; exact i1 _
  have htop : value c (s.p ix.inhi) ≤ value c (s.p ix.ihi) := by
    rw [← hS.1, ← hS.1]; exact i2 _
  have hcon : ∀ (l : List (Fin (n + 2))), l.Nodup → ∀ (s : St n) (j : Fin (n + 2)),
      (l.foldl (contractStep c ix.ilo) s).p j =
        if j ∈ l ∧ j ≠ ix.ilo then c.normalize ((0.5 : ℝ) • (s.p j + s.p ix.ilo)) else s.p j := by
    intro l
    induction l with
    | nil => intro _ s j; simp
    | cons x xs ih =>
      intro hnd s j
      rw [List.foldl_cons, ih (List.nodup_cons.mp hnd).2]
      have hx := (List.nodup_cons.mp hnd).1
      have hplo : (contractStep c ix.ilo s x).p ix.ilo = s.p ix.ilo := by
        unfold contractStep
        split_ifs with hxl
        · simp [Function.update_of_ne (Ne.symm hxl)]
        · rfl
      rw [hplo]
      by_cases hjx : j = x
      · subst hjx
        simp only [hx, false_and, if_false, List.mem_cons, true_or, true_and]
        unfold contractStep
        split_ifs <;> simp_all
      · have : (contractStep c ix.ilo s x).p j = s.p j := by
          unfold contractStep
          split_ifs
          · simp [Function.update_of_ne hjx]
          · rfl
        simp only [this, List.mem_cons, hjx, false_or]
  have hmoved : ∀ j, (contract c ix.ilo (tryPoint c S.1 ix.ihi 0.5).1).p j =
      if j ≠ ix.ilo then c.normalize ((0.5 : ℝ) • ((tryPoint c S.1 ix.ihi 0.5).1.p j +
        (tryPoint c S.1 ix.ihi 0.5).1.p ix.ilo)) else (tryPoint c S.1 ix.ihi 0.5).1.p j := by
    intro j
    have := hcon (List.finRange (n + 2)) (List.nodup_finRange _) (tryPoint c S.1 ix.ihi 0.5).1 j
    simp only [List.mem_finRange, true_and] at this
    exact this
  refine ⟨?_, ?_, ?_⟩
  · intro hr
    have hlt := hr.trans_le htop
    rw [if_pos hlt] at t3
    have hval : value c (S.1.p ix.ihi) < value c (s.p ix.ihi) := by rw [t3]; exact hlt
    unfold improve
    dsimp only
    rw [← hSdef]
    split_ifs with c1 c2 c3
    · refine ⟨fun j hj => (u2 j hj).trans (t2 j hj), ?_⟩
      rw [← b1.1]
      exact (b2 _).trans_lt (by rw [a1.1]; exact hval)
    · exact absurd c2 (by rw [t1, hinhi]; exact not_le.mpr hr)
    · exact absurd c2 (by rw [t1, hinhi]; exact not_le.mpr hr)
    · exact ⟨t2, hval⟩
  · intro j hj
    obtain ⟨w, hw⟩ : ∃ w, w = if value c (along c (others s.p ix.ihi) (s.p ix.ihi) (-1)) < value c (s.p ix.ihi)
        then along c (others s.p ix.ihi) (s.p ix.ihi) (-1) else s.p ix.ihi := ⟨_, rfl⟩
    rw [← hw] at t3 ⊢
    unfold improve
    dsimp only
    rw [← hSdef]
    by_cases c1 : S.2 ≤ S.1.y ix.ilo
    · rw [if_pos c1]
      intro hne; exact absurd ((u2 j hj).trans (t2 j hj)) hne
    rw [if_neg c1]
    by_cases c2 : S.2 ≥ S.1.y ix.inhi
    · rw [if_pos c2]
      by_cases c3 : (tryPoint c S.1 ix.ihi 0.5).2 ≥ S.1.y ix.ihi
      · rw [if_pos c3, hmoved j, hmoved ix.ilo]
        intro hne
        refine ⟨by rw [← t1, ← hinhi]; exact c2, ?_, ?_⟩
        · rw [ge_iff_le, a1.1, v1, ho, t3] at c3; exact c3
        · have hpj : (tryPoint c S.1 ix.ihi 0.5).1.p j = s.p j := (v2 j hj).trans (t2 j hj)
          by_cases hjl : j = ix.ilo
          · rw [if_neg (not_not.mpr hjl)] at hne
            exact absurd hpj hne
          · rw [if_pos hjl, if_neg (not_not.mpr rfl), hpj]
      · rw [if_neg c3]
        intro hne; exact absurd ((v2 j hj).trans (t2 j hj)) hne
    · rw [if_neg c2]
      intro hne; exact absurd (t2 j hj) hne
  · intro hlo
    unfold improve
    dsimp only
    rw [← hSdef]
    split_ifs with c1 c2 c3
    · exact (u2 _ hlo).trans (t2 _ hlo)
    · rw [hmoved, if_neg (not_not.mpr rfl)]; exact (v2 _ hlo).trans (t2 _ hlo)
    · exact (v2 _ hlo).trans (t2 _ hlo)
    · exact t2 _ hlo

/-- **C24** Every vertex the minimisation ever holds is the start point itself or a normalised point, and so is the
returned point. -/
theorem C24_normalised (c : Call n k) (x0 : Vec ℝ (n + 1)) :
    (∀ s, Reachable c x0 s → ∀ i, s.p i = x0 ∨ ∃ v, s.p i = c.normalize v) ∧
    ∀ fuel x r, downhillSimplex c x0 fuel = some (x, r) → x = x0 ∨ ∃ v, x = c.normalize v := by
  have htry : ∀ (s : St n) ihi fac, (∀ i, s.p i = x0 ∨ ∃ v, s.p i = c.normalize v) →
      ∀ i, (tryPoint c s ihi fac).1.p i = x0 ∨ ∃ v, (tryPoint c s ihi fac).1.p i = c.normalize v := by
    intro s ihi fac h i
    unfold tryPoint
    dsimp only
    split_ifs
    · by_cases hi : i = ihi
      · subst hi; right; exact ⟨_, Function.update_self _ _ _⟩
      · simpa [Function.update_of_ne hi] using h i
    · exact h i
  have hcon : ∀ ilo (l : List (Fin (n + 2))) (s : St n), (∀ i, s.p i = x0 ∨ ∃ v, s.p i = c.normalize v) →
      ∀ i, (l.foldl (contractStep c ilo) s).p i = x0 ∨ ∃ v, (l.foldl (contractStep c ilo) s).p i = c.normalize v := by
    intro ilo l
    induction l with
    | nil => intro s h; exact h
    | cons y ys ih =>
      intro s h
      rw [List.foldl_cons]
      apply ih
      intro i
      unfold contractStep
      split_ifs
      · by_cases hi : i = y
        · subst hi; right; exact ⟨_, Function.update_self _ _ _⟩
        · simpa [Function.update_of_ne hi] using h i
      · exact h i
  have himp : ∀ (s : St n) ix, (∀ i, s.p i = x0 ∨ ∃ v, s.p i = c.normalize v) →
      ∀ i, (improve c s ix).p i = x0 ∨ ∃ v, (improve c s ix).p i = c.normalize v := by
    intro s ix h
    unfold improve
    dsimp only
    have a1 := htry { s with nfunk := s.nfunk + 2 } ix.ihi (-1) h
    split_ifs
    · exact htry _ _ _ a1
    · exact hcon _ _ _ (htry _ _ _ a1)
    · exact htry _ _ _ a1
    · exact a1
  have hreach : ∀ s, Reachable c x0 s → ∀ i, s.p i = x0 ∨ ∃ v, s.p i = c.normalize v := by
    intro s hs
    induction hs with
    | init => exact fun i => Fin.cases (Or.inl rfl) (fun j => Or.inr ⟨_, rfl⟩) i
    | step _ ih => exact himp _ _ ih
  refine ⟨hreach, fun fuel x r h => ?_⟩
  have key : ∀ (fuel : ℕ) (s : St n), Reachable c x0 s → loop c fuel s = some (x, r) →
      x = x0 ∨ ∃ v, x = c.normalize v := by
    intro fuel
    induction fuel with
    | zero => intro s _ h; simp [loop] at h
    | succ f ih =>
      intro s hs h
      unfold loop at h
      dsimp only at h
      split_ifs at h
      · simp only [Option.some.injEq, Prod.mk.injEq] at h
        rw [← h.1]; exact hreach s hs _
      · exact ih _ (.step hs) h
  exact key fuel _ .init h

/-- **C24** The initial simplex: the start point, and for each coordinate the normalised point that differs in that
coordinate alone, by the factor 1.48529. -/
theorem C24_initial_simplex (c : Call n k) (x0 : Vec ℝ (n + 1)) :
    (init c x0).p 0 = x0 ∧
    ∀ d : Fin (n + 1), ∃ v, (init c x0).p d.succ = c.normalize v ∧ v d = 1.48529 * x0 d ∧ ∀ e ≠ d, v e = x0 e := by
  refine ⟨rfl, fun d => ⟨Function.update x0 d (x0 d * 1.48529), rfl, ?_, fun e he => ?_⟩⟩
  · simp [mul_comm]
  · simp [Function.update_of_ne he]

/-- A call that meets the hypotheses: minimise |x - 5| from 1, with limit 3; it returns. -/
example : ∃ x r, downhillSimplex (n := 0) (k := 1) ⟨fun x => x, fun _ => 5, LM.optTerminate 3 0, id⟩ (fun _ => 1) 4 = some (x, r) ∧
    r ≤ 4 := by
  have h := C24_terminates (n := 0) (k := 1) ⟨fun x => x, fun _ => 5, LM.optTerminate 3 0, id⟩ (fun _ => 1) 3 (by norm_num) 0 rfl
  rcases hd : downhillSimplex (n := 0) (k := 1) ⟨fun x => x, fun _ => 5, LM.optTerminate 3 0, id⟩ (fun _ => 1) 4 with _ | ⟨x, r⟩
  · exact absurd hd h
  · refine ⟨x, r, rfl, ?_⟩
    have := (C24_result _ _ _ _ _ hd).2.1
    have e : residual (n := 0) (k := 1) ⟨fun x => x, fun _ => 5, LM.optTerminate 3 0, id⟩ (fun _ => 1) = 4 := by
      unfold residual
      simp
      rw [show ((1 : ℝ) - 5) ^ 2 = 4 ^ 2 by norm_num]
      exact Real.sqrt_sq (by norm_num)
    rwa [e] at this

end Ubitrack.Simplex
