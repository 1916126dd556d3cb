import Verif.Spec.Filters

/-!
# C108: chains of filters
-/

namespace Ubitrack.FiltersProps

open Logging hiding doAppend
open Filters Spec.FilterChain

variable {ε : Type}

/-! ## Chains -/

lemma chain_unique {s : Mem ε} {p : Option ℕ} {l l' : List ℕ} (h : Chain s p l) (h' : Chain s p l') : l = l' := by
  induction h generalizing l' with
  | nil => cases h'; rfl
  | cons f l hf hl ih =>
    cases h' with
    | cons _ l' _ hl' => rw [ih hl']

lemma chain_mem {s : Mem ε} {p : Option ℕ} {l : List ℕ} (h : Chain s p l) {g : ℕ} (hg : g ∈ l) :
    ∃ a b, l = a ++ g :: b ∧ Chain s (some g) (g :: b) := by
  induction h with
  | nil => cases hg
  | cons f l hf hl ih =>
    rcases List.mem_cons.mp hg with rfl | hg
    · exact ⟨[], l, rfl, .cons _ _ hf hl⟩
    · obtain ⟨a, b, h1, h2⟩ := ih hg
      exact ⟨f :: a, b, by rw [h1]; rfl, h2⟩

lemma chain_head {s : Mem ε} {f g : ℕ} {l : List ℕ} (h : Chain s (some f) (g :: l)) : f = g ∧ s.alive f = true ∧ Chain s (s.next f) l := by
  cases h with
  | cons _ _ h1 h2 => exact ⟨rfl, h1, h2⟩

lemma chain_not_mem {s : Mem ε} {f : ℕ} {l : List ℕ} (h : Chain s (some f) (f :: l)) : f ∉ l := by
  intro hm
  obtain ⟨-, -, hl⟩ := chain_head h
  obtain ⟨a, b, h1, h2⟩ := chain_mem hl hm
  have := chain_unique h h2
  have e := congrArg List.length this
  rw [h1] at e
  simp only [List.length_cons, List.length_append] at e
  omega

lemma chain_alive {s : Mem ε} {p : Option ℕ} {l : List ℕ} (h : Chain s p l) {g : ℕ} (hg : g ∈ l) : s.alive g = true := by
  obtain ⟨a, b, -, h2⟩ := chain_mem h hg
  exact (chain_head h2).2.1

/-- A chain depends only on its filters. -/
lemma chain_congr {s s' : Mem ε} {p : Option ℕ} {l : List ℕ} (h : Chain s p l) (ha : ∀ f ∈ l, s'.alive f = s.alive f ∧ s'.next f = s.next f) :
    Chain s' p l := by
  induction h with
  | nil => exact .nil
  | cons f l hf hl ih =>
    rw [List.forall_mem_cons] at ha
    refine .cons _ _ (by rw [ha.1.1, hf]) ?_
    rw [ha.1.2]
    exact ih ha.2

lemma chain_some {s : Mem ε} {f : ℕ} {l : List ℕ} (h : Chain s (some f) l) : ∃ t, l = f :: t := by
  cases h
  exact ⟨_, rfl⟩

/-! ## The functions on chains -/

/-- What `decide` answers for a chain. -/
def decision (own : ℕ → ε → Decision) (e : ε) : List ℕ → Decision
  | [] => .neutral
  | f :: l => match own f e with
    | .neutral => decision own e l
    | d => d

lemma decide_spec {s : Mem ε} (e : ε) (fuel : ℕ) : ∀ (f : ℕ) (l : List ℕ), Chain s (some f) l → l.length ≤ fuel →
    decide fuel s f e = .ok (decision s.own e l) := by
  induction fuel with
  | zero =>
    intro f l h hl
    obtain ⟨t, rfl⟩ := chain_some h
    simp at hl
  | succ fuel ih =>
    intro f l h hl
    obtain ⟨t, rfl⟩ := chain_some h
    obtain ⟨-, h1, h2⟩ := chain_head h
    rw [Filters.decide, if_pos h1]
    simp only [decision]
    cases ho : s.own f e with
    | deny => rfl
    | accept => rfl
    | neutral =>
      cases hn : s.next f with
      | none =>
        rw [hn] at h2
        cases h2
        rfl
      | some g =>
        rw [hn] at h2
        simp only [List.length_cons] at hl
        exact ih g t h2 (by omega)

lemma decision_passes (own : ℕ → ε → Decision) (e : ε) (l : List ℕ) : decision own e l ≠ .deny ↔ Passes own l e := by
  unfold Passes
  induction l with
  | nil => simp [decision]
  | cons f l ih =>
    simp only [decision]
    cases ho : own f e with
    | deny =>
      simp only [ne_eq, not_true_eq_false, false_iff, not_or, not_exists, List.forall_mem_cons, ho]
      refine ⟨by simp, ?_⟩
      rintro a g b ⟨h1, h2, h3⟩
      cases a with
      | nil =>
        simp only [List.nil_append, List.cons.injEq] at h1
        rw [← h1.1, ho] at h3
        cases h3
      | cons a0 a =>
        simp only [List.cons_append, List.cons.injEq] at h1
        have := h2 a0 (by simp)
        rw [← h1.1, ho] at this
        cases this
    | accept =>
      simp only [ne_eq, reduceCtorEq, not_false_eq_true, true_iff]
      exact .inr ⟨[], f, l, rfl, by simp, ho⟩
    | neutral =>
      simp only
      rw [ih]
      constructor
      · rintro (h | ⟨a, g, b, h1, h2, h3⟩)
        · exact .inl (by simpa [ho] using h)
        · exact .inr ⟨f :: a, g, b, by rw [h1]; rfl, by simpa [ho] using h2, h3⟩
      · rintro (h | ⟨a, g, b, h1, h2, h3⟩)
        · exact .inl fun g hg => h g (List.mem_cons_of_mem _ hg)
        · cases a with
          | nil =>
            simp only [List.nil_append, List.cons.injEq] at h1
            rw [← h1.1, ho] at h3
            cases h3
          | cons a0 a =>
            simp only [List.cons_append, List.cons.injEq] at h1
            exact .inr ⟨a, g, b, h1.2, fun g hg => h2 g (List.mem_cons_of_mem _ hg), h3⟩

/-- Exactly the filters of the list are gone. -/
def Gone (s s' : Mem ε) (l : List ℕ) : Prop := s'.next = s.next ∧ s'.own = s.own ∧ ∀ f, s'.alive f = if f ∈ l then false else s.alive f

lemma destroy_spec (fuel : ℕ) : ∀ (s : Mem ε) (f : ℕ) (l : List ℕ), Chain s (some f) l → l.length ≤ fuel → ∃ s', destroy fuel s f = .ok s' ∧ Gone s s' l := by
  induction fuel with
  | zero =>
    intro s f l h hl
    obtain ⟨t, rfl⟩ := chain_some h
    simp at hl
  | succ fuel ih =>
    intro s f l h hl
    obtain ⟨t, rfl⟩ := chain_some h
    obtain ⟨-, h1, h2⟩ := chain_head h
    have hnm := chain_not_mem h
    rw [destroy, if_pos h1]
    simp only
    cases hn : s.next f with
    | none =>
      rw [hn] at h2
      cases h2
      refine ⟨_, rfl, rfl, rfl, ?_⟩
      intro g
      by_cases hg : g = f
      · subst hg; simp
      · simp [Function.update_of_ne hg, hg]
    | some g =>
      rw [hn] at h2
      have h3 : Chain { s with alive := Function.update s.alive f false } (some g) t := by
        refine chain_congr h2 ?_
        intro x hx
        have : x ≠ f := by
          rintro rfl
          exact hnm hx
        simp [Function.update_of_ne this]
      simp only [List.length_cons] at hl
      obtain ⟨s', e1, e2, e3, e4⟩ := ih _ g t h3 (by omega)
      refine ⟨s', e1, e2, e3, ?_⟩
      intro x
      rw [e4 x]
      by_cases hx : x = f
      · subst hx; simp
      · simp [Function.update_of_ne hx, hx]

lemma end_spec {s : Mem ε} (fuel : ℕ) : ∀ (f : ℕ) (l : List ℕ), Chain s (some f) l → l.length ≤ fuel →
    ∃ a e, l = a ++ [e] ∧ getEndOfChain fuel s f = .ok e ∧ s.next e = none := by
  induction fuel with
  | zero =>
    intro f l h hl
    obtain ⟨t, rfl⟩ := chain_some h
    simp at hl
  | succ fuel ih =>
    intro f l h hl
    obtain ⟨t, rfl⟩ := chain_some h
    obtain ⟨-, h1, h2⟩ := chain_head h
    rw [getEndOfChain, if_pos h1]
    cases hn : s.next f with
    | none =>
      rw [hn] at h2
      cases h2
      exact ⟨[], f, rfl, rfl, hn⟩
    | some g =>
      rw [hn] at h2
      simp only [List.length_cons] at hl
      obtain ⟨a, e, e1, e2, e3⟩ := ih g t h2 (by omega)
      exact ⟨f :: a, e, by rw [e1]; rfl, e2, e3⟩

/-! ## The properties -/

/-- **C108**: an appender writes an event exactly if its priority is within the threshold and the first filter of the chain that is not neutral, if
any, accepts it. -/
theorem C108_decide (s : Mem ε) (threshold priority : ℤ) (filter : Option ℕ) (l : List ℕ) (e : ε) (hl : Chain s filter l) (fuel : ℕ) (hf : l.length ≤ fuel) :
    ∃ b, doAppend fuel s threshold filter priority e = .ok b ∧ (b = true ↔ (threshold = 800 ∨ priority ≤ threshold) ∧ Passes s.own l e) := by
  unfold Filters.doAppend
  have h800 : NOTSET = threshold ↔ threshold = 800 := by unfold NOTSET; omega
  simp only [h800]
  by_cases ht : threshold = 800 ∨ priority ≤ threshold
  · rw [if_pos ht]
    cases filter with
    | none =>
      cases hl
      exact ⟨true, rfl, by simp [ht, Passes]⟩
    | some f =>
      simp only [decide_spec e fuel f l hl hf, Res.bind]
      refine ⟨_, rfl, ?_⟩
      rw [decide_eq_true_eq, decision_passes]
      exact ⟨fun h => ⟨ht, h⟩, fun h => h.2⟩
  · rw [if_neg ht]
    exact ⟨false, rfl, by simp [ht]⟩

/-- **C108**: appending to a chain appends the other chain, and changes no chain that has no filter in common with it. -/
theorem C108_append (s : Mem ε) (f : ℕ) (g : Option ℕ) (l m : List ℕ) (hl : Chain s (some f) l) (hm : Chain s g m) (hd : ∀ x ∈ l, x ∉ m) (fuel : ℕ)
    (hf : l.length ≤ fuel) : ∃ s', appendChainedFilter fuel s f g = .ok s' ∧ Chain s' (some f) (l ++ m) ∧ s'.own = s.own ∧ s'.alive = s.alive ∧
      ∀ p k, Chain s p k → (∀ x ∈ k, x ∉ l) → Chain s' p k := by
  obtain ⟨a, e, h1, h2, h3⟩ := end_spec fuel f l hl hf
  have he : e ∈ l := by rw [h1]; simp
  have hea := chain_alive hl he
  unfold appendChainedFilter
  rw [h2]
  simp only [Res.bind, setChainedFilter, hea, if_true, h3]
  cases g with
  | none =>
    cases hm
    exact ⟨s, rfl, by simpa using hl, rfl, rfl, fun p k h _ => h⟩
  | some g =>
    rw [if_pos (by simp)]
    refine ⟨_, rfl, ?_, rfl, rfl, ?_⟩
    · have hm' : Chain { s with next := Function.update s.next e (some g) } (some g) m := by
        refine chain_congr hm ?_
        intro x hx
        have : x ≠ e := by
          rintro rfl
          exact hd _ he hx
        simp [Function.update_of_ne this]
      have key : ∀ p k, Chain s p k → ∀ a, k = a ++ [e] → Chain { s with next := Function.update s.next e (some g) } p (k ++ m) := by
        intro p k hk
        induction hk with
        | nil =>
          intro a ha
          simp at ha
        | cons x k hx hk ih =>
          intro a ha
          cases a with
          | nil =>
            simp only [List.nil_append, List.cons.injEq] at ha
            obtain ⟨rfl, rfl⟩ := ha
            refine .cons _ _ hx ?_
            simp only [Function.update_self]
            exact hm'
          | cons a0 a =>
            simp only [List.cons_append, List.cons.injEq] at ha
            obtain ⟨rfl, hk'⟩ := ha
            have hne : x ≠ e := by
              rintro rfl
              refine chain_not_mem (Chain.cons (s := s) x k hx hk) ?_
              rw [hk']
              simp
            refine .cons _ _ hx ?_
            simp only [Function.update_of_ne hne]
            exact ih a hk'
      exact key _ _ hl a h1
    · intro p k hk hkl
      refine chain_congr hk ?_
      intro x hx
      have : x ≠ e := by
        rintro rfl
        exact hkl _ hx he
      simp [Function.update_of_ne this]

/-- **C108**: setting the next filter deletes the filters that followed before, and no other. -/
theorem C108_set (s : Mem ε) (f : ℕ) (g : Option ℕ) (t m : List ℕ) (hl : Chain s (some f) (f :: t)) (hm : Chain s g m) (hd : ∀ x ∈ f :: t, x ∉ m) (fuel : ℕ)
    (hf : t.length ≤ fuel) : ∃ s', setChainedFilter fuel s f g = .ok s' ∧ Chain s' (some f) (f :: m) ∧ s'.own = s.own ∧
      ∀ x, s'.alive x = if x ∈ t then false else s.alive x := by
  obtain ⟨-, h1, h2⟩ := chain_head hl
  have hnm := chain_not_mem hl
  unfold setChainedFilter
  rw [if_pos h1]
  have hfm := hd f (by simp)
  have finish : ∀ s1 : Mem ε, Gone s s1 t → ∃ s', (if s1.alive f = true then Res.ok { s1 with next := Function.update s1.next f g } else Res.ub) = .ok s' ∧
      Chain s' (some f) (f :: m) ∧ s'.own = s.own ∧ ∀ x, s'.alive x = if x ∈ t then false else s.alive x := by
    rintro s1 ⟨g1, g2, g3⟩
    have ha : s1.alive f = true := by rw [g3, if_neg hnm, h1]
    rw [if_pos ha]
    refine ⟨_, rfl, ?_, g2, g3⟩
    refine .cons _ _ ha ?_
    simp only [Function.update_self]
    refine chain_congr hm ?_
    intro x hx
    have hxf : x ≠ f := by
      rintro rfl
      exact hfm hx
    have hxt : x ∉ t := fun h => hd x (List.mem_cons_of_mem _ h) hx
    simp [Function.update_of_ne hxf, g3, hxt, g1]
  by_cases hg : g = s.next f
  · rw [if_neg (by simpa using hg)]
    subst hg
    obtain rfl := chain_unique h2 hm
    have ht : t = [] := by
      cases t with
      | nil => rfl
      | cons x t => exact absurd List.mem_cons_self (hd x (by simp))
    exact ⟨s, rfl, hl, rfl, by simp [ht]⟩
  · rw [if_pos hg]
    cases hn : s.next f with
    | none =>
      rw [hn] at h2
      cases h2
      exact finish s ⟨rfl, rfl, by simp⟩
    | some x =>
      rw [hn] at h2
      obtain ⟨s1, e1, e2⟩ := destroy_spec fuel s x t h2 hf
      simp only [e1, Res.bind]
      exact finish s1 e2

/-- **C108**: replacing the filter of an appender deletes the chain of the old one and no other filter; so does destroying the appender. -/
theorem C108_replace (s : Mem ε) (current filter : Option ℕ) (l m : List ℕ) (hl : Chain s current l) (hm : Chain s filter m) (hd : ∀ x ∈ l, x ∉ m) (fuel : ℕ)
    (hf : l.length ≤ fuel) : ∃ s', setFilter fuel s current filter = .ok (s', filter) ∧ Chain s' filter m ∧ (∀ x, s'.alive x = if x ∈ l then false else s.alive x) ∧
      destroyAppender fuel s current = .ok s' := by
  have hgone : ∃ s', destroyAppender fuel s current = .ok s' ∧ Gone s s' l := by
    cases current with
    | none =>
      cases hl
      exact ⟨s, rfl, rfl, rfl, by simp⟩
    | some f => exact destroy_spec fuel s f l hl hf
  obtain ⟨s', e1, g1, g2, g3⟩ := hgone
  refine ⟨s', ?_, ?_, g3, e1⟩
  · unfold setFilter
    by_cases hc : current = filter
    · subst hc
      obtain rfl := chain_unique hl hm
      have ht : l = [] := by
        cases l with
        | nil => rfl
        | cons x t => exact absurd List.mem_cons_self (hd x (by simp))
      subst ht
      cases hl
      simp only [destroyAppender, Res.ok.injEq] at e1
      subst e1
      rfl
    · rw [if_pos hc]
      cases current with
      | none =>
        simp only [destroyAppender, Res.ok.injEq] at e1
        subst e1
        rfl
      | some f =>
        simp only [destroyAppender] at e1
        simp only [e1, Res.bind]
  · refine chain_congr hm ?_
    intro x hx
    have hxl : x ∉ l := fun h => hd x h hx
    simp [g3, hxl, g1]

/-- **C108**: setting the filter that is set already changes nothing. -/
theorem C108_same (s : Mem ε) (f : ℕ) (hf : s.alive f = true) (current : Option ℕ) (fuel : ℕ) :
    setChainedFilter fuel s f (s.next f) = .ok s ∧ setFilter fuel s current current = .ok (s, current) := by
  unfold setChainedFilter setFilter
  simp [hf]

/-- **C108**, refuted: appending a filter that is in the chain already closes a circle. From then on no end of the chain is found, and a message about
which all filters of the chain are neutral is never decided. -/
theorem C108_circle_refuted (s : Mem ε) (f g : ℕ) (l : List ℕ) (hl : Chain s (some f) l) (hg : g ∈ l) (fuel : ℕ) (hf : l.length ≤ fuel) (e : ε)
    (he : ∀ x ∈ l, s.own x e = .neutral) : ∃ s', appendChainedFilter fuel s f (some g) = .ok s' ∧
      ∀ steps, getEndOfChain steps s' f = .more ∧ decide steps s' f e = .more := by
  obtain ⟨a, z, h1, h2, h3⟩ := end_spec fuel f l hl hf
  have hz : z ∈ l := by rw [h1]; simp
  have hza := chain_alive hl hz
  unfold appendChainedFilter
  rw [h2]
  simp only [Res.bind, setChainedFilter, hza, if_true, h3]
  rw [if_pos (by simp)]
  refine ⟨_, rfl, ?_⟩
  have hfl : f ∈ l := by
    obtain ⟨t, rfl⟩ := chain_some hl
    simp
  have hstep : ∀ x ∈ l, ∃ y ∈ l, Function.update s.next z (some g) x = some y := by
    intro x hx
    by_cases hxz : x = z
    · exact ⟨g, hg, by rw [hxz, Function.update_self]⟩
    · rw [Function.update_of_ne hxz]
      obtain ⟨b, c, e1, e2⟩ := chain_mem hl hx
      obtain ⟨-, -, e3⟩ := chain_head e2
      cases hn : s.next x with
      | none =>
        rw [hn] at e3
        cases e3
        rw [h1] at e1
        have := (List.append_inj' e1 rfl).2
        simp only [List.cons.injEq, and_true] at this
        exact absurd this.symm hxz
      | some y =>
        rw [hn] at e3
        obtain ⟨t, rfl⟩ := chain_some e3
        exact ⟨y, by rw [e1]; simp, rfl⟩
  intro steps
  have key : ∀ x ∈ l, getEndOfChain steps { s with next := Function.update s.next z (some g) } x = .more ∧
      decide steps { s with next := Function.update s.next z (some g) } x e = .more := by
    induction steps with
    | zero => exact fun x hx => ⟨rfl, rfl⟩
    | succ steps ih =>
      intro x hx
      obtain ⟨y, hy, hxy⟩ := hstep x hx
      have hxa := chain_alive hl hx
      rw [getEndOfChain, Filters.decide]
      simp only [hxa, if_true, hxy, he x hx]
      exact ih y hy
  exact key f hfl

/-- **C108**, refuted: making a filter further down the chain the next one deletes it; it is used afterwards for every event about which the first
filter is neutral. -/
theorem C108_shorten_refuted (s : Mem ε) (f x g : ℕ) (t : List ℕ) (hl : Chain s (some f) (f :: x :: t)) (hg : g ∈ t) (fuel : ℕ) (hf : t.length < fuel) (e : ε)
    (he : s.own f e = .neutral) : ∃ s', setChainedFilter fuel s f (some g) = .ok s' ∧ ∀ steps, decide (steps + 2) s' f e = .ub := by
  obtain ⟨-, h1, h2⟩ := chain_head hl
  have hnm := chain_not_mem hl
  have hn : s.next f = some x := by
    cases hn : s.next f with
    | none => rw [hn] at h2; cases h2
    | some y => rw [hn] at h2; rw [(chain_head h2).1]
  rw [hn] at h2
  have hxg : g ≠ x := by
    rintro rfl
    exact chain_not_mem h2 hg
  obtain ⟨s1, e1, g1, g2, g3⟩ := destroy_spec fuel s x (x :: t) h2 (by simp only [List.length_cons]; omega)
  unfold setChainedFilter
  rw [if_pos h1, hn, if_pos (by simpa using hxg)]
  have ha : s1.alive f = true := by rw [g3, if_neg hnm, h1]
  have hga : s1.alive g = false := by rw [g3, if_pos (List.mem_cons_of_mem _ hg)]
  simp only [e1, Res.bind, ha, if_true]
  refine ⟨_, rfl, ?_⟩
  intro steps
  simp [Filters.decide, ha, g2, he, hga]

/-- **C108**, refuted: a filter given to two appenders is deleted twice. -/
theorem C108_shared_refuted (s : Mem ε) (f : ℕ) (l : List ℕ) (hl : Chain s (some f) l) (fuel : ℕ) (hf : l.length ≤ fuel) :
    ∃ s', destroyAppender fuel s (some f) = .ok s' ∧ destroyAppender fuel s' (some f) = .ub := by
  obtain ⟨s', e1, g1, g2, g3⟩ := destroy_spec fuel s f l hl hf
  refine ⟨s', e1, ?_⟩
  obtain ⟨t, rfl⟩ := chain_some hl
  have : s'.alive f = false := by rw [g3]; simp
  cases fuel with
  | zero => simp at hf
  | succ n => simp [destroyAppender, destroy, this]

/-- Memory for the examples: 1 and 2 are linked, 3 is single; the event is the number of a filter, which denies it, other filters are neutral. -/
def sampleMem : Mem ℕ := ⟨fun f => f == 1 || f == 2 || f == 3, fun f => if f = 1 then some 2 else none, fun f e => if f = e then .deny else .neutral⟩

example : Chain sampleMem (some 1) [1, 2] ∧ Chain sampleMem (some 3) [3] ∧ ¬ Passes sampleMem.own [1, 2] 2 ∧ Passes sampleMem.own [1, 2] 3 := by
  refine ⟨.cons _ _ rfl (.cons _ _ rfl .nil), .cons _ _ rfl .nil, ?_, ?_⟩
  · rw [← decision_passes]
    decide
  · rw [← decision_passes]
    decide

end Ubitrack.FiltersProps
