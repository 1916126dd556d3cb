import Verif.Model.BlockTimer
import Mathlib.Tactic.Ring
import Mathlib.Tactic.FieldSimp
import Mathlib.Tactic.Linarith

/-!
# C47: block timers account for every completed block
-/

namespace Ubitrack.BlockTimer

/-! ### Specification: properly nested runs -/

/-- A properly nested execution: nothing more, or a timed block (with everything that happens inside it) followed by
the rest. Times are those of an ideal clock that never wraps around. -/
inductive Run
  | done
  | block (timer : ℕ) (location : Option (String × ℕ)) (start : ℕ) (inside : Run) (stop : ℕ) (rest : Run)

namespace Run

/-- What the code sees of a run; the counter readings are 64 bit. -/
def events : Run → List Event
  | done => []
  | block t l start inside stop rest =>
    .enter t l (BitVec.ofNat 64 start) :: (inside.events ++ .leave (BitVec.ofNat 64 stop) :: rest.events)

/-- The durations of all blocks of a timer, nested ones included. -/
def durations (t : ℕ) : Run → List ℕ
  | done => []
  | block t' _ start inside stop rest =>
    inside.durations t ++ (if t' = t then [stop - start] else []) ++ rest.durations t

/-- The clock does not run backwards during a block. -/
def Timed : Run → Prop
  | done => True
  | block _ _ start inside stop rest => start ≤ stop ∧ inside.Timed ∧ rest.Timed

end Run

/-! ### Theorems -/

theorem exec_append (s : State) (xs ys : List Event) : exec s (xs ++ ys) = (exec s xs).bind fun s => exec s ys := by
  induction xs generalizing s with
  | nil => rfl
  | cons e es ih =>
    simp only [List.cons_append, exec]
    cases step s e with
    | none => rfl
    | some s' => simp [ih]

theorem start_counts (t : Timer) (l : Option (String × ℕ)) : (t.start l).runs = t.runs ∧ (t.start l).ticks = t.ticks := by
  cases l with
  | none => exact ⟨rfl, rfl⟩
  | some l =>
    unfold Timer.start
    dsimp only
    split <;> exact ⟨rfl, rfl⟩

theorem stop_counts (t : Timer) (a b : BitVec 64) : (t.stop a b).runs = t.runs + 1 ∧ (t.stop a b).ticks = t.ticks + (b - a) := by
  unfold Timer.stop
  dsimp only
  split <;> exact ⟨rfl, rfl⟩

/-- **C47** A properly nested run never fails and leaves the open scopes alone. It adds to every timer exactly its number
of blocks and the sum of their durations, modulo 2^64, even if the clock wraps around in between, and whatever blocks
are open when it starts. -/
theorem C47_accounting (r : Run) (hr : r.Timed) (s : State) :
    ∃ s', exec s r.events = some s' ∧ s'.scopes = s.scopes ∧
      ∀ t, (s'.timers t).runs = (s.timers t).runs + BitVec.ofNat 64 (r.durations t).length ∧
        (s'.timers t).ticks = (s.timers t).ticks + BitVec.ofNat 64 (r.durations t).sum := by
  induction r generalizing s with
  | done => exact ⟨s, rfl, rfl, fun t => by simp [Run.durations]⟩
  | block t' l start inside stop rest ih1 ih2 =>
    obtain ⟨h0, h1, h2⟩ := hr
    let s0 : State := ⟨Function.update s.timers t' ((s.timers t').start l), (t', BitVec.ofNat 64 start) :: s.scopes⟩
    obtain ⟨s1, e1, c1, d1⟩ := ih1 h1 s0
    let s2 : State := ⟨Function.update s1.timers t' ((s1.timers t').stop (BitVec.ofNat 64 start) (BitVec.ofNat 64 stop)), s.scopes⟩
    obtain ⟨s3, e3, c3, d3⟩ := ih2 h2 s2
    refine ⟨s3, ?_, c3, fun t => ?_⟩
    · simp only [Run.events, exec, step, Option.bind_some]
      rw [exec_append, e1]
      simp only [Option.bind_some, exec, step, c1, s0]
      exact e3
    · have hs0 : (s0.timers t).runs = (s.timers t).runs ∧ (s0.timers t).ticks = (s.timers t).ticks := by
        by_cases h : t = t'
        · subst h
          simpa [s0] using start_counts (s.timers t) l
        · simp [s0, h]
      have hd : (BitVec.ofNat 64 stop - BitVec.ofNat 64 start) = BitVec.ofNat 64 (stop - start) := by
        have : stop = (stop - start) + start := by omega
        conv_lhs => rw [this]
        rw [BitVec.ofNat_add, BitVec.add_sub_cancel]
      have hs2 : (s2.timers t).runs = (s1.timers t).runs + BitVec.ofNat 64 (if t' = t then 1 else 0) ∧
          (s2.timers t).ticks = (s1.timers t).ticks + BitVec.ofNat 64 (if t' = t then stop - start else 0) := by
        by_cases h : t = t'
        · subst h
          have := stop_counts (s1.timers t) (BitVec.ofNat 64 start) (BitVec.ofNat 64 stop)
          rw [hd] at this
          simpa [s2] using this
        · simp [s2, h, Ne.symm h]
      have hl : ((Run.block t' l start inside stop rest).durations t).length =
          (inside.durations t).length + (if t' = t then 1 else 0) + (rest.durations t).length := by
        simp only [Run.durations, List.length_append]
        split <;> rfl
      have hsum : ((Run.block t' l start inside stop rest).durations t).sum =
          (inside.durations t).sum + (if t' = t then stop - start else 0) + (rest.durations t).sum := by
        simp only [Run.durations, List.sum_append]
        split <;> simp
      rw [hl, hsum, (d3 t).1, (d3 t).2, hs2.1, hs2.2, (d1 t).1, (d1 t).2, hs0.1, hs0.2]
      simp only [BitVec.ofNat_add, BitVec.add_assoc, and_self]

/-- **C47** For a program that starts with new timers and makes less than 2^64 runs and ticks, the counters are the number
of blocks and the sum of their durations, the total time is that sum in milliseconds, and the average is the total divided
by the number of runs. -/
theorem C47_program (r : Run) (hr : r.Timed) (t : ℕ) (frequency : ℝ)
    (hruns : (r.durations t).length < 2 ^ 64) (hticks : (r.durations t).sum < 2 ^ 64) :
    ∃ s, exec ⟨fun _ => Timer.fresh, []⟩ r.events = some s ∧ s.scopes = [] ∧
      (s.timers t).runs.toNat = (r.durations t).length ∧
      (s.timers t).ticks.toNat = (r.durations t).sum ∧
      (s.timers t).totalTime frequency = (r.durations t).sum / frequency * 1000 ∧
      ((s.timers t).avgTime frequency = none ↔ r.durations t = []) ∧
      ∀ a, (s.timers t).avgTime frequency = some a → a * (r.durations t).length = (s.timers t).totalTime frequency := by
  obtain ⟨s, e, c, d⟩ := C47_accounting r hr ⟨fun _ => Timer.fresh, []⟩
  have h1 : (s.timers t).runs.toNat = (r.durations t).length := by
    rw [(d t).1]; simpa [Timer.fresh] using hruns
  have h2 : (s.timers t).ticks.toNat = (r.durations t).sum := by
    rw [(d t).2]; simpa [Timer.fresh] using hticks
  have h0 : (s.timers t).runs = 0 ↔ r.durations t = [] := by
    rw [← List.length_eq_zero_iff, ← h1, ← BitVec.toNat_inj]
    simp
  refine ⟨s, e, c, h1, h2, by rw [Timer.totalTime, h2], ?_, ?_⟩
  · unfold Timer.avgTime
    rw [← h0]
    split
    · rename_i h; simp [h]
    · rename_i h; simp only [reduceCtorEq, false_iff]; exact h
  · intro a ha
    unfold Timer.avgTime at ha
    split at ha
    · simp at ha
    · rename_i hn
      simp only [Option.some.injEq] at ha
      have hl : ((r.durations t).length : ℝ) ≠ 0 := by
        rw [h0, ← List.length_eq_zero_iff] at hn
        exact_mod_cast hn
      rw [← ha, Timer.totalTime, h1]
      by_cases hf : frequency = 0
      · simp [hf]
      · field_simp

theorem location_kept (es : List Event) (s s' : State) (h : exec s es = some s') (t : ℕ)
    (hi : (s.timers t).initialized = true) :
    (s'.timers t).initialized = true ∧ (s'.timers t).location = (s.timers t).location := by
  induction es generalizing s with
  | nil =>
    simp only [exec, Option.some.injEq] at h
    subst h
    exact ⟨hi, rfl⟩
  | cons e es ih =>
    simp only [exec] at h
    rcases hs : step s e with _ | s1
    · rw [hs] at h; simp at h
    rw [hs] at h
    have key : (s1.timers t).initialized = true ∧ (s1.timers t).location = (s.timers t).location := by
      cases e with
      | enter t' l now =>
        simp only [step, Option.some.injEq] at hs
        subst hs
        by_cases ht : t = t'
        · subst ht
          cases l <;> simp [Timer.start, hi]
        · simp [ht, hi]
      | leave now =>
        rcases hsc : s.scopes with _ | ⟨⟨t', st⟩, rest⟩
        · simp [step, hsc] at hs
        · simp only [step, hsc, Option.some.injEq] at hs
          subst hs
          by_cases ht : t = t'
          · subst ht
            simp [Timer.stop, Timer.addMeasurement, hi]
          · simp [ht, hi]
    obtain ⟨a, b⟩ := ih s1 h key.1
    exact ⟨a, b.trans key.2⟩

/-- A timer with a completed block is initialised. -/
theorem runs_initialized (es : List Event) (s s' : State) (h : exec s es = some s') (t : ℕ)
    (h0 : (s.timers t).runs ≠ 0 → (s.timers t).initialized = true) :
    (s'.timers t).runs ≠ 0 → (s'.timers t).initialized = true := by
  induction es generalizing s with
  | nil =>
    simp only [exec, Option.some.injEq] at h
    subst h
    exact h0
  | cons e es ih =>
    simp only [exec] at h
    rcases hs : step s e with _ | s1
    · rw [hs] at h; simp at h
    rw [hs] at h
    refine ih s1 h ?_
    cases e with
    | enter t' l now =>
      simp only [step, Option.some.injEq] at hs
      subst hs
      by_cases ht : t = t'
      · subst ht
        simp only [Function.update_self]
        rw [(start_counts _ l).1]
        intro h
        have hi := h0 h
        cases l <;> simp [Timer.start, hi]
      · simpa [ht] using h0
    | leave now =>
      rcases hsc : s.scopes with _ | ⟨⟨t', st⟩, rest⟩
      · simp [step, hsc] at hs
      · simp only [step, hsc, Option.some.injEq] at hs
        subst hs
        by_cases ht : t = t'
        · subst ht
          intro _
          simp only [Function.update_self, Timer.stop, Timer.addMeasurement, Timer.initializeEnd]
          by_cases hi : (s.timers t).initialized = true <;> simp [hi]
        · simpa [ht] using h0

/-- **C47** From its first completed block on, a timer keeps its code location, whatever happens. -/
theorem C47_location_kept (before after : List Event) (s s' : State) (t : ℕ)
    (hb : exec ⟨fun _ => Timer.fresh, []⟩ before = some s) (ht : (s.timers t).runs ≠ 0) (ha : exec s after = some s') :
    (s'.timers t).location = (s.timers t).location :=
  (location_kept after s s' ha t (runs_initialized before _ s hb t (fun h => absurd rfl h) ht)).2

/-- A block is completed, and then another at a different place. -/
example : ∃ s s', exec ⟨fun _ => Timer.fresh, []⟩ [.enter 0 (some ("f", 1)) 3, .leave 5] = some s ∧ (s.timers 0).runs ≠ 0 ∧
    exec s [.enter 0 (some ("g", 2)) 6] = some s' ∧ (s'.timers 0).location = some ("f", 1) :=
  ⟨_, _, rfl, by decide, rfl, rfl⟩

theorem location_stays (t : ℕ) (l : String × ℕ) (es : List Event) (s s' : State) (h : exec s es = some s')
    (hall : ∀ l' n, Event.enter t l' n ∈ es → l' = some l) (hl : (s.timers t).location = some l) :
    (s'.timers t).location = some l := by
  induction es generalizing s with
  | nil =>
    simp only [exec, Option.some.injEq] at h
    subst h
    exact hl
  | cons e es ih =>
    simp only [exec] at h
    rcases hs : step s e with _ | s1
    · rw [hs] at h; simp at h
    rw [hs] at h
    refine ih s1 h (fun l' n hm => hall l' n (List.mem_cons_of_mem _ hm)) ?_
    cases e with
    | enter t' l' now =>
      simp only [step, Option.some.injEq] at hs
      subst hs
      by_cases ht : t = t'
      · subst ht
        have := hall l' now List.mem_cons_self
        subst this
        simp only [Function.update_self, Timer.start, Timer.initializeStart]
        split
        · exact hl
        · rfl
      · simp [ht, hl]
    | leave now =>
      rcases hsc : s.scopes with _ | ⟨⟨t', st⟩, rest⟩
      · simp [step, hsc] at hs
      · simp only [step, hsc, Option.some.injEq] at hs
        subst hs
        by_cases ht : t = t'
        · subst ht
          simp only [Function.update_self, Timer.stop, Timer.addMeasurement, Timer.initializeEnd]
          by_cases hi : (s.timers t).initialized = true <;> simp [hi, hl]
        · simp [ht, hl]

/-- **C47** The location shown for a timer whose blocks are all at one place is that place, as soon as one was entered. -/
theorem C47_location (es : List Event) (t : ℕ) (l : String × ℕ) (s' : State)
    (h : exec ⟨fun _ => Timer.fresh, []⟩ es = some s')
    (hall : ∀ l' n, Event.enter t l' n ∈ es → l' = some l) (hex : ∃ l' n, Event.enter t l' n ∈ es) :
    (s'.timers t).location = some l := by
  suffices key : ∀ (es : List Event) (s : State), exec s es = some s' → (∀ l' n, Event.enter t l' n ∈ es → l' = some l) →
      (∃ l' n, Event.enter t l' n ∈ es) → (s.timers t).initialized = false → (∀ p ∈ s.scopes, p.1 ≠ t) →
      (s'.timers t).location = some l from
    key es _ h hall hex rfl (by simp)
  intro es
  induction es with
  | nil => rintro s - - ⟨l', n, hm⟩; simp at hm
  | cons e es ih =>
    intro s h hall hex hi hsc
    simp only [exec] at h
    rcases hs : step s e with _ | s1
    · rw [hs] at h; simp at h
    rw [hs] at h
    have hall' : ∀ l' n, Event.enter t l' n ∈ es → l' = some l := fun l' n hm => hall l' n (List.mem_cons_of_mem _ hm)
    cases e with
    | enter t' l' now =>
      simp only [step, Option.some.injEq] at hs
      subst hs
      by_cases ht : t = t'
      · subst ht
        refine location_stays t l es _ s' h hall' ?_
        have := hall l' now List.mem_cons_self
        subst this
        simp [Timer.start, hi, Timer.initializeStart]
      · refine ih _ h hall' ?_ ?_ ?_
        · obtain ⟨l', n, hm⟩ := hex
          rcases List.mem_cons.mp hm with hm | hm
          · simp only [Event.enter.injEq] at hm
            exact absurd hm.1 ht
          · exact ⟨l', n, hm⟩
        · simp [ht, hi]
        · intro p hp
          rcases List.mem_cons.mp hp with rfl | hp
          · exact Ne.symm ht
          · exact hsc p hp
    | leave now =>
      rcases hc : s.scopes with _ | ⟨⟨t', st⟩, rest⟩
      · simp [step, hc] at hs
      · simp only [step, hc, Option.some.injEq] at hs
        subst hs
        have ht : t ≠ t' := (hsc (t', st) (by simp [hc])).symm
        refine ih _ h hall' ?_ (by simp [ht, hi]) (fun p hp => hsc p (by simp [hc, hp]))
        obtain ⟨l', n, hm⟩ := hex
        exact ⟨l', n, by simpa using hm⟩

/-- **C47 (refuted)** "Sets the code location if not already set" does not hold for nested blocks of one timer: the
location counts as set only when the first block is complete, so an inner block overwrites that of the outer one. -/
theorem C47_location_refuted :
    ∃ s, exec ⟨fun _ => Timer.fresh, []⟩
        [.enter 0 (some ("outer", 1)) 0, .enter 0 (some ("inner", 2)) 1, .leave 2, .leave 3] = some s ∧
      (s.timers 0).location = some ("inner", 2) := by
  refine ⟨_, rfl, ?_⟩
  simp [Timer.start, Timer.stop, Timer.fresh, Timer.addMeasurement, Timer.initializeStart, Timer.initializeEnd]

/-- Non-vacuity: two timers, one block nested in another of the same timer, and a clock that wraps around. -/
example : (Run.block 0 (some ("f", 1)) (2 ^ 64 - 5) (.block 0 none (2 ^ 64 - 2) .done (2 ^ 64 + 3) .done) (2 ^ 64 + 10)
      (.block 1 none (2 ^ 64 + 11) .done (2 ^ 64 + 12) .done)).Timed ∧
    (Run.block 0 (some ("f", 1)) (2 ^ 64 - 5) (.block 0 none (2 ^ 64 - 2) .done (2 ^ 64 + 3) .done) (2 ^ 64 + 10)
      (.block 1 none (2 ^ 64 + 11) .done (2 ^ 64 + 12) .done)).durations 0 = [5, 15] := by
  simp [Run.Timed, Run.durations]

end Ubitrack.BlockTimer
