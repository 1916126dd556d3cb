import Verif.Spec.FixedContext
import Verif.Props.Logging

/-!
# C106: categories with a fixed context

The object is compared with an ordinary category of a name that is used nowhere, because it is too long, next to the category of its name.
-/

namespace Ubitrack.FixedContextProps

open Logging FixedContext Spec Spec.FixedCategory

/-! ## Heaps that agree apart from long names -/

/-- All but the name. -/
def strip (c : Cat) : Cat := { c with name := [] }

/-- The same objects apart from their names, found under the same names shorter than `N`. -/
structure Agree (N : ℕ) (h h' : Heap) : Prop where
  size : h.size = h'.size
  cat : ∀ i, strip (h.cat i) = strip (h'.cat i)
  map : ∀ n, n.length < N → h.map n = h'.map n

lemma strip_iff (c c' : Cat) : strip c = strip c' ↔ c.parent = c'.parent ∧ c.priority = c'.priority ∧ c.chained = c'.chained ∧
    c.additive = c'.additive ∧ c.appenders = c'.appenders ∧ c.children = c'.children := by
  cases c; cases c'; simp [strip]

lemma Agree.refl (N : ℕ) (h : Heap) : Agree N h h := ⟨rfl, fun _ => rfl, fun _ _ => rfl⟩

lemma agree_modify {N : ℕ} {h h' : Heap} (ha : Agree N h h') (i : ℕ) (f f' : Cat → Cat)
    (hf : ∀ c c', strip c = strip c' → strip (f c) = strip (f' c')) : Agree N (h.modify i f) (h'.modify i f') where
  size := ha.size
  cat := by
    intro j
    unfold Heap.modify
    by_cases hj : j = i
    · subst hj
      simp only [Function.update_self]
      exact hf _ _ (ha.cat j)
    · simp only [Function.update_of_ne hj]
      exact ha.cat j
  map := ha.map

lemma agree_create {N : ℕ} {h h' : Heap} (ha : Agree N h h') (n : Name) (p : Option ℕ) (v : ℤ) :
    Agree N (create h n p v).1 (create h' n p v).1 ∧ (create h n p v).2 = (create h' n p v).2 := by
  refine ⟨⟨?_, ?_, ?_⟩, ha.size⟩
  · show h.size + 1 = h'.size + 1
    rw [ha.size]
  · intro j
    cases p with
    | none =>
      unfold create
      rw [ha.size]
      simp only
      by_cases hj : j = h'.size
      · subst hj
        simp only [Function.update_self]
      · simp only [Function.update_of_ne hj]
        exact ha.cat j
    | some p =>
      have hm : Agree N (h.modify p fun c => { c with children := c.children ++ [h'.size] })
          (h'.modify p fun c => { c with children := c.children ++ [h'.size] }) := by
        refine agree_modify ha p _ _ ?_
        intro c c' hc
        rw [strip_iff] at hc ⊢
        simp [hc]
      have hch : (h.cat p).chained = (h'.cat p).chained := ((strip_iff _ _).mp (ha.cat p)).2.2.1
      unfold create
      rw [ha.size]
      simp only
      by_cases hj : j = h'.size
      · subst hj
        simp only [Function.update_self, hch]
      · simp only [Function.update_of_ne hj]
        exact hm.cat j
  · intro m hm
    have hmap : ∀ g : Heap, (create g n p v).1.map m = if m = n then some g.size else g.map m := by
      intro g
      rw [create_map]
    rw [hmap, hmap, ha.size, ha.map m hm]

lemma agree_getInstance {N : ℕ} {h h' : Heap} (ha : Agree N h h') (n : Name) (hn : n.length < N) :
    Agree N (getInstance h n).1 (getInstance h' n).1 ∧ (getInstance h n).2 = (getInstance h' n).2 := by
  induction hl : n.length using Nat.strong_induction_on generalizing n with
  | _ k ih =>
    subst hl
    have e1 := getInstance.eq_def h n
    have e2 := getInstance.eq_def h' n
    rw [← ha.map n hn] at e2
    rw [e1, e2]
    cases hm : h.map n with
    | some i => exact ⟨ha, rfl⟩
    | none =>
      simp only
      by_cases h0 : n = []
      · rw [dif_pos h0, dif_pos h0]
        exact agree_create ha n none INFO
      · rw [dif_neg h0, dif_neg h0]
        have hlt := parentName_length n h0
        obtain ⟨g1, g2⟩ := ih _ hlt (parentName n) (by omega) rfl
        rw [g2]
        exact agree_create g1 n _ NOTSET

lemma agree_foldl {N : ℕ} {f f' : Heap → ℕ → Heap} (l : List ℕ) : ∀ {h h' : Heap}, Agree N h h' →
    (∀ g g' i, Agree N g g' → Agree N (f g i) (f' g' i)) → Agree N (l.foldl f h) (l.foldl f' h') := by
  induction l with
  | nil => intro h h' ha _; exact ha
  | cons i l ih => intro h h' ha hf; exact ih (hf _ _ i ha) hf

lemma agree_updateChained {N : ℕ} (v : ℤ) (fuel : ℕ) : ∀ {h h' : Heap} (i : ℕ), Agree N h h' →
    Agree N (updateChained fuel v h i) (updateChained fuel v h' i) := by
  induction fuel with
  | zero => intro h h' i ha; exact ha
  | succ fuel ih =>
    intro h h' i ha
    obtain ⟨-, e2, -, -, -, e6⟩ := (strip_iff _ _).mp (ha.cat i)
    unfold updateChained
    rw [e2, e6]
    split
    · refine agree_foldl _ (agree_modify ha i _ _ ?_) fun g g' j hg => ih j hg
      intro c c' hc
      rw [strip_iff] at hc ⊢
      simp [hc]
    · exact ha

lemma agree_setPriority {N : ℕ} {h h' : Heap} (ha : Agree N h h') (i : ℕ) (v : ℤ) :
    Agree N ((setPriority h i v).getD h) ((setPriority h' i v).getD h') := by
  have hprop : ∀ {g g' : Heap}, Agree N g g' → Agree N (propagate g i) (propagate g' i) := by
    intro g g' hg
    obtain ⟨-, -, e3, -, -, e6⟩ := (strip_iff _ _).mp (hg.cat i)
    unfold propagate
    rw [e3, e6, hg.size]
    exact agree_foldl _ hg fun k k' j hk => agree_updateChained _ _ j hk
  obtain ⟨e1, -, -, -, -, -⟩ := (strip_iff _ _).mp (ha.cat i)
  unfold setPriority assignPriority
  split
  · refine hprop (agree_modify ha i _ _ ?_)
    intro c c' hc
    rw [strip_iff] at hc ⊢
    simp [hc]
  · rw [e1]
    cases (h'.cat i).parent with
    | none => exact ha
    | some p =>
      refine hprop (agree_modify ha i _ _ ?_)
      intro c c' hc
      rw [strip_iff] at hc ⊢
      simp [hc, ((strip_iff _ _).mp (ha.cat p)).2.2.1]

/-- The name that a call is for. -/
def opName : Op → Name
  | .get n => n
  | .setPriority n _ => n
  | .setAdditivity n _ => n
  | .addAppender n _ => n
  | .removeAppender n _ => n
  | .removeAllAppenders n => n

lemma agree_run {N : ℕ} {h h' : Heap} (ha : Agree N h h') (op : Op) (hn : (opName op).length < N) : Agree N (run h op) (run h' op) := by
  obtain ⟨g1, g2⟩ := agree_getInstance ha (opName op) hn
  cases op with
  | get n => exact g1
  | setPriority n v =>
    simp only [opName] at g1 g2
    simp only [run, g2]
    exact agree_setPriority g1 _ v
  | setAdditivity n b =>
    simp only [opName] at g1 g2
    simp only [run, g2, setAdditivity]
    refine agree_modify g1 _ _ _ fun c c' hc => ?_
    rw [strip_iff] at hc ⊢
    simp [hc]
  | addAppender n a =>
    simp only [opName] at g1 g2
    simp only [run, g2, addAppender]
    refine agree_modify g1 _ _ _ fun c c' hc => ?_
    rw [strip_iff] at hc
    rw [hc.2.2.2.2.1]
    split
    · rwa [strip_iff]
    · rw [strip_iff]
      simp [hc]
  | removeAppender n a =>
    simp only [opName] at g1 g2
    simp only [run, g2, removeAppender]
    refine agree_modify g1 _ _ _ fun c c' hc => ?_
    rw [strip_iff] at hc ⊢
    simp [hc]
  | removeAllAppenders n =>
    simp only [opName] at g1 g2
    simp only [run, g2, removeAllAppenders]
    refine agree_modify g1 _ _ _ fun c c' hc => ?_
    rw [strip_iff] at hc ⊢
    simp [hc]

lemma agree_callAppenders {N : ℕ} {h h' : Heap} (ha : Agree N h h') (fuel : ℕ) : ∀ i, callAppenders fuel h i = callAppenders fuel h' i := by
  induction fuel with
  | zero => intro i; rfl
  | succ fuel ih =>
    intro i
    obtain ⟨e1, -, -, e4, e5, -⟩ := (strip_iff _ _).mp (ha.cat i)
    unfold callAppenders
    rw [e1, e4, e5]
    congr 1
    cases (h'.cat i).additive <;> cases (h'.cat i).parent <;> first | rfl | exact ih _

/-! ## Names that are not used -/

lemma updateChained_map (v : ℤ) (fuel : ℕ) : ∀ (h : Heap) (i : ℕ), (updateChained fuel v h i).map = h.map := by
  induction fuel with
  | zero => intro h i; rfl
  | succ fuel ih =>
    intro h i
    unfold updateChained
    split
    · have key : ∀ (l : List ℕ) (g : Heap), (l.foldl (updateChained fuel v) g).map = g.map := by
        intro l
        induction l with
        | nil => intro g; rfl
        | cons j l ihl => intro g; rw [List.foldl_cons, ihl, ih]
      rw [key]
      rfl
    · rfl

lemma setPriority_map (h : Heap) (i : ℕ) (v : ℤ) : ((setPriority h i v).getD h).map = h.map := by
  have hprop : ∀ g : Heap, (propagate g i).map = g.map := by
    intro g
    have key : ∀ (l : List ℕ) (w : ℤ) (k : ℕ) (g : Heap), (l.foldl (updateChained k w) g).map = g.map := by
      intro l w k
      induction l with
      | nil => intro g; rfl
      | cons j l ihl => intro g; rw [List.foldl_cons, ihl, updateChained_map]
    exact key _ _ _ _
  unfold setPriority assignPriority
  split
  · exact (hprop _).trans rfl
  · cases (h.cat i).parent with
    | none => rfl
    | some p => exact (hprop _).trans rfl

lemma run_map {h : Heap} (hg : Good h) (op : Op) (n : Name) (hn : (opName op).length < n.length) : (run h op).map n = h.map n := by
  have key := (getInstance_spec h hg (opName op)).2.2.2 n hn
  cases op with
  | get m => exact key
  | setPriority m v => simp only [run, setPriority_map]; exact key
  | setAdditivity m b => exact key
  | addAppender m a => exact key
  | removeAppender m a => exact key
  | removeAllAppenders m => exact key

lemma runs_map (ops : List Op) (n : Name) : ∀ (h : Heap) (c : LogConfig), Good h → Sem h c → OrdinaryPriorities ops →
    (∀ op ∈ ops, (opName op).length < n.length) → (ops.foldl run h).map n = h.map n := by
  induction ops with
  | nil => intro h c _ _ _ _; rfl
  | cons op ops ih =>
    intro h c hg hs ho hl
    obtain ⟨h1, h2⟩ := run_spec h c hg hs op (fun name v hv => ho name v (by
      rw [List.mem_singleton] at hv
      rw [hv]
      simp))
    rw [List.foldl_cons, ih _ _ h1 h2 (fun name v hv => ho name v (List.mem_cons_of_mem _ hv)) (fun o ho' => hl o (List.mem_cons_of_mem _ ho')),
      run_map hg op n (hl op (by simp))]

lemma getInstance_keeps (h : Heap) (m n : Name) (i : ℕ) (hi : h.map n = some i) : (getInstance h m).1.map n = some i := by
  induction hl : m.length using Nat.strong_induction_on generalizing m with
  | _ k ih =>
    subst hl
    have e1 := getInstance.eq_def h m
    rw [e1]
    cases hm : h.map m with
    | some j => exact hi
    | none =>
      have hne : n ≠ m := by
        rintro rfl
        rw [hm] at hi
        cases hi
      simp only
      by_cases h0 : m = []
      · rw [dif_pos h0, create_map, if_neg hne]
        exact hi
      · rw [dif_neg h0, create_map, if_neg hne]
        exact ih _ (parentName_length m h0) (parentName m) rfl

lemma run_keeps {h : Heap} (op : Op) (n : Name) (i : ℕ) (hi : h.map n = some i) : (run h op).map n = some i := by
  have key := getInstance_keeps h (opName op) n i hi
  cases op with
  | get m => exact key
  | setPriority m v => simp only [run, setPriority_map]; exact key
  | setAdditivity m b => exact key
  | addAppender m a => exact key
  | removeAppender m a => exact key
  | removeAllAppenders m => exact key

/-! ## The ordinary category that stands for the object -/

/-- The calls on the ordinary category. -/
def sim (fresh : Name) : Event → List Op
  | .category op => [op]
  | .setPriority v => [.setPriority fresh v]
  | _ => []

/-- The calls are for short names. -/
def Short (N : ℕ) (events : List Event) : Prop := ∀ op, Event.category op ∈ events → (opName op).length < N

lemma runEvents_spec (N : ℕ) (fresh name : Name) (events : List Event) : ∀ (s : Heap × Fixed) (h' : Heap) (c : LogConfig), Short N events → Ordinary events →
    Agree N s.1 h' → Good h' → Sem h' c → h'.map fresh = some s.2.index → h'.map name = some s.2.delegate →
    ∃ h'', Agree N (events.foldl runEvent s).1 h'' ∧ Good h'' ∧ Sem h'' (events.foldl (fun c e => (sim fresh e).foldl LogConfig.after c) c) ∧
      h''.map fresh = some s.2.index ∧ h''.map name = some s.2.delegate ∧
      (events.foldl runEvent s).2 = ⟨s.2.index, s.2.delegate, lastContext s.2.context events⟩ := by
  induction events with
  | nil => intro s h' c _ _ ha hg hs hf hd; exact ⟨h', ha, hg, hs, hf, hd, rfl⟩
  | cons e events ih =>
    intro s h' c hsh ho ha hg hs hf hd
    have hsh' : Short N events := fun op hop => hsh op (List.mem_cons_of_mem _ hop)
    have ho' : Ordinary events := by
      refine ⟨fun n v hv => ho.1 n v ?_, fun v hv => ho.2 v (List.mem_cons_of_mem _ hv)⟩
      unfold categoryCalls at hv ⊢
      rw [List.filterMap_cons]
      split
      · exact hv
      · exact List.mem_cons_of_mem _ hv
    cases e with
    | category op =>
      have hop : OrdinaryPriorities [op] := by
        intro n v hv
        rw [List.mem_singleton] at hv
        refine ho.1 n v ?_
        rw [hv]
        exact List.mem_cons_self
      obtain ⟨h1, h2⟩ := run_spec h' c hg hs op hop
      exact ih (run s.1 op, s.2) (run h' op) _ hsh' ho' (agree_run ha op (hsh op (by simp))) h1 h2 (run_keeps op _ _ hf) (run_keeps op _ _ hd)
    | setContext d => exact ih (s.1, { s.2 with context := d }) h' c hsh' ho' ha hg hs hf hd
    | setPriority v =>
      have hop : OrdinaryPriorities [Op.setPriority fresh v] := by
        intro n w hv
        rw [List.mem_singleton] at hv
        cases hv
        exact ho.2 v (by simp)
      obtain ⟨h1, h2⟩ := run_spec h' c hg hs (.setPriority fresh v) hop
      have hget : getInstance h' fresh = (h', s.2.index) := by
        rw [getInstance.eq_def, hf]
      have hrun : run h' (.setPriority fresh v) = (Logging.setPriority h' s.2.index v).getD h' := by
        simp only [run, hget]
      refine ih ((Logging.setPriority s.1 s.2.index v).getD s.1, s.2) (run h' (.setPriority fresh v)) _ hsh' ho' ?_ h1 h2
        (run_keeps _ _ _ hf) (run_keeps _ _ _ hd)
      rw [hrun]
      exact agree_setPriority ha _ v
    | addAppender a => exact ih s h' c hsh' ho' ha hg hs hf hd
    | removeAllAppenders => exact ih s h' c hsh' ho' ha hg hs hf hd
    | setAdditivity b => exact ih s h' c hsh' ho' ha hg hs hf hd

/-- Settings that differ only for one name. -/
structure Apart (fresh : Name) (c' c : LogConfig) : Prop where
  priority : ∀ n, n ≠ fresh → c'.priority n = c.priority n
  additive : ∀ n, n ≠ fresh → c'.additive n = c.additive n
  appenders : ∀ n, n ≠ fresh → c'.appenders n = c.appenders n

lemma after_apart {fresh : Name} {c' c : LogConfig} (ha : Apart fresh c' c) (op : Op) (_hn : opName op ≠ fresh) : Apart fresh (c'.after op) (c.after op) := by
  obtain ⟨h1, h2, h3⟩ := ha
  cases op <;> refine ⟨?_, ?_, ?_⟩ <;> intro n hf <;> simp only [LogConfig.after] <;>
    first
      | exact h1 n hf
      | exact h2 n hf
      | exact h3 n hf
      | (simp only [h1 n hf])
      | (simp only [h2 n hf])
      | (simp only [h3 n hf])

lemma after_fresh {fresh : Name} (c' : LogConfig) (op : Op) (hn : opName op ≠ fresh) : (c'.after op).priority fresh = c'.priority fresh := by
  cases op <;> simp only [LogConfig.after]
  rename_i name v
  exact if_neg fun h => hn h.symm

lemma events_apart (N : ℕ) (fresh : Name) (hN : N ≤ fresh.length) (hne : fresh ≠ []) (events : List Event) : ∀ (c' c : LogConfig) (own : Option ℤ), Short N events →
    Apart fresh c' c → c'.priority fresh = own →
    Apart fresh (events.foldl (fun c e => (sim fresh e).foldl LogConfig.after c) c') ((categoryCalls events).foldl LogConfig.after c) ∧
      (events.foldl (fun c e => (sim fresh e).foldl LogConfig.after c) c').priority fresh =
        events.foldl (fun p e => match e with
          | .setPriority v => if v < 800 then some v else none
          | _ => p) own := by
  induction events with
  | nil => intro c' c own _ ha ho; exact ⟨ha, ho⟩
  | cons e events ih =>
    intro c' c own hsh ha ho
    have hsh' : Short N events := fun op hop => hsh op (List.mem_cons_of_mem _ hop)
    cases e with
    | category op =>
      have hlt := hsh op (by simp)
      have hop : opName op ≠ fresh := by
        intro h
        rw [h] at hlt
        omega
      exact ih (c'.after op) (c.after op) own hsh' (after_apart ha op hop) (by rw [after_fresh c' op hop, ho])
    | setContext d => exact ih c' c own hsh' ha ho
    | setPriority v =>
      refine ih (c'.after (.setPriority fresh v)) c (if v < 800 then some v else none) hsh' ⟨?_, ha.additive, ha.appenders⟩ ?_
      · intro n hn
        simp only [LogConfig.after, if_neg hn]
        exact ha.priority n hn
      · simp only [LogConfig.after, if_true, if_neg hne]
    | addAppender a => exact ih c' c own hsh' ha ho
    | removeAllAppenders => exact ih c' c own hsh' ha ho
    | setAdditivity b => exact ih c' c own hsh' ha ho

lemma isAbove_length {p n : Name} (h : IsAbove p n) : p.length < n.length := by
  have hn := isAbove_ne_nil h
  have := parentName_length n hn
  rwa [← (isAbove_iff p n hn).mp h] at this

lemma inForce_apart {fresh : Name} {c' c : LogConfig} (ha : Apart fresh c' c) {n : Name} {v : ℤ} (h : InForce c n v) (hn : n.length < fresh.length) :
    InForce c' n v := by
  have hne : ∀ m : Name, m.length < fresh.length → m ≠ fresh := by
    rintro m hm rfl
    omega
  induction h with
  | own n v h => exact .own n v (by rw [ha.priority n (hne n hn), h])
  | above n p v h1 h2 _ ih =>
    exact .above n p v (by rw [ha.priority n (hne n hn), h1]) h2 (ih (by have := isAbove_length h2; omega))

lemma path_apart {fresh : Name} {c' c : LogConfig} (ha : Apart fresh c' c) {n : Name} {path : List Name} (h : Path c n path) (hn : n.length < fresh.length) :
    Path c' n path ∧ ∀ m ∈ path, m.length < fresh.length := by
  have hne : ∀ m : Name, m.length < fresh.length → m ≠ fresh := by
    rintro m hm rfl
    omega
  induction h with
  | root => exact ⟨.root, by simpa using hn⟩
  | stop n h => exact ⟨.stop n (by rw [ha.additive n (hne n hn), h]), by simpa using hn⟩
  | up n p rest h1 h2 _ ih =>
    obtain ⟨g1, g2⟩ := ih (by have := isAbove_length h2; omega)
    refine ⟨.up n p rest (by rw [ha.additive n (hne n hn), h1]) h2 g1, ?_⟩
    intro m hm
    rcases List.mem_cons.mp hm with rfl | hm
    · exact hn
    · exact g2 m hm

/-- The object and the ordinary category after some calls. -/
lemma object_spec (before : List Op) (name : Name) (context : List Char) (events : List Event) (hname : name ≠ []) (hb : OrdinaryPriorities before)
    (ho : Ordinary events) (M : ℕ) : ∃ (N : ℕ) (fresh : Name) (h : Heap) (c' : LogConfig), M < N ∧ name.length < N ∧ N < fresh.length ∧ parentName fresh = parentName name ∧ fresh ≠ [] ∧
      Agree N (events.foldl runEvent (newFixed (before.foldl run Heap.empty) name context)).1 h ∧ Good h ∧ Sem h c' ∧
      h.map fresh = some (events.foldl runEvent (newFixed (before.foldl run Heap.empty) name context)).2.index ∧
      h.map name = some (events.foldl runEvent (newFixed (before.foldl run Heap.empty) name context)).2.delegate ∧
      (events.foldl runEvent (newFixed (before.foldl run Heap.empty) name context)).2.context = lastContext context events ∧
      Apart fresh c' (configAfter (before ++ categoryCalls events)) ∧ c'.priority fresh = ownPriority events := by
  -- a bound for all names
  obtain ⟨N, hN0, hN1, hN2, hN3⟩ : ∃ N, M < N ∧ name.length < N ∧ (∀ op ∈ before, (opName op).length < N) ∧ Short N events := by
    have hlist : ∀ l : List Op, ∃ N, ∀ op ∈ l, (opName op).length < N := by
      intro l
      induction l with
      | nil => exact ⟨0, by simp⟩
      | cons o l ih =>
        obtain ⟨N, hN⟩ := ih
        refine ⟨max N ((opName o).length + 1), ?_⟩
        intro op hop
        rcases List.mem_cons.mp hop with rfl | hop
        · exact lt_max_of_lt_right (Nat.lt_succ_self _)
        · exact lt_max_of_lt_left (hN op hop)
    obtain ⟨N1, h1⟩ := hlist before
    obtain ⟨N2, h2⟩ := hlist (categoryCalls events)
    refine ⟨max (name.length + 1 + M) (max N1 N2), by omega, by omega, ?_, ?_⟩
    · intro op hop
      exact lt_max_of_lt_right (lt_max_of_lt_left (h1 op hop))
    · intro op hop
      refine lt_max_of_lt_right (lt_max_of_lt_right (h2 op ?_))
      unfold categoryCalls
      rw [List.mem_filterMap]
      exact ⟨_, hop, rfl⟩
  obtain ⟨fresh, hfresh⟩ : ∃ fresh, fresh = parentName name ++ '.' :: List.replicate N 'x' := ⟨_, rfl⟩
  have hpar : parentName fresh = parentName name := by
    rw [hfresh]
    refine parentName_append _ _ ?_
    intro h
    have := List.eq_of_mem_replicate h
    exact absurd this (by decide)
  have hlen : N < fresh.length := by
    rw [hfresh]
    simp only [List.length_append, List.length_cons, List.length_replicate]
    omega
  have hne : fresh ≠ [] := by
    rw [hfresh]
    simp
  obtain ⟨hg0, hs0⟩ := runs_spec before _ _ good_empty sem_empty hb
  have hmap0 : (before.foldl run Heap.empty).map fresh = none :=
    runs_map before fresh _ _ good_empty sem_empty hb fun op hop => by have := hN2 op hop; omega
  obtain ⟨g1, g2, g3, g4⟩ := getInstance_spec _ hg0 name
  have hs1 := g3 _ hs0
  have hmap1 := g4 fresh (by omega)
  rw [hmap0] at hmap1
  unfold newFixed
  generalize getInstance (before.foldl run Heap.empty) name = r at *
  obtain ⟨hlt, hrn⟩ := g1.map_lt _ _ g2
  obtain ⟨p, hp⟩ : ∃ p, (r.1.cat r.2).parent = some p := by
    cases hpp : (r.1.cat r.2).parent with
    | none => exact absurd (hrn ▸ g1.par_none _ hlt hpp) hname
    | some p => exact ⟨p, rfl⟩
  obtain ⟨hp1, hp2, -⟩ := g1.par_some _ hlt p hp
  have hmapp : r.1.map (parentName fresh) = some p := by
    rw [hpar, ← hrn, ← hp2]
    exact g1.map_name p (by omega)
  have hget : getInstance r.1 fresh = create r.1 fresh (some p) NOTSET := by
    have e1 : getInstance r.1 (parentName fresh) = (r.1, p) := by rw [getInstance.eq_def, hmapp]
    rw [getInstance.eq_def, hmap1]
    simp only [dif_neg hne, e1]
  obtain ⟨k1, k2, k3, -⟩ := getInstance_spec _ g1 fresh
  have hkeep := getInstance_keeps _ fresh name r.2 g2
  rw [hget] at k1 k2 k3 hkeep
  have hagree : Agree N { (create r.1 name (r.1.cat r.2).parent NOTSET).1 with map := r.1.map } (create r.1 fresh (some p) NOTSET).1 := by
    refine ⟨rfl, ?_, ?_⟩
    · intro j
      rw [hp]
      unfold create
      simp only
      by_cases hj : j = r.1.size
      · subst hj
        simp only [Function.update_self]
        rfl
      · simp only [Function.update_of_ne hj]
    · intro n hn
      have hnf : n ≠ fresh := by
        rintro rfl
        omega
      rw [create_map, if_neg hnf]
  obtain ⟨h'', m1, m2, m3, m4, m5, m6⟩ := runEvents_spec N fresh name events
    ({ (create r.1 name (r.1.cat r.2).parent NOTSET).1 with map := r.1.map }, ⟨(create r.1 name (r.1.cat r.2).parent NOTSET).2, r.2, context⟩)
    (create r.1 fresh (some p) NOTSET).1 (configAfter before) hN3 ho hagree k1 (k3 _ hs1) k2 hkeep
  have hfp : (configAfter before).priority fresh = none := by
    have := (Sem.none hs1 hmap1).1
    rw [if_neg hne] at this
    exact this
  obtain ⟨a1, a2⟩ := events_apart N fresh (by omega) hne events (configAfter before) (configAfter before) none hN3 ⟨fun _ _ => rfl, fun _ _ => rfl, fun _ _ => rfl⟩ hfp
  refine ⟨N, fresh, h'', _, hN0, hN1, hlen, hpar, hne, m1, m2, m3, ?_, ?_, ?_, ?_, a2⟩
  · rw [m6]; exact m4
  · rw [m6]; exact m5
  · rw [m6]
  · unfold configAfter
    rw [List.foldl_append]
    exact a1

/-! ## The properties -/

/-- **C106**: a message to a category with a fixed context, constructed after any calls and followed by any calls, reaches an appender once for every
category on the way up from its name to which the appender has been attached, with the context that was set last, if its priority is at
most the priority in force: the one set for the object, or that in force for the category above the name. -/
theorem C106_delivery (before : List Op) (name : Name) (context : List Char) (events : List Event) (v : ℤ) (path : List Name) (hname : name ≠ [])
    (hb : OrdinaryPriorities before) (ho : Ordinary events) (hv : InForceFixed (configAfter (before ++ categoryCalls events)) name events v)
    (hp : Path (configAfter (before ++ categoryCalls events)) name path) (s : Heap × Fixed)
    (hs : s = events.foldl runEvent (newFixed (before.foldl run Heap.empty) name context)) (priority : ℤ) (a : ℕ) (ctx : List Char) :
    (fixedLog s.1 s.2 priority).count (a, ctx) = if priority ≤ v ∧ ctx = lastContext context events then
      path.countP (fun n => decide (a ∈ (configAfter (before ++ categoryCalls events)).appenders n)) else 0 := by
  obtain ⟨N, fresh, h, c', -, f0, f1', f2, f3, ha, hg, hsem, m1, m2, m3, hap, hown⟩ := object_spec before name context events hname hb ho 0
  have f1 : name.length < fresh.length := by omega
  rw [← hs] at ha m1 m2 m3
  obtain ⟨l1, n1⟩ := hg.map_lt _ _ m1
  obtain ⟨l2, n2⟩ := hg.map_lt _ _ m2
  have hin := inForce_of h c' hg hsem _ l1
  rw [n1] at hin
  have hin' : InForce c' fresh v := by
    rcases hv with hv | ⟨hnone, p, hpa, hpf⟩
    · exact .own _ _ (by rw [hown, hv])
    · have hpp := (isAbove_iff p name hname).mp hpa
      refine .above _ p _ (by rw [hown, hnone]) ((isAbove_iff p fresh f3).mpr (by rw [f2, hpp])) (inForce_apart hap hpf ?_)
      have := isAbove_length hpa
      omega
  have hch : (s.1.cat s.2.index).chained = v := by
    rw [((strip_iff _ _).mp (ha.cat s.2.index)).2.2.1]
    exact inForce_unique hin hin'
  obtain ⟨path', hp', hcount⟩ := path_of h c' hg hsem _ l2 h.size l2
  rw [n2] at hp'
  obtain ⟨hpc, hpl⟩ := path_apart hap hp f1
  obtain rfl := path_unique hp' hpc
  unfold fixedLog isPriorityEnabled
  rw [hch, m3]
  simp only [ge_iff_le, decide_eq_true_eq]
  by_cases hle : priority ≤ v
  · rw [if_pos hle, ha.size, agree_callAppenders ha]
    by_cases hctx : ctx = lastContext context events
    · subst hctx
      rw [if_pos ⟨hle, rfl⟩]
      have hinj : Function.Injective fun a : ℕ => (a, lastContext context events) := fun x y h => (Prod.mk.inj h).1
      have hc := List.count_map_of_injective (callAppenders h.size h s.2.delegate) _ hinj a
      rw [hc, hcount]
      refine List.countP_congr ?_
      intro n hn
      have hnf : n ≠ fresh := by
        rintro rfl
        have := hpl _ hn
        omega
      rw [hap.appenders n hnf]
    · rw [if_neg fun h => hctx h.2, List.count_eq_zero]
      intro hmem
      obtain ⟨b, -, hb'⟩ := List.mem_map.mp hmem
      exact hctx (Prod.mk.inj hb').2.symm
  · rw [if_neg hle, if_neg fun h => hle h.1]
    rfl

/-- **C106**: there is always exactly one priority in force. -/
theorem C106_one_answer (before : List Op) (name : Name) (events : List Event) (hname : name ≠ []) (hb : OrdinaryPriorities before) (ho : Ordinary events) :
    ∃! v, InForceFixed (configAfter (before ++ categoryCalls events)) name events v := by
  have hall : OrdinaryPriorities (before ++ categoryCalls events) := OrdinaryPriorities.append hb ho.1
  cases hown : ownPriority events with
  | some w =>
    refine ⟨w, .inl hown, ?_⟩
    rintro v (hv | ⟨hv, -⟩)
    · rw [hown] at hv
      exact (Option.some.inj hv).symm
    · rw [hown] at hv
      cases hv
  | none =>
    obtain ⟨⟨v, hv, hu⟩, -⟩ := C90_one_answer _ hall (parentName name)
    have habove : IsAbove (parentName name) name := (isAbove_iff _ _ hname).mpr rfl
    refine ⟨v, .inr ⟨hown, _, habove, hv⟩, ?_⟩
    rintro w (hw | ⟨-, p, hp, hw⟩)
    · rw [hown] at hw
      cases hw
    · rw [(isAbove_iff _ _ hname).mp hp] at hw
      exact hu w hw

/-- **C106**: the object does not change what becomes of messages to the categories, that of its name included: they are delivered as their
own settings say. -/
theorem C106_others (before : List Op) (name : Name) (context : List Char) (events : List Event) (hname : name ≠ []) (hb : OrdinaryPriorities before)
    (ho : Ordinary events) (other : Name) (priority : ℤ) (a : ℕ) :
    (logTo (events.foldl runEvent (newFixed (before.foldl run Heap.empty) name context)).1 other priority).count a =
      (logTo ((before ++ categoryCalls events).foldl run Heap.empty) other priority).count a := by
  have hall : OrdinaryPriorities (before ++ categoryCalls events) := OrdinaryPriorities.append hb ho.1
  obtain ⟨⟨v, hv, -⟩, path, hp, -⟩ := C90_one_answer _ hall other
  rw [C90_delivery _ hall other v path hv hp priority a]
  obtain ⟨N, fresh, h, c', f0, -, f1, f2, f3, ha, hg, hsem, m1, m2, m3, hap, hown⟩ := object_spec before name context events hname hb ho other.length
  obtain ⟨g1, g2, g3, -⟩ := getInstance_spec _ hg other
  obtain ⟨hlt, hn⟩ := g1.map_lt _ _ g2
  have hf := inForce_of _ _ g1 (g3 _ hsem) _ hlt
  obtain ⟨path', hp', hcount⟩ := path_of _ _ g1 (g3 _ hsem) _ hlt _ hlt
  rw [hn] at hf hp'
  have e1 := inForce_unique (inForce_apart hap hv (by omega)) hf
  obtain ⟨hpc, hpl⟩ := path_apart hap hp (by omega)
  obtain rfl := path_unique hp' hpc
  obtain ⟨ha', hidx⟩ := agree_getInstance ha other f0
  have hch := ((strip_iff _ _).mp (ha'.cat (getInstance h other).2)).2.2.1
  unfold logTo log isPriorityEnabled
  simp only [hidx]
  rw [hch, ← e1, ha'.size, agree_callAppenders ha']
  simp only [ge_iff_le, decide_eq_true_eq]
  split
  · rw [hcount]
    refine List.countP_congr ?_
    intro n hn
    have hnf : n ≠ fresh := by
      rintro rfl
      have := hpl _ hn
      omega
    rw [hap.appenders n hnf]
  · rfl

/-- Setting used below: messages of priority 600 and more urgent are logged, category `a` logs priority 700 as well, appender 1 at the root. -/
def sample : List Op := [.addAppender [] 1, .setPriority [] 600, .setPriority ['a'] 700]

/-- **C106**, refuted: the priority set for the category of the name does not apply to the object: a message of priority 700 to the category is
logged, the same message to the object is not. -/
theorem C106_own_priority_refuted (context : List Char) :
    logTo (sample.foldl run Heap.empty) ['a'] 700 = [1] ∧
      fixedLog (newFixed (sample.foldl run Heap.empty) ['a'] context).1 (newFixed (sample.foldl run Heap.empty) ['a'] context).2 700 = [] := by
  constructor
  · decide +kernel
  · have : isPriorityEnabled (newFixed (sample.foldl run Heap.empty) ['a'] context).1 (newFixed (sample.foldl run Heap.empty) ['a'] context).2.index 700 =
        false := by
      have h : isPriorityEnabled (newFixed (sample.foldl run Heap.empty) ['a'] []).1 (newFixed (sample.foldl run Heap.empty) ['a'] []).2.index 700 =
        false := by decide +kernel
      exact h
    unfold fixedLog
    rw [this]
    rfl

/-- **C106**, refuted: an object for the root category has no category above it, and logs messages of every priority, whatever the priority of
the root is. -/
theorem C106_root_refuted (before : List Op) (context : List Char) (hb : OrdinaryPriorities before) (priority : ℤ) (hp : priority ≤ 800) (a : ℕ)
    (ha : a ∈ (configAfter before).appenders []) :
    (a, context) ∈ fixedLog (newFixed (before.foldl run Heap.empty) [] context).1 (newFixed (before.foldl run Heap.empty) [] context).2 priority := by
  obtain ⟨hg0, hs0⟩ := runs_spec before _ _ good_empty sem_empty hb
  obtain ⟨g1, g2, g3, -⟩ := getInstance_spec _ hg0 []
  have hs1 := g3 _ hs0
  unfold newFixed
  generalize getInstance (before.foldl run Heap.empty) [] = r at *
  obtain ⟨hlt, hrn⟩ := g1.map_lt _ _ g2
  have hpar : (r.1.cat r.2).parent = none := by
    cases hpp : (r.1.cat r.2).parent with
    | none => rfl
    | some p =>
      obtain ⟨-, -, h3⟩ := g1.par_some _ hlt p hpp
      exact absurd hrn h3
  have happ : a ∈ (r.1.cat r.2).appenders := by
    have := (hs1.some g2).2.2
    unfold configAfter at ha
    rw [this] at ha
    exact List.mem_toFinset.mp ha
  have hne : r.2 ≠ r.1.size := by omega
  simp only [fixedLog, isPriorityEnabled, hpar, create, Function.update_self, callAppenders, Function.update_of_ne hne]
  rw [if_pos (decide_eq_true hp)]
  exact List.mem_map.mpr ⟨a, List.mem_append_left _ happ, rfl⟩

/-- **C106**, refuted: after the object has been destroyed, whatever was done with it before, setting the priority of the category above its name still calls
it. -/
theorem C106_destroyed_refuted (before : List Op) (name : Name) (context : List Char) (events : List Event) (hname : name ≠ [])
    (hb : OrdinaryPriorities before) (ho : Ordinary events) (s : Heap × Fixed)
    (hs : s = events.foldl runEvent (newFixed (before.foldl run Heap.empty) name context)) :
    ∃ p, (destroyFixed s).map (parentName name) = some p ∧ ∀ fuel, s.2.index ∈ visited (fuel + 1) (destroyFixed s) p := by
  obtain ⟨N, fresh, h, c', -, f0, f1, f2, f3, ha, hg, hsem, m1, m2, m3, hap, hown⟩ := object_spec before name context events hname hb ho 0
  rw [← hs] at ha m1 m2 m3
  obtain ⟨l1, n1⟩ := hg.map_lt _ _ m1
  obtain ⟨p, hp⟩ : ∃ p, (h.cat s.2.index).parent = some p := by
    cases hpp : (h.cat s.2.index).parent with
    | none => exact absurd (n1 ▸ hg.par_none _ l1 hpp) f3
    | some p => exact ⟨p, rfl⟩
  obtain ⟨hp1, hp2, -⟩ := hg.par_some _ l1 p hp
  have hmap : h.map (parentName name) = some p := by
    rw [← f2, ← n1, ← hp2]
    exact hg.map_name p (by omega)
  have hlen := parentName_length name hname
  refine ⟨p, ?_, ?_⟩
  · show s.1.map (parentName name) = some p
    rw [ha.map _ (by omega), hmap]
  · intro fuel
    have hkid : s.2.index ∈ (h.cat p).children := (hg.kids p (by omega) s.2.index).mpr ⟨l1, hp⟩
    have hkid' : s.2.index ∈ ((destroyFixed s).cat p).children := by
      have e := ((strip_iff _ _).mp (ha.cat p)).2.2.2.2.2
      rw [← e] at hkid
      unfold destroyFixed removeAllAppenders Heap.modify
      by_cases hpi : p = s.2.index
      · omega
      · simp only [Function.update_of_ne hpi]
        exact hkid
    unfold visited
    exact List.mem_flatMap.mpr ⟨_, hkid', List.mem_cons_self⟩

/-- An object for category `a.b` with a priority of its own and another context; the appender is attached to `a` later. -/
example : Ordinary [.setPriority 700, .setContext ['y'], .category (.addAppender ['a'] 2)] ∧
    fixedLog ([Event.setPriority 700, .setContext ['y'], .category (.addAppender ['a'] 2)].foldl runEvent
        (newFixed (sample.foldl run Heap.empty) ['a', '.', 'b'] ['x'])).1
      ([Event.setPriority 700, .setContext ['y'], .category (.addAppender ['a'] 2)].foldl runEvent
        (newFixed (sample.foldl run Heap.empty) ['a', '.', 'b'] ['x'])).2 700 = [(2, ['y']), (1, ['y'])] := by
  refine ⟨⟨?_, ?_⟩, by decide +kernel⟩
  · intro n v hv
    simp [categoryCalls] at hv
  · intro v hv
    simp at hv
    omega

end Ubitrack.FixedContextProps
