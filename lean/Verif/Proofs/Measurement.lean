import Verif.Spec.Measurement

namespace Ubitrack.Meas
open Spec
variable {α : Type}

/-- Every pointer points into the heap. -/
def WF (s : St α) : Prop :=
  ∀ (h : Nat) (m : Handle), s.hs[h]? = some m → ∀ a, m.ptr = some a → a < s.heap.length

/-- The four shapes of effect a successful operation can have. -/
inductive Eff (s : St α) : Op α → St α → Prop
  | addPtr (op : Op α) (t : BitVec 64) (p : Option Nat) (hc : creates op = 1)
      (hw : writesTo op = none) (hr : repoints op = none) (ht : retimes op = none)
      (src : (p = none ∧ (∀ F, family s.hs.length F op = fun i => if i = s.hs.length then false else F i)) ∨
        ∃ h m, s.hs[h]? = some m ∧ m.ptr = p ∧
        (∀ F, family s.hs.length F op = fun i => if i = s.hs.length then F h else F i)) :
      Eff s op (addPtr s t p)
  | addVal (op : Op α) (t : BitVec 64) (v : α) (hc : creates op = 1)
      (hw : writesTo op = none) (hr : repoints op = none) (ht : retimes op = none)
      (hf : ∀ F, family s.hs.length F op = fun i => if i = s.hs.length then false else F i) :
      Eff s op (addVal s t v)
  | upd (op : Op α) (h : Nat) (m m' : Handle) (hm : s.hs[h]? = some m) (hc : creates op = 0)
      (hw : writesTo op = none)
      (hr : repoints op ≠ some h → m'.ptr = m.ptr)
      (ht : retimes op ≠ some h → m'.time = m.time)
      (hf : (m'.ptr = m.ptr ∧ ∀ F, family s.hs.length F op = F) ∨
        (m'.ptr = none ∧ ∀ F, family s.hs.length F op = fun i => if i = h then false else F i) ∨
        ∃ (g : Nat) (mg : Handle), s.hs[g]? = some mg ∧ m'.ptr = mg.ptr ∧
          ∀ F, family s.hs.length F op = fun i => if i = h then F g else F i) :
      Eff s op { s with hs := s.hs.set h m' }
  | wr (h : Nat) (m : Handle) (a : Nat) (v : α) (hm : s.hs[h]? = some m) (ha : m.ptr = some a)
      (hl : a < s.heap.length) :
      Eff s (.write h v) { s with heap := s.heap.set a v }

theorem step_eff {s s' : St α} {op : Op α} (h : step s op = some s') : Eff s op s' := by
  cases op with
  | mkDefault => simp only [step, Option.some.injEq] at h; subst h
                 exact .addPtr _ _ _ rfl rfl rfl rfl (Or.inl ⟨rfl, fun _ => rfl⟩)
  | mkTime t => simp only [step, Option.some.injEq] at h; subst h
                exact .addPtr _ _ _ rfl rfl rfl rfl (Or.inl ⟨rfl, fun _ => rfl⟩)
  | mkShared g =>
    simp only [step, Option.bind_eq_bind, Option.bind_eq_some_iff, Option.some.injEq] at h
    obtain ⟨m, hm, rfl⟩ := h
    exact .addPtr _ _ _ rfl rfl rfl rfl (Or.inr ⟨g, m, hm, rfl, fun _ => rfl⟩)
  | mkTimeShared t g =>
    simp only [step, Option.bind_eq_bind, Option.bind_eq_some_iff, Option.some.injEq] at h
    obtain ⟨m, hm, rfl⟩ := h
    exact .addPtr _ _ _ rfl rfl rfl rfl (Or.inr ⟨g, m, hm, rfl, fun _ => rfl⟩)
  | copy g =>
    simp only [step, Option.bind_eq_bind, Option.bind_eq_some_iff, Option.some.injEq] at h
    obtain ⟨m, hm, rfl⟩ := h
    exact .addPtr _ _ _ rfl rfl rfl rfl (Or.inr ⟨g, m, hm, rfl, fun _ => rfl⟩)
  | mkValue v => simp only [step, Option.some.injEq] at h; subst h
                 exact .addVal _ _ _ rfl rfl rfl rfl (fun _ => rfl)
  | mkTimeValue t v => simp only [step, Option.some.injEq] at h; subst h
                       exact .addVal _ _ _ rfl rfl rfl rfl (fun _ => rfl)
  | assign x g =>
    simp only [step, Option.bind_eq_bind, Option.bind_eq_some_iff, Option.some.injEq] at h
    obtain ⟨m, hm, mg, hg, rfl⟩ := h
    exact .upd _ x m mg hm rfl rfl (by simp [repoints]) (by simp [retimes])
      (Or.inr (Or.inr ⟨g, mg, hg, rfl, fun _ => rfl⟩))
  | clone g =>
    simp only [step, Option.bind_eq_bind, Option.bind_eq_some_iff] at h
    obtain ⟨m, hm, h⟩ := h
    cases hp : m.ptr with
    | none =>
      rw [hp] at h
      simp only [Option.some.injEq] at h; subst h
      exact .addPtr _ _ _ rfl rfl rfl rfl (Or.inl ⟨rfl, fun _ => rfl⟩)
    | some a =>
      rw [hp] at h
      simp only [Option.bind_eq_some_iff, Option.some.injEq] at h
      obtain ⟨v, _, rfl⟩ := h
      exact .addVal _ _ _ rfl rfl rfl rfl (fun _ => rfl)
  | setTime x t =>
    simp only [step, Option.bind_eq_bind, Option.bind_eq_some_iff, Option.some.injEq] at h
    obtain ⟨m, hm, rfl⟩ := h
    exact .upd _ x m _ hm rfl rfl (by simp) (by simp [retimes]) (Or.inl ⟨rfl, fun _ => rfl⟩)
  | invalidate x =>
    simp only [step, Option.bind_eq_bind, Option.bind_eq_some_iff, Option.some.injEq] at h
    obtain ⟨m, hm, rfl⟩ := h
    exact .upd _ x m _ hm rfl rfl (by simp) (by simp [retimes]) (Or.inl ⟨rfl, fun _ => rfl⟩)
  | write x v =>
    simp only [step, Option.bind_eq_bind, Option.bind_eq_some_iff, Option.some.injEq] at h
    obtain ⟨m, hm, a, ha, w, hw, rfl⟩ := h
    exact .wr x m a v hm ha (List.getElem?_eq_some_iff.mp hw).1
  | reset x =>
    simp only [step, Option.bind_eq_bind, Option.bind_eq_some_iff, Option.some.injEq] at h
    obtain ⟨m, hm, rfl⟩ := h
    exact .upd _ x m _ hm rfl rfl (by simp [repoints]) (by simp)
      (Or.inr (Or.inl ⟨rfl, fun _ => rfl⟩))

theorem lt_of_get {l : List Handle} {i : Nat} {m : Handle} (h : l[i]? = some m) : i < l.length :=
  (List.getElem?_eq_some_iff.mp h).1

theorem eff_length {s s' : St α} {op : Op α} (h : Eff s op s') :
    s'.hs.length = s.hs.length + creates op := by
  cases h with
  | addPtr _ t p hc => simp [addPtr, hc]
  | addVal _ t v hc => simp [addVal, hc]
  | upd _ x m m' hm hc => simp [hc]
  | wr => simp [creates]

theorem eff_wf {s s' : St α} {op : Op α} (h : Eff s op s') (hwf : WF s) : WF s' := by
  intro i m hi a ha
  cases h with
  | addPtr _ t p _ _ _ _ src =>
    simp only [addPtr] at hi ⊢
    rw [List.getElem?_append] at hi
    split at hi
    · exact hwf i m hi a ha
    · have : m = ⟨p, t⟩ := by
        rw [List.getElem?_singleton] at hi
        split at hi <;> simp_all
      subst this
      rcases src with ⟨rfl, _⟩ | ⟨g, mg, hg, rfl, _⟩
      · simp at ha
      · exact hwf g mg hg a ha
  | addVal _ t v =>
    simp only [addVal, List.length_append, List.length_singleton] at hi ⊢
    rw [List.getElem?_append] at hi
    split at hi
    · have := hwf i m hi a ha; omega
    · have : m = ⟨some s.heap.length, t⟩ := by
        rw [List.getElem?_singleton] at hi
        split at hi <;> simp_all
      subst this
      simp at ha; omega
  | upd _ x mx m' hm hc hw hr ht hf =>
    rw [List.getElem?_set] at hi
    split at hi
    · split at hi
      · simp only [Option.some.injEq] at hi
        subst hi
        rcases hf with ⟨e, _⟩ | ⟨e, _⟩ | ⟨g, mg, hg, e, _⟩
        · exact hwf x mx hm a (e ▸ ha)
        · rw [e] at ha; simp at ha
        · exact hwf g mg hg a (e ▸ ha)
      · simp at hi
    · exact hwf i m hi a ha
  | wr x mx b v hm hb hl =>
    simp only [List.length_set]
    exact hwf i m hi a ha

/-- The pointer of an object that is not repointed does not change. -/
theorem eff_ptr {s s' : St α} {op : Op α} (h : Eff s op s') {i : Nat} {m : Handle}
    (hi : s.hs[i]? = some m) (hr : repoints op ≠ some i) :
    ∃ m', s'.hs[i]? = some m' ∧ m'.ptr = m.ptr := by
  have hlt := lt_of_get hi
  cases h with
  | addPtr => exact ⟨m, by simp [addPtr, List.getElem?_append, hlt, ← hi], rfl⟩
  | addVal => exact ⟨m, by simp [addVal, List.getElem?_append, hlt, ← hi], rfl⟩
  | upd _ x mx m' hm hc hw hrp =>
    by_cases hx : x = i
    · subst hx
      have : mx = m := by rw [hm] at hi; simpa using hi
      subst this
      exact ⟨m', by simp [hlt], hrp hr⟩
    · exact ⟨m, by simp [hx, hi], rfl⟩
  | wr => exact ⟨m, hi, rfl⟩

/-- The timestamp of an object that is not retimed does not change. -/
theorem eff_time {s s' : St α} {op : Op α} (h : Eff s op s') {i : Nat} {m : Handle}
    (hi : s.hs[i]? = some m) (hr : retimes op ≠ some i) :
    ∃ m', s'.hs[i]? = some m' ∧ m'.time = m.time := by
  have hlt := lt_of_get hi
  cases h with
  | addPtr => exact ⟨m, by simp [addPtr, List.getElem?_append, hlt, ← hi], rfl⟩
  | addVal => exact ⟨m, by simp [addVal, List.getElem?_append, hlt, ← hi], rfl⟩
  | upd _ x mx m' hm hc hw hrp ht =>
    by_cases hx : x = i
    · subst hx
      have : mx = m := by rw [hm] at hi; simpa using hi
      subst this
      exact ⟨m', by simp [hlt], ht hr⟩
    · exact ⟨m, by simp [hx, hi], rfl⟩
  | wr => exact ⟨m, hi, rfl⟩

/-- A cell not written through keeps its content. -/
theorem eff_heap {s s' : St α} {op : Op α} (h : Eff s op s') {a : Nat} (ha : a < s.heap.length)
    (hw : ∀ (x : Nat) (m : Handle), writesTo op = some x → s.hs[x]? = some m → m.ptr ≠ some a) :
    s'.heap[a]? = s.heap[a]? ∧ a < s'.heap.length := by
  cases h with
  | addPtr => exact ⟨rfl, ha⟩
  | addVal => constructor
              · simp [addVal, List.getElem?_append, ha]
              · simp [addVal]; omega
  | upd => exact ⟨rfl, ha⟩
  | wr x mx b v hm hb hl =>
    have hne : b ≠ a := fun e => hw x mx rfl hm (e ▸ hb)
    exact ⟨by simp [hne], by simpa using ha⟩

/-- The syntactic family tracks exactly the objects pointing to one given cell. -/
def Tracks (s : St α) (F : Nat → Bool) (a : Nat) : Prop :=
  ∀ (i : Nat) (m : Handle), s.hs[i]? = some m → (F i = true ↔ m.ptr = some a)

theorem eff_tracks {s s' : St α} {op : Op α} (h : Eff s op s') {F : Nat → Bool} {a : Nat}
    (ha : a < s.heap.length) (hF : Tracks s F a) :
    Tracks s' (family s.hs.length F op) a := by
  intro i m hi
  cases h with
  | addPtr _ t p _ _ _ _ src =>
    simp only [addPtr] at hi
    rw [List.getElem?_append] at hi
    split at hi
    · rename_i hlt
      have hne : i ≠ s.hs.length := by omega
      rcases src with ⟨_, hf⟩ | ⟨_, _, _, _, hf⟩ <;> simp [hf, hne, hF i m hi]
    · rename_i hlt
      rw [List.getElem?_singleton] at hi
      split at hi
      · rename_i h0
        have hie : i = s.hs.length := by omega
        simp only [Option.some.injEq] at hi
        subst hi
        rcases src with ⟨rfl, hf⟩ | ⟨g, mg, hg, rfl, hf⟩
        · simp [hf, hie]
        · simp [hf, hie, hF g mg hg]
      · simp at hi
  | addVal _ t v _ _ _ _ hf =>
    simp only [addVal] at hi
    rw [List.getElem?_append] at hi
    split at hi
    · rename_i hlt
      have hne : i ≠ s.hs.length := by omega
      simp [hf, hne, hF i m hi]
    · rename_i hlt
      rw [List.getElem?_singleton] at hi
      split at hi
      · rename_i h0
        have hie : i = s.hs.length := by omega
        simp only [Option.some.injEq] at hi
        subst hi
        simp [hf, hie]; omega
      · simp at hi
  | upd _ x mx m' hm hc hw hr ht hf =>
    rw [List.getElem?_set] at hi
    split at hi
    · rename_i hx
      subst hx
      split at hi
      · simp only [Option.some.injEq] at hi
        subst hi
        rcases hf with ⟨e, hf⟩ | ⟨e, hf⟩ | ⟨g, mg, hg, e, hf⟩
        · rw [hf, e]; exact hF x mx hm
        · simp [hf, e]
        · simp [hf, e, hF g mg hg]
      · simp at hi
    · rename_i hx
      have hx' : i ≠ x := fun e => hx e.symm
      rcases hf with ⟨e, hf⟩ | ⟨e, hf⟩ | ⟨g, mg, hg, e, hf⟩
      · rw [hf]; exact hF i m hi
      · simp [hf, hx', hF i m hi]
      · simp [hf, hx', hF i m hi]
  | wr x mx b v hm hb hl => exact hF i m hi

theorem run_cons {s s2 : St α} {op : Op α} {ops : List (Op α)} (h : run s (op :: ops) = some s2) :
    ∃ s1, Eff s op s1 ∧ run s1 ops = some s2 := by
  simp only [run, Option.bind_eq_bind, Option.bind_eq_some_iff] at h
  obtain ⟨s1, h1, h2⟩ := h
  exact ⟨s1, step_eff h1, h2⟩

theorem run_wf {s s' : St α} {ops : List (Op α)} (h : run s ops = some s') (hwf : WF s) : WF s' := by
  induction ops generalizing s with
  | nil => simp only [run, Option.some.injEq] at h; exact h ▸ hwf
  | cons op ops ih =>
    obtain ⟨s1, h1, h2⟩ := run_cons h
    exact ih h2 (eff_wf h1 hwf)

theorem init_wf : WF (init : St α) := by
  intro i m hi; simp [init] at hi

theorem run_ptr {s s' : St α} {ops : List (Op α)} (h : run s ops = some s') {i : Nat} {m : Handle}
    (hi : s.hs[i]? = some m) (hr : ∀ op ∈ ops, repoints op ≠ some i) :
    ∃ m', s'.hs[i]? = some m' ∧ m'.ptr = m.ptr := by
  induction ops generalizing s m with
  | nil => simp only [run, Option.some.injEq] at h; exact ⟨m, h ▸ hi, rfl⟩
  | cons op ops ih =>
    obtain ⟨s1, h1, h2⟩ := run_cons h
    obtain ⟨m1, hm1, e1⟩ := eff_ptr h1 hi (hr op (by simp))
    obtain ⟨m2, hm2, e2⟩ := ih h2 hm1 (fun o ho => hr o (by simp [ho]))
    exact ⟨m2, hm2, e2.trans e1⟩

theorem run_time {s s' : St α} {ops : List (Op α)} (h : run s ops = some s') {i : Nat} {m : Handle}
    (hi : s.hs[i]? = some m) (hr : ∀ op ∈ ops, retimes op ≠ some i) :
    ∃ m', s'.hs[i]? = some m' ∧ m'.time = m.time := by
  induction ops generalizing s m with
  | nil => simp only [run, Option.some.injEq] at h; exact ⟨m, h ▸ hi, rfl⟩
  | cons op ops ih =>
    obtain ⟨s1, h1, h2⟩ := run_cons h
    obtain ⟨m1, hm1, e1⟩ := eff_time h1 hi (hr op (by simp))
    obtain ⟨m2, hm2, e2⟩ := ih h2 hm1 (fun o ho => hr o (by simp [ho]))
    exact ⟨m2, hm2, e2.trans e1⟩

theorem run_cell_noWrite {s s' : St α} {ops : List (Op α)} (h : run s ops = some s')
    {F : Nat → Bool} {a : Nat} (ha : a < s.heap.length) (hF : Tracks s F a)
    (hn : NoWriteThrough s.hs.length F ops) : s'.heap[a]? = s.heap[a]? := by
  induction ops generalizing s F with
  | nil => simp only [run, Option.some.injEq] at h; rw [h]
  | cons op ops ih =>
    obtain ⟨s1, h1, h2⟩ := run_cons h
    obtain ⟨e, hl⟩ := eff_heap h1 ha (fun x m hx hm hp => by
      have := hn.1 x hx
      rw [((hF x m hm).mpr hp)] at this
      simp at this)
    rw [← e]
    apply ih h2 hl (eff_tracks h1 ha hF)
    rw [eff_length h1]
    exact hn.2

theorem run_cell_onlyWrite {s s' : St α} {ops : List (Op α)} (h : run s ops = some s')
    {F : Nat → Bool} {a b : Nat} (ha : a < s.heap.length) (hF : Tracks s F a)
    (hb : b < s.heap.length) (hab : b ≠ a)
    (hn : OnlyWritesThrough s.hs.length F ops) : s'.heap[b]? = s.heap[b]? := by
  induction ops generalizing s F with
  | nil => simp only [run, Option.some.injEq] at h; rw [h]
  | cons op ops ih =>
    obtain ⟨s1, h1, h2⟩ := run_cons h
    obtain ⟨e, hl⟩ := eff_heap h1 hb (fun x m hx hm hp => by
      have := hn.1 x hx
      rw [(hF x m hm).mp this] at hp
      simp at hp; exact hab hp.symm)
    have hla : a < s1.heap.length := by
      cases h1 with
      | addPtr => exact ha
      | addVal => simp [addVal]; omega
      | upd => exact ha
      | wr => simpa using ha
    rw [← e]
    apply ih h2 hla (eff_tracks h1 ha hF) hl
    rw [eff_length h1]
    exact hn.2

/-- Nobody points to a null cell: the family of a handle with an empty pointer. -/
def TracksNull (s : St α) (F : Nat → Bool) : Prop :=
  ∀ (i : Nat) (m : Handle), s.hs[i]? = some m → F i = true → m.ptr = none

end Ubitrack.Meas

namespace Ubitrack.Meas
open Spec
variable {α : Type}

theorem eff_tracksNull {s s' : St α} {op : Op α} (h : Eff s op s') {F : Nat → Bool}
    (hF : TracksNull s F) : TracksNull s' (family s.hs.length F op) := by
  intro i m hi
  cases h with
  | addPtr _ t p _ _ _ _ src =>
    simp only [addPtr] at hi
    rw [List.getElem?_append] at hi
    split at hi
    · rename_i hlt
      have hne : i ≠ s.hs.length := by omega
      rcases src with ⟨_, hf⟩ | ⟨_, _, _, _, hf⟩ <;> simpa [hf, hne] using hF i m hi
    · rename_i hlt
      rw [List.getElem?_singleton] at hi
      split at hi
      · rename_i h0
        have hie : i = s.hs.length := by omega
        simp only [Option.some.injEq] at hi
        subst hi
        rcases src with ⟨rfl, hf⟩ | ⟨g, mg, hg, rfl, hf⟩
        · simp
        · simpa [hf, hie] using hF g mg hg
      · simp at hi
  | addVal _ t v _ _ _ _ hf =>
    simp only [addVal] at hi
    rw [List.getElem?_append] at hi
    split at hi
    · rename_i hlt
      have hne : i ≠ s.hs.length := by omega
      simpa [hf, hne] using hF i m hi
    · rename_i hlt
      rw [List.getElem?_singleton] at hi
      split at hi
      · have hie : i = s.hs.length := by omega
        simp [hf, hie]
      · simp at hi
  | upd _ x mx m' hm hc hw hr ht hf =>
    rw [List.getElem?_set] at hi
    split at hi
    · rename_i hx
      subst hx
      split at hi
      · simp only [Option.some.injEq] at hi
        subst hi
        rcases hf with ⟨e, hf⟩ | ⟨e, hf⟩ | ⟨g, mg, hg, e, hf⟩
        · rw [hf, e]; exact hF x mx hm
        · simp [hf]
        · simpa [hf, e] using hF g mg hg
      · simp at hi
    · rename_i hx
      have hx' : i ≠ x := fun e => hx e.symm
      rcases hf with ⟨e, hf⟩ | ⟨e, hf⟩ | ⟨g, mg, hg, e, hf⟩
      · rw [hf]; exact hF i m hi
      · simpa [hf, hx'] using hF i m hi
      · simpa [hf, hx'] using hF i m hi
  | wr x mx b v hm hb hl => exact hF i m hi

theorem run_cell_onlyWrite_null {s s' : St α} {ops : List (Op α)} (h : run s ops = some s')
    {F : Nat → Bool} {b : Nat} (hF : TracksNull s F) (hb : b < s.heap.length)
    (hn : OnlyWritesThrough s.hs.length F ops) : s'.heap[b]? = s.heap[b]? := by
  induction ops generalizing s F with
  | nil => simp only [run, Option.some.injEq] at h; rw [h]
  | cons op ops ih =>
    obtain ⟨s1, h1, h2⟩ := run_cons h
    obtain ⟨e, hl⟩ := eff_heap h1 hb (fun x m hx hm hp => by
      have := hF x m hm (hn.1 x hx)
      rw [this] at hp
      simp at hp)
    rw [← e]
    apply ih h2 (eff_tracksNull h1 hF) hl
    rw [eff_length h1]
    exact hn.2

theorem payload_eq {s : St α} {i : Nat} {m : Handle} (h : s.hs[i]? = some m) :
    payload s i = m.ptr.bind (fun a => s.heap[a]?) := by
  simp [payload, h]

end Ubitrack.Meas
