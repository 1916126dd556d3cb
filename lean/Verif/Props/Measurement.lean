import Verif.Proofs.Measurement

/-!
# C11: measurements through arbitrary histories
-/

namespace Ubitrack.Meas
open Spec
variable {α : Type}

/-- **C11** After any program, a clone shows the original's payload and timestamp. Whatever the
program does afterwards: as long as the clone itself is not reassigned or reset, its payload
changes only by writes through the clone or objects copied from it; and if all writes go through
those, no other object's payload changes. -/
theorem C11_clone_is_independent (pre : List (Op α)) (s0 s1 s2 : St α) (h : Nat)
    (hpre : run init pre = some s0) (hclone : step s0 (.clone h) = some s1)
    (ops : List (Op α)) (hops : run s1 ops = some s2) :
    let c := s0.hs.length
    (payload s1 c = payload s0 h ∧ timeOf s1 c = timeOf s0 h) ∧
    ((∀ op ∈ ops, repoints op ≠ some c) →
      NoWriteThrough s1.hs.length (fun i => i == c) ops → payload s2 c = payload s0 h) ∧
    (OnlyWritesThrough s1.hs.length (fun i => i == c) ops →
      ∀ g < c, (∀ op ∈ ops, repoints op ≠ some g) → payload s2 g = payload s0 g) := by
  intro c
  have hwf0 := run_wf hpre init_wf
  have hwf1 := eff_wf (step_eff hclone) hwf0
  simp only [step, Option.bind_eq_bind, Option.bind_eq_some_iff] at hclone
  obtain ⟨m, hm, hcl⟩ := hclone
  cases hp : m.ptr with
  | none =>
    rw [hp] at hcl
    simp only [Option.some.injEq] at hcl; subst hcl
    have hc1 : (addPtr s0 m.time none).hs[c]? = some ⟨none, m.time⟩ := by simp [addPtr, c]
    have hp0 : payload s0 h = none := by rw [payload_eq hm, hp]; rfl
    refine ⟨⟨?_, ?_⟩, ?_, ?_⟩
    · rw [hp0, payload_eq hc1]; rfl
    · simp [timeOf, hc1, hm]
    · intro hr _
      obtain ⟨m', hm', e⟩ := run_ptr hops hc1 hr
      rw [hp0, payload_eq hm', e]; rfl
    · intro ho g hg hr
      have hglt : g < s0.hs.length := hg
      obtain ⟨mg, hmg⟩ : ∃ mg, s0.hs[g]? = some mg := ⟨s0.hs[g], by simp [hglt]⟩
      have hmg1 : (addPtr s0 m.time none).hs[g]? = some mg := by
        simp [addPtr, List.getElem?_append, hglt, ← hmg]
      obtain ⟨m', hm', e⟩ := run_ptr hops hmg1 hr
      rw [payload_eq hm', payload_eq hmg, e]
      cases hpg : mg.ptr with
      | none => rfl
      | some b =>
        have hb : b < s0.heap.length := hwf0 g mg hmg b hpg
        have hnull : TracksNull (addPtr s0 m.time none) (fun i => i == c) := by
          intro i mi hi hF
          simp only [beq_iff_eq] at hF
          subst hF
          rw [hc1] at hi
          simp only [Option.some.injEq] at hi
          rw [← hi]
        exact run_cell_onlyWrite_null hops hnull (show b < (addPtr s0 m.time none).heap.length from hb) ho
  | some a =>
    rw [hp] at hcl
    simp only [Option.bind_eq_some_iff, Option.some.injEq] at hcl
    obtain ⟨v, hv, rfl⟩ := hcl
    have hc1 : (addVal s0 m.time v).hs[c]? = some ⟨some s0.heap.length, m.time⟩ := by
      simp [addVal, c]
    have hp0 : payload s0 h = some v := by rw [payload_eq hm, hp]; exact hv
    have hcell : (addVal s0 m.time v).heap[s0.heap.length]? = some v := by simp [addVal]
    have hlt : s0.heap.length < (addVal s0 m.time v).heap.length := by simp [addVal]
    have htr : Tracks (addVal s0 m.time v) (fun i => i == c) s0.heap.length := by
      intro i mi hi
      simp only [addVal] at hi
      rw [List.getElem?_append] at hi
      split at hi
      · rename_i hil
        have := hwf0 i mi hi
        constructor
        · intro hF
          simp only [beq_iff_eq] at hF
          omega
        · intro hF
          have := this _ hF
          omega
      · rw [List.getElem?_singleton] at hi
        split at hi
        · simp only [Option.some.injEq] at hi
          subst hi
          simp only [beq_iff_eq, iff_true]
          omega
        · simp at hi
    refine ⟨⟨?_, ?_⟩, ?_, ?_⟩
    · rw [hp0, payload_eq hc1]; exact hcell
    · simp [timeOf, hc1, hm]
    · intro hr hn
      obtain ⟨m', hm', e⟩ := run_ptr hops hc1 hr
      rw [hp0, payload_eq hm', e]
      exact (run_cell_noWrite hops hlt htr hn).trans hcell
    · intro ho g hg hr
      have hglt : g < s0.hs.length := hg
      obtain ⟨mg, hmg⟩ : ∃ mg, s0.hs[g]? = some mg := ⟨s0.hs[g], by simp [hglt]⟩
      have hmg1 : (addVal s0 m.time v).hs[g]? = some mg := by
        simp [addVal, List.getElem?_append, hglt, ← hmg]
      obtain ⟨m', hm', e⟩ := run_ptr hops hmg1 hr
      rw [payload_eq hm', payload_eq hmg, e]
      cases hpg : mg.ptr with
      | none => rfl
      | some b =>
        have hb : b < s0.heap.length := hwf0 g mg hmg b hpg
        have : s2.heap[b]? = (addVal s0 m.time v).heap[b]? :=
          run_cell_onlyWrite hops hlt htr (by simp [addVal]; omega) (by omega) ho
        simp only [Option.bind_some]
        rw [this]
        simp [addVal, List.getElem?_append, hb]

/-- **C11** After any program, a copy aliases the payload: however the program continues, as long
as neither object is reassigned or reset, both show the same payload (in particular every write
through one is seen through the other); the timestamp is copied but not shared. -/
theorem C11_copy_aliases (pre : List (Op α)) (s0 s1 s2 : St α) (h : Nat)
    (_hpre : run init pre = some s0) (hcopy : step s0 (.copy h) = some s1)
    (ops : List (Op α)) (hops : run s1 ops = some s2) :
    let c := s0.hs.length
    (payload s1 c = payload s0 h ∧ timeOf s1 c = timeOf s0 h) ∧
    ((∀ op ∈ ops, repoints op ≠ some c ∧ repoints op ≠ some h) → payload s2 c = payload s2 h) ∧
    ((∀ op ∈ ops, retimes op ≠ some h) → timeOf s2 h = timeOf s0 h) ∧
    ((∀ op ∈ ops, retimes op ≠ some c) → timeOf s2 c = timeOf s0 h) := by
  intro c
  simp only [step, Option.bind_eq_bind, Option.bind_eq_some_iff, Option.some.injEq] at hcopy
  obtain ⟨m, hm, rfl⟩ := hcopy
  have hlt := lt_of_get hm
  have hc1 : (addPtr s0 m.time m.ptr).hs[c]? = some m := by simp [addPtr, c]
  have hh1 : (addPtr s0 m.time m.ptr).hs[h]? = some m := by
    simp [addPtr, List.getElem?_append, hlt, ← hm]
  refine ⟨⟨?_, ?_⟩, ?_, ?_, ?_⟩
  · rw [payload_eq hc1, payload_eq hm]; rfl
  · simp [timeOf, hc1, hm]
  · intro hr
    obtain ⟨mc, hmc, ec⟩ := run_ptr hops hc1 (fun o ho => (hr o ho).1)
    obtain ⟨mh, hmh, eh⟩ := run_ptr hops hh1 (fun o ho => (hr o ho).2)
    rw [payload_eq hmc, payload_eq hmh, ec, eh]
  · intro hr
    obtain ⟨mh, hmh, eh⟩ := run_time hops hh1 hr
    simp [timeOf, hmh, eh, hm]
  · intro hr
    obtain ⟨mc, hmc, ec⟩ := run_time hops hc1 hr
    simp [timeOf, hmc, ec, hm]

/-- **C11** A write is seen through the object written. -/
theorem C11_write_read (s s' : St α) (h : Nat) (v : α) (hw : step s (.write h v) = some s') :
    payload s' h = some v ∧ timeOf s' h = timeOf s h := by
  simp only [step, Option.bind_eq_bind, Option.bind_eq_some_iff, Option.some.injEq] at hw
  obtain ⟨m, hm, a, ha, w, hw, rfl⟩ := hw
  have hl := (List.getElem?_eq_some_iff.mp hw).1
  constructor
  · simp [payload, hm, ha, hl]
  · simp [timeOf]

/-- **C11** `invalidate()` makes exactly that object invalid: its payload, and everything about
every other object, stays. -/
theorem C11_invalidate (s s' : St α) (h : Nat) (hi : step s (.invalidate h) = some s') :
    invalid s' h = some true ∧ (∀ g, payload s' g = payload s g) ∧
    (∀ g, g ≠ h → timeOf s' g = timeOf s g ∧ invalid s' g = invalid s g) := by
  simp only [step, Option.bind_eq_bind, Option.bind_eq_some_iff, Option.some.injEq] at hi
  obtain ⟨m, hm, rfl⟩ := hi
  have hlt := lt_of_get hm
  refine ⟨by simp [invalid, hlt, INVALID], fun g => ?_, fun g hg => ?_⟩
  · by_cases hg : h = g
    · subst hg
      rw [payload_eq hm]; simp [payload, hlt]
    · simp [payload, hg]
  · have hg' : h ≠ g := fun e => hg e.symm
    simp [timeOf, invalid, hg']

/-- **C11** In every reachable state an object is invalid exactly when its timestamp is 0. -/
theorem C11_invalid_iff_time_zero (s : St α) (h : Nat) :
    invalid s h = some true ↔ timeOf s h = some 0 := by
  simp only [invalid, timeOf, INVALID, Option.map_eq_some_iff, beq_iff_eq]

/-- **C11** Which constructors give an invalid measurement: all those without a timestamp, and
those given the timestamp 0. The payload of a value constructor is the value; the pointer constructors share
the payload of the given pointer but not its timestamp. -/
theorem C11_constructors (s : St α) (t : BitVec 64) (v : α) :
    (∀ s', step s .mkDefault = some s' →
      invalid s' s.hs.length = some true ∧ payload s' s.hs.length = none) ∧
    (∀ s', step s (.mkValue v) = some s' →
      invalid s' s.hs.length = some true ∧ payload s' s.hs.length = some v) ∧
    (∀ s', step s (.mkTimeValue t v) = some s' →
      (invalid s' s.hs.length = some true ↔ t = 0) ∧ timeOf s' s.hs.length = some t ∧
      payload s' s.hs.length = some v) ∧
    (∀ s' h, step s (.mkShared h) = some s' →
      invalid s' s.hs.length = some true ∧ payload s' s.hs.length = payload s h) ∧
    (∀ s' h, step s (.mkTimeShared t h) = some s' →
      timeOf s' s.hs.length = some t ∧ payload s' s.hs.length = payload s h) ∧
    (∀ s', step s (.mkTime t) = some s' →
      timeOf s' s.hs.length = some t ∧ payload s' s.hs.length = none) := by
  refine ⟨?_, ?_, ?_, ?_, ?_, ?_⟩
  · intro s' h
    simp only [step, Option.some.injEq] at h; subst h
    simp [invalid, payload, addPtr, INVALID]
  · intro s' h
    simp only [step, Option.some.injEq] at h; subst h
    simp [invalid, payload, addVal, INVALID]
  · intro s' h
    simp only [step, Option.some.injEq] at h; subst h
    simp [invalid, payload, addVal, timeOf, INVALID]
  · intro s' g h
    simp only [step, Option.bind_eq_bind, Option.bind_eq_some_iff, Option.some.injEq] at h
    obtain ⟨m, hm, rfl⟩ := h
    simp [invalid, payload, addPtr, INVALID, hm]
  · intro s' g h
    simp only [step, Option.bind_eq_bind, Option.bind_eq_some_iff, Option.some.injEq] at h
    obtain ⟨m, hm, rfl⟩ := h
    simp [timeOf, payload, addPtr, hm]
  · intro s' h
    simp only [step, Option.some.injEq] at h; subst h
    simp [timeOf, payload, addPtr]

/-- Concrete history: construct, copy, clone, write through the copy. The original and the copy
see the write, the clone does not. All hypotheses of the theorems above are met. -/
example : ∃ s : St Nat,
    run init [.mkTimeValue 7 10, .copy 0, .clone 0, .write 1 99, .invalidate 1] = some s ∧
    payload s 0 = some 99 ∧ payload s 1 = some 99 ∧ payload s 2 = some 10 ∧
    invalid s 0 = some false ∧ invalid s 1 = some true ∧ timeOf s 2 = some 7 := by
  refine ⟨_, rfl, ?_⟩
  decide

example : NoWriteThrough 3 (fun i => i == 2) ([.write 1 99, .copy 2, .write 0 5] : List (Op Nat)) ∧
    OnlyWritesThrough 3 (fun i => i == 2) ([.copy 2, .write 3 5] : List (Op Nat)) := by
  constructor <;> simp [NoWriteThrough, OnlyWritesThrough, writesTo, family, creates]

end Ubitrack.Meas
