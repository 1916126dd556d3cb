import Verif.Spec.LogStream
import Verif.Props.FixedContext

/-!
# C107: streams of a category
-/

namespace Ubitrack.LogStreamProps

open Logging hiding Step
open LogStream Spec Spec.LogStream FixedContextProps

/-- As `Safe`, with something of the message before the steps. -/
def SafeFrom (has : Bool) (xs : List Step) : Prop := ∀ a x b, xs = a ++ x :: b → needsMessage x = true →
  (has = true ∧ ∀ z ∈ a, isEnd z = false) ∨ ∃ c y d, a = c ++ y :: d ∧ begins y = true ∧ ∀ z ∈ d, isEnd z = false

lemma safe_iff (xs : List Step) : Safe xs ↔ SafeFrom false xs := by
  unfold Safe SafeFrom
  simp

lemma safeFrom_head {has : Bool} {x : Step} {xs : List Step} (h : SafeFrom has (x :: xs)) (hx : needsMessage x = true) : has = true := by
  rcases h [] x xs rfl hx with h | ⟨c, y, d, h, -⟩
  · exact h.1
  · simp at h

lemma safeFrom_tail {has : Bool} {x : Step} {xs : List Step} (h : SafeFrom has (x :: xs)) :
    SafeFrom (if isEnd x then false else if begins x then true else has) xs := by
  intro a y b hxs hy
  rcases h (x :: a) y b (by rw [hxs]; rfl) hy with ⟨h1, h2⟩ | ⟨c, z, d, h1, h2, h3⟩
  · left
    rw [List.forall_mem_cons] at h2
    rw [h2.1]
    refine ⟨?_, h2.2⟩
    simp [h1]
  · cases c with
    | nil =>
      simp only [List.nil_append, List.cons.injEq] at h1
      obtain ⟨rfl, rfl⟩ := h1
      left
      have : isEnd x = false := by cases x <;> simp_all [begins, isEnd]
      rw [this, h2]
      exact ⟨rfl, h3⟩
    | cons c0 c =>
      simp only [List.cons_append, List.cons.injEq] at h1
      obtain ⟨-, rfl⟩ := h1
      exact .inr ⟨c, z, d, rfl, h2, h3⟩

/-- `SafeFrom`, computed. -/
def check : Bool → List Step → Bool
  | _, [] => true
  | has, x :: xs => (!needsMessage x || has) && check (if isEnd x then false else if begins x then true else has) xs

lemma safeFrom_of_check (has : Bool) (xs : List Step) (h : check has xs = true) : SafeFrom has xs := by
  induction xs generalizing has with
  | nil =>
    intro a x b h
    simp at h
  | cons x xs ih =>
    simp only [check, Bool.and_eq_true, Bool.or_eq_true, Bool.not_eq_true'] at h
    have ht := ih _ h.2
    intro a y b hxs hy
    cases a with
    | nil =>
      simp only [List.nil_append, List.cons.injEq] at hxs
      left
      refine ⟨?_, by simp⟩
      rcases h.1 with h1 | h1
      · rw [hxs.1, hy] at h1
        cases h1
      · exact h1
    | cons a0 a =>
      simp only [List.cons_append, List.cons.injEq] at hxs
      obtain ⟨rfl, hxs⟩ := hxs
      rcases ht a y b hxs hy with ⟨h1, h2⟩ | ⟨c, z, d, h1, h2, h3⟩
      · by_cases hb : begins x = true
        · exact .inr ⟨[], x, a, rfl, hb, h2⟩
        · left
          by_cases he : isEnd x = true
          · simp [he] at h1
          · simp [he, hb] at h1
            refine ⟨h1, ?_⟩
            rw [List.forall_mem_cons]
            exact ⟨by simpa using he, h2⟩
      · exact .inr ⟨x :: c, z, d, by rw [h1]; rfl, h2, h3⟩

lemma insert_text (b : Buffer) (t : List Char) : (b.insert t).text = b.text ++ (if b.left then t.rightpad b.width ' ' else t.leftpad b.width ' ') ∧
    (b.insert t).width = 0 ∧ (b.insert t).left = b.left := by
  refine ⟨?_, rfl, rfl⟩
  unfold Buffer.insert List.rightpad List.leftpad
  rfl

/-- The state within a program: the stream is enabled, and `b` is the content of its buffer, if it has one. -/
structure Inv (i : ℕ) (priority : ℤ) (h : Heap) (b : Option Buffer) (w : World) (s : Stream) : Prop where
  cat : s.category = i
  prio : s.priority = priority
  heap : w.heap = h
  buf : match b with
    | none => s.buffer = none
    | some b => ∃ k, s.buffer = some k ∧ w.buffers k = some b

lemma inv_ensure {i : ℕ} {priority : ℤ} {h : Heap} {b : Option Buffer} {w : World} {s : Stream} (hi : Inv i priority h b w s) (hp : priority ≠ NOTSET) :
    Inv i priority h (some (b.getD Buffer.empty)) (ensure w s).1 (ensure w s).2 ∧ (ensure w s).1.out = w.out := by
  obtain ⟨h1, h2, h3, h4⟩ := hi
  unfold ensure
  rw [if_pos (by rw [h2]; exact hp)]
  cases b with
  | none =>
    simp only at h4
    rw [h4]
    exact ⟨⟨h1, h2, h3, w.next, rfl, by simp [Function.update_self]⟩, rfl⟩
  | some b =>
    obtain ⟨k, h4, h5⟩ := h4
    rw [h4]
    exact ⟨⟨h1, h2, h3, k, h4, h5⟩, rfl⟩

lemma inv_access {i : ℕ} {priority : ℤ} {h : Heap} {b : Buffer} {w : World} {s : Stream} (hi : Inv i priority h (some b) w s) :
    ∃ k, access w s = some (k, b) ∧ s.buffer = some k := by
  obtain ⟨-, -, -, k, h4, h5⟩ := hi
  refine ⟨k, ?_, h4⟩
  unfold access
  rw [h4]
  simp [h5]

/-- What is delivered from a state on. -/
def rest (deliver : List Op → List Char → List (ℕ × ℤ × List Char)) (ops : List Op) (b : Option Buffer) (segs : List (List Step)) :
    List (ℕ × ℤ × List Char) :=
  match segs with
  | [] => []
  | m :: ms => (if b.isSome || m.any begins then
      deliver (ops ++ calls m) ((b.getD Buffer.empty).text ++ text (b.getD Buffer.empty).width (b.getD Buffer.empty).left m) else []) ++
    delivered deliver (ops ++ calls m) ms

lemma rest_none (deliver : List Op → List Char → List (ℕ × ℤ × List Char)) (ops : List Op) (segs : List (List Step)) :
    rest deliver ops none segs = delivered deliver ops segs := by
  cases segs with
  | nil => rfl
  | cons m ms => simp [rest, delivered, Buffer.empty]

/-- What a flush delivers. -/
def flushed (h : Heap) (i : ℕ) (priority : ℤ) : Option Buffer → List (ℕ × ℤ × List Char)
  | none => []
  | some b => (log h i priority).map fun a => (a, priority, b.text)

lemma inv_flush {i : ℕ} {priority : ℤ} {h : Heap} {b : Option Buffer} {w : World} {s : Stream} (hi : Inv i priority h b w s) :
    ∃ w' s', flush w s = some (w', s') ∧ Inv i priority h none w' s' ∧
      w'.out = w.out ++ flushed h i priority b := by
  cases b with
  | none =>
    obtain ⟨h1, h2, h3, h4⟩ := hi
    simp only at h4
    unfold flush
    rw [h4]
    exact ⟨w, s, rfl, ⟨h1, h2, h3, h4⟩, by simp [flushed]⟩
  | some b =>
    obtain ⟨k, ha, hk⟩ := inv_access hi
    obtain ⟨h1, h2, h3, -⟩ := hi
    unfold flush
    rw [hk]
    simp only [ha, Option.map_some]
    refine ⟨_, _, rfl, ⟨h1, h2, h3, rfl⟩, ?_⟩
    simp only [h1, h2, h3, flushed]

lemma steps_spec (name : Name) (i : ℕ) (priority : ℤ) (h0 : Heap) (hp : priority ≠ NOTSET) (xs : List Step) :
    ∀ (ops : List Op) (b : Option Buffer) (w : World) (s : Stream), Inv i priority (ops.foldl run h0) b w s → (ops.foldl run h0).map name = some i →
      SafeFrom b.isSome xs →
      ∃ w', ((steps (w, s) xs).bind fun ws => flush ws.1 ws.2).map (fun ws => ws.1) = some w' ∧
        w'.out = w.out ++ rest (fun ops t => (logTo (ops.foldl run h0) name priority).map fun a => (a, priority, t)) ops b (xs.splitOnP isEnd) := by
  have hlog : ∀ ops : List Op, (ops.foldl run h0).map name = some i → logTo (ops.foldl run h0) name priority = log (ops.foldl run h0) i priority := by
    intro ops hm
    have : getInstance (ops.foldl run h0) name = (ops.foldl run h0, i) := by rw [getInstance.eq_def, hm]
    unfold logTo
    rw [this]
  induction xs with
  | nil =>
    intro ops b w s hi hm hs
    obtain ⟨w', s', e1, -, e3⟩ := inv_flush hi
    refine ⟨w', ?_, ?_⟩
    · simp only [steps, Option.bind_some, e1, Option.map_some]
    · rw [e3, List.splitOnP_nil]
      cases b with
      | none => simp [rest, delivered, flushed]
      | some b => simp [rest, delivered, calls, text, hlog ops hm, flushed]
  | cons x xs ih =>
    intro ops b w s hi hm hs
    have ht := safeFrom_tail hs
    have hne : xs.splitOnP isEnd ≠ [] := List.splitOnP_ne_nil _ _
    -- the end of a message
    have hend : ∀ w' s', isEnd x = true → calls [x] = [] → step (w, s) x = some (w', s') → Inv i priority (ops.foldl run h0) none w' s' →
        w'.out = w.out ++ flushed (ops.foldl run h0) i priority b →
        ∃ w'', ((steps (w, s) (x :: xs)).bind fun ws => flush ws.1 ws.2).map (fun ws => ws.1) = some w'' ∧
        w''.out = w.out ++ rest (fun ops t => (logTo (ops.foldl run h0) name priority).map fun a => (a, priority, t)) ops b ((x :: xs).splitOnP isEnd) := by
      intro w' s' hx hc he hi' ho
      obtain ⟨w'', e1, e2⟩ := ih ops none w' s' hi' hm (by rw [hx] at ht; exact ht)
      refine ⟨w'', ?_, ?_⟩
      · rw [steps, he, Option.bind_some]
        exact e1
      · rw [e2, ho, rest_none, List.splitOnP_cons_eq_if_modifyHead, hx, if_pos rfl]
        cases b with
        | none => simp [rest, calls, flushed]
        | some b => simp [rest, calls, text, hlog ops hm, flushed]
    -- any other step
    have hgo : ∀ w' s' ops' b', isEnd x = false → ops' = ops ++ calls [x] → step (w, s) x = some (w', s') → Inv i priority (ops'.foldl run h0) b' w' s' →
        (ops'.foldl run h0).map name = some i →
        w'.out = w.out → b'.isSome = (b.isSome || begins x) →
        (∀ m, (b'.getD Buffer.empty).text ++ text (b'.getD Buffer.empty).width (b'.getD Buffer.empty).left m =
          (b.getD Buffer.empty).text ++ text (b.getD Buffer.empty).width (b.getD Buffer.empty).left (x :: m)) →
        ∃ w'', ((steps (w, s) (x :: xs)).bind fun ws => flush ws.1 ws.2).map (fun ws => ws.1) = some w'' ∧
        w''.out = w.out ++ rest (fun ops t => (logTo (ops.foldl run h0) name priority).map fun a => (a, priority, t)) ops b ((x :: xs).splitOnP isEnd) := by
      intro w' s' ops' b' hx hops he hi' hm' ho hb htext
      obtain ⟨w'', e1, e2⟩ := ih ops' b' w' s' hi' hm' (by
        rw [hx] at ht
        rw [hb]
        cases hbx : begins x <;> simp_all)
      refine ⟨w'', ?_, ?_⟩
      · rw [steps, he, Option.bind_some]
        exact e1
      · rw [e2, ho, List.splitOnP_cons_eq_if_modifyHead, hx, if_neg (by simp)]
        obtain ⟨m, ms, hmms⟩ := List.exists_cons_of_ne_nil hne
        rw [hmms]
        have hcalls : ops' ++ calls m = ops ++ calls (x :: m) := by
          rw [hops, List.append_assoc]
          congr 1
          unfold calls
          rw [← List.filterMap_append]
          rfl
        simp only [rest, List.modifyHead_cons, hcalls, htext m, hb, List.any_cons, Bool.or_assoc]
        congr
    cases x with
    | insert t =>
      obtain ⟨hi', ho⟩ := inv_ensure hi hp
      obtain ⟨k, ha, hk⟩ := inv_access hi'
      refine hgo { (ensure w s).1 with buffers := Function.update (ensure w s).1.buffers k (some ((b.getD Buffer.empty).insert t)) } (ensure w s).2 ops
        (some ((b.getD Buffer.empty).insert t)) rfl (by simp [calls]) (by
        simp only [step, LogStream.insert]
        rw [if_pos (by rw [hi.prio]; exact hp), ha]
        rfl) ⟨hi'.cat, hi'.prio, hi'.heap, k, hk, by simp [Function.update_self]⟩ hm ho (by simp [begins]) ?_
      intro m
      obtain ⟨t1, t2, t3⟩ := insert_text (b.getD Buffer.empty) t
      rw [Option.getD_some, t1, t2, t3, text, List.append_assoc]
    | endline =>
      obtain ⟨w', s', e1, e2, e3⟩ := inv_flush hi
      exact hend w' s' rfl rfl e1 e2 e3
    | flush =>
      obtain ⟨w', s', e1, e2, e3⟩ := inv_flush hi
      exact hend w' s' rfl rfl e1 e2 e3
    | eol =>
      have hb := safeFrom_head hs rfl
      cases b with
      | none => cases hb
      | some b =>
        obtain ⟨w', s', e1, e2, e3⟩ := inv_flush hi
        obtain ⟨k, ha, hk⟩ := inv_access hi
        refine hend w' s' rfl rfl ?_ e2 e3
        simp only [step, eol, ha]
        exact e1
    | left =>
      have hb := safeFrom_head hs rfl
      cases b with
      | none => cases hb
      | some b =>
        obtain ⟨k, ha, hk⟩ := inv_access hi
        refine hgo { w with buffers := Function.update w.buffers k (some { b with left := true }) } s ops (some { b with left := true }) rfl (by simp [calls]) (by
          simp only [step, LogStream.left, ha]
          rfl) ⟨hi.cat, hi.prio, hi.heap, k, hk, by simp [Function.update_self]⟩ hm rfl (by simp) ?_
        intro m
        simp only [Option.getD_some, text]
    | width n =>
      obtain ⟨hi', ho⟩ := inv_ensure hi hp
      obtain ⟨k, ha, hk⟩ := inv_access hi'
      refine hgo { (ensure w s).1 with buffers := Function.update (ensure w s).1.buffers k (some { b.getD Buffer.empty with width := n }) } (ensure w s).2 ops
        (some { b.getD Buffer.empty with width := n }) rfl (by simp [calls]) (by
        simp only [step, LogStream.width]
        rw [ha]
        rfl) ⟨hi'.cat, hi'.prio, hi'.heap, k, hk, by simp [Function.update_self]⟩ hm ho (by simp [begins]) ?_
      intro m
      simp only [Option.getD_some, text]
    | category op =>
      refine hgo _ _ (ops ++ [op]) b rfl rfl rfl ⟨hi.cat, hi.prio, ?_, hi.buf⟩ ?_ rfl (by simp [begins]) ?_
      · rw [List.foldl_append, hi.heap]
        rfl
      · rw [List.foldl_append]
        exact run_keeps op name i hm
      · intro m
        simp only [text]

lemma chained_lt (h : Heap) (hg : Good h) (i : ℕ) (hi : i < h.size) : (h.cat i).chained < NOTSET := by
  induction i using Nat.strong_induction_on with
  | _ i ih =>
    rcases lt_or_eq_of_le (hg.prio_le i hi) with hlt | heq
    · rw [hg.own i hi hlt]
      exact hlt
    · cases hp : (h.cat i).parent with
      | none =>
        have := hg.root i hi hp
        omega
      | some p =>
        obtain ⟨h1, -, -⟩ := hg.par_some i hi p hp
        rw [hg.cons i hi p hp heq]
        exact ih p h1 (by omega)

/-- **C107**: for a stream whose priority is enabled when it is obtained, every message of the program (the text of the pieces between two ends) reaches the
appenders, once and in order, as a call of `log` with this text at the end of the message would; messages to which nothing belongs do not. -/
theorem C107_messages (before : List Op) (name : Name) (priority v : ℤ) (xs : List Step) (ho : OrdinaryPriorities before)
    (hv : InForce (configAfter before) name v) (hle : priority ≤ v) (hs : Safe xs) :
    (logStream before name priority xs).map (fun w => w.out) =
      some (delivered (fun ops t => (logTo ((before ++ Op.get name :: ops).foldl run Heap.empty) name priority).map fun a => (a, priority, t)) []
        (xs.splitOnP isEnd)) := by
  obtain ⟨hg, hsem⟩ := runs_spec before _ _ good_empty sem_empty ho
  obtain ⟨g1, g2, g3, -⟩ := getInstance_spec _ hg name
  obtain ⟨hlt, hname⟩ := g1.map_lt _ _ g2
  have hf := inForce_of _ _ g1 (g3 _ hsem) _ hlt
  rw [hname] at hf
  have e1 := inForce_unique hv hf
  have hlt800 : v < NOTSET := by
    rw [e1]
    exact chained_lt _ g1 _ hlt
  have hget : ∀ ops : List Op, (before ++ Op.get name :: ops).foldl run Heap.empty = ops.foldl run (getInstance (before.foldl run Heap.empty) name).1 := by
    intro ops
    rw [List.foldl_append]
    rfl
  simp only [hget]
  have hen : isPriorityEnabled (getInstance (before.foldl run Heap.empty) name).1 (getInstance (before.foldl run Heap.empty) name).2 priority = true := by
    unfold isPriorityEnabled
    rw [← e1]
    exact decide_eq_true hle
  obtain ⟨w', r1, r2⟩ := steps_spec name _ priority (getInstance (before.foldl run Heap.empty) name).1 (by omega) xs [] none
    ⟨(getInstance (before.foldl run Heap.empty) name).1, fun _ => none, 0, []⟩
    (getStream (getInstance (before.foldl run Heap.empty) name).1 (getInstance (before.foldl run Heap.empty) name).2 priority)
    ⟨rfl, by simp [getStream, hen], rfl, rfl⟩ g2 ((safe_iff xs).mp hs)
  unfold logStream
  simp only
  rw [r1, Option.map_some, r2, rest_none]
  simp

lemma disabled_step (w : World) (s : Stream) (hp : s.priority = NOTSET) (hb : s.buffer = none) (x : Step) :
    step (w, s) x = if needsMessage x || (match x with | .width _ => true | _ => false) then none else
      some (match x with
        | .category op => ({ w with heap := run w.heap op }, s)
        | _ => (w, s)) := by
  have ha : access w s = none := by
    unfold access
    rw [hb]
  have he : ensure w s = (w, s) := by
    unfold ensure
    rw [if_neg (by rw [hp]; simp)]
  cases x <;> simp [step, LogStream.insert, LogStream.flush, eol, LogStream.left, LogStream.width, hp, hb, ha, he, needsMessage]

lemma disabled_stream (before : List Op) (name : Name) (priority v : ℤ) (ho : OrdinaryPriorities before) (hv : InForce (configAfter before) name v)
    (hle : v < priority) : (getStream (getInstance (before.foldl run Heap.empty) name).1 (getInstance (before.foldl run Heap.empty) name).2 priority).priority =
      NOTSET := by
  obtain ⟨hg, hsem⟩ := runs_spec before _ _ good_empty sem_empty ho
  obtain ⟨g1, g2, g3, -⟩ := getInstance_spec _ hg name
  obtain ⟨hlt, hname⟩ := g1.map_lt _ _ g2
  have hf := inForce_of _ _ g1 (g3 _ hsem) _ hlt
  rw [hname] at hf
  have e1 := inForce_unique hv hf
  unfold getStream isPriorityEnabled
  simp only
  rw [if_neg]
  rw [← e1]
  simpa using hle

/-- **C107**: a stream whose priority is not enabled when it is obtained discards everything, even if the priority is enabled later. -/
theorem C107_disabled (before : List Op) (name : Name) (priority v : ℤ) (xs : List Step) (ho : OrdinaryPriorities before)
    (hv : InForce (configAfter before) name v) (hle : v < priority)
    (hs : ∀ x ∈ xs, x ≠ .eol ∧ x ≠ .left ∧ ∀ n, x ≠ .width n) : (logStream before name priority xs).map (fun w => w.out) = some [] := by
  have hp := disabled_stream before name priority v ho hv hle
  unfold logStream
  simp only
  generalize hss : getStream _ _ priority = s at hp
  have hb : s.buffer = none := by rw [← hss]; rfl
  generalize hw : (World.mk _ _ _ _) = w
  have hout : w.out = [] := by rw [← hw]
  clear hw hss
  induction xs generalizing w with
  | nil =>
    simp only [steps, Option.bind_some, LogStream.flush, hb]
    simp [hout]
  | cons x xs ih =>
    rw [steps, disabled_step w s hp hb x]
    obtain ⟨h1, h2, h3⟩ := hs x (by simp)
    have hxs := fun y hy => hs y (List.mem_cons_of_mem _ hy)
    cases x with
    | eol => exact absurd rfl h1
    | left => exact absurd rfl h2
    | width n => exact absurd rfl (h3 n)
    | category op => exact ih hxs _ hout
    | insert t => exact ih hxs _ hout
    | endline => exact ih hxs _ hout
    | flush => exact ih hxs _ hout

/-- **C107**, refuted: `eol`, `left` and `width` on a stream whose priority is not enabled dereference a null pointer, whatever is written before. -/
theorem C107_disabled_refuted (before : List Op) (name : Name) (priority v : ℤ) (xs : List Step) (ho : OrdinaryPriorities before)
    (hv : InForce (configAfter before) name v) (hle : v < priority)
    (hs : ∃ x ∈ xs, x = .eol ∨ x = .left ∨ ∃ n, x = .width n) : logStream before name priority xs = none := by
  have hp := disabled_stream before name priority v ho hv hle
  unfold logStream
  simp only
  generalize hss : getStream _ _ priority = s at hp
  have hb : s.buffer = none := by rw [← hss]; rfl
  generalize hw : (World.mk _ _ _ _) = w
  clear hw hss
  induction xs generalizing w with
  | nil => simp at hs
  | cons x xs ih =>
    rw [steps, disabled_step w s hp hb x]
    have hxs : (x ≠ .eol ∧ x ≠ .left ∧ ∀ n, x ≠ .width n) → ∃ x ∈ xs, x = .eol ∨ x = .left ∨ ∃ n, x = .width n := by
      rintro ⟨h1, h2, h3⟩
      obtain ⟨y, hy, hyy⟩ := hs
      rcases List.mem_cons.mp hy with rfl | hy
      · rcases hyy with h | h | ⟨n, h⟩
        · exact absurd h h1
        · exact absurd h h2
        · exact absurd h (h3 n)
      · exact ⟨y, hy, hyy⟩
    cases x with
    | eol => rfl
    | left => rfl
    | width n => rfl
    | category op => exact ih (hxs (by simp)) _
    | insert t => exact ih (hxs (by simp)) _
    | endline => exact ih (hxs (by simp)) _
    | flush => exact ih (hxs (by simp)) _

/-- **C107**, refuted: so do `eol` and `left` at the start of a message, on any stream. -/
theorem C107_empty_refuted (before : List Op) (name : Name) (priority : ℤ) (x : Step) (xs : List Step) (hx : x = .eol ∨ x = .left) :
    logStream before name priority (x :: xs) = none := by
  rcases hx with rfl | rfl <;> rfl

/-- **C107**, refuted: a copy of a stream with an unfinished message shares the buffer: when both are flushed (or destroyed), the second one uses the deleted
buffer. -/
theorem C107_copy_refuted (w : World) (s : Stream) (b : Buffer) (k : ℕ) (hk : s.buffer = some k) (hb : w.buffers k = some b) :
    ∃ w' s', flush w s = some (w', s') ∧ flush w' s = none := by
  have ha : access w s = some (k, b) := by
    unfold access
    rw [hk]
    simp [hb]
  refine ⟨_, _, by unfold LogStream.flush; rw [hk]; simp only [ha, Option.map_some]; rfl, ?_⟩
  unfold LogStream.flush access
  rw [hk]
  simp [Function.update_self]

/-! ### Two streams -/

/-- The content of the buffer of a stream. -/
def content (w : World) (s : Stream) : Option (Option Buffer) := s.buffer.map w.buffers

/-- The stream `s` of a world looks like the stream `t` of another world. -/
structure Like (w : World) (s : Stream) (v : World) (t : Stream) : Prop where
  heap : w.heap = v.heap
  cat : s.category = t.category
  prio : s.priority = t.priority
  buf : content w s = content v t

/-- What a step of stream `s` does not do to other streams, and what it delivers. -/
structure Frame (w : World) (s : Stream) (w' : World) (s' : Stream) (d : List (ℕ × ℤ × List Char)) : Prop where
  out : w'.out = w.out ++ d
  prio : ∀ e ∈ d, e.2.1 = s.priority
  next : w.next ≤ w'.next
  same : ∀ k < w.next, s.buffer ≠ some k → w'.buffers k = w.buffers k
  own : ∀ k, s'.buffer = some k → s.buffer = some k ∨ (w.next ≤ k ∧ k < w'.next)

lemma access_like {w v : World} {s t : Stream} (h : Like w s v t) {k : ℕ} {b : Buffer} (ha : access v t = some (k, b)) :
    ∃ j, access w s = some (j, b) ∧ s.buffer = some j ∧ t.buffer = some k := by
  have hb := h.buf
  unfold access at ha ⊢
  unfold content at hb
  cases ht : t.buffer with
  | none => rw [ht] at ha; simp at ha
  | some k' =>
    rw [ht] at ha hb
    simp only [Option.map_eq_some_iff, Prod.mk.injEq] at ha
    obtain ⟨b', hb', rfl, rfl⟩ := ha
    cases hs : s.buffer with
    | none => rw [hs] at hb; simp at hb
    | some j =>
      rw [hs] at hb
      simp only [Option.map_some, Option.some.injEq] at hb
      refine ⟨j, ?_, rfl, rfl⟩
      simp only [hb, hb', Option.map_some]

lemma ensure_like {w v : World} {s t : Stream} (h : Like w s v t) :
    Like (ensure w s).1 (ensure w s).2 (ensure v t).1 (ensure v t).2 ∧ Frame w s (ensure w s).1 (ensure w s).2 [] ∧ (ensure v t).1.out = v.out ∧
      (ensure w s).2.priority = s.priority := by
  have hb := h.buf
  unfold content at hb
  unfold ensure
  rw [h.prio]
  by_cases hp : t.priority ≠ NOTSET
  · rw [if_pos hp, if_pos hp]
    cases ht : t.buffer with
    | none =>
      have hs : s.buffer = none := by
        rw [ht] at hb
        simpa using hb
      rw [hs]
      refine ⟨⟨h.heap, h.cat, rfl, ?_⟩, ⟨by simp, by simp, by simp, ?_, ?_⟩, rfl, rfl⟩
      · simp [content]
      · intro k hk _
        simp only
        rw [Function.update_of_ne (by omega)]
      · intro k hk
        simp only [Option.some.injEq] at hk
        subst hk
        exact .inr ⟨le_rfl, Nat.lt_succ_self _⟩
    | some k =>
      cases hs : s.buffer with
      | none => rw [ht, hs] at hb; simp at hb
      | some j =>
        exact ⟨h, ⟨by simp, by simp, le_rfl, fun _ _ _ => rfl, fun k hk => .inl (hs ▸ hk)⟩, rfl, h.prio⟩
  · rw [if_neg hp, if_neg hp]
    exact ⟨h, ⟨by simp, by simp, le_rfl, fun _ _ _ => rfl, fun k hk => .inl hk⟩, rfl, h.prio⟩

lemma Frame.trans {w w' w'' : World} {s s' s'' : Stream} {d : List (ℕ × ℤ × List Char)} (h : Frame w s w' s' []) (h' : Frame w' s' w'' s'' d)
    (hp : s'.priority = s.priority) : Frame w s w'' s'' d := by
  refine ⟨?_, ?_, h.next.trans h'.next, ?_, ?_⟩
  · rw [h'.out, h.out, List.append_nil]
  · intro e he
    rw [h'.prio e he, hp]
  · intro k hk hne
    rw [h'.same k (lt_of_lt_of_le hk h.next), h.same k hk hne]
    intro hc
    rcases h.own k hc with h1 | h1
    · exact hne h1
    · omega
  · intro k hk
    rcases h'.own k hk with h1 | h1
    · rcases h.own k h1 with h2 | h2
      · exact .inl h2
      · exact .inr ⟨h2.1, h2.2.trans_le h'.next⟩
    · exact .inr ⟨h.next.trans h1.1, h1.2⟩

/-- Writing into the own buffer. -/
lemma write_like {w v : World} {s t : Stream} (h : Like w s v t) {j k : ℕ} (hs : s.buffer = some j) (ht : t.buffer = some k) (b : Option Buffer) :
    Like { w with buffers := Function.update w.buffers j b } s { v with buffers := Function.update v.buffers k b } t ∧
      Frame w s { w with buffers := Function.update w.buffers j b } s [] := by
  refine ⟨⟨h.heap, h.cat, h.prio, ?_⟩, ⟨by simp, by simp, le_rfl, ?_, fun k hk => .inl hk⟩⟩
  · simp [content, hs, ht]
  · intro i hi hne
    simp only
    rw [Function.update_of_ne]
    rintro rfl
    exact hne hs

lemma flush_like {w v : World} {s t : Stream} (h : Like w s v t) {v' : World} {t' : Stream} (hx : flush v t = some (v', t')) :
    ∃ w' s' d, flush w s = some (w', s') ∧ Like w' s' v' t' ∧ Frame w s w' s' d ∧ v'.out = v.out ++ d ∧ s'.priority = s.priority := by
  unfold flush at hx ⊢
  have hb := h.buf
  unfold content at hb
  cases ht : t.buffer with
  | none =>
    have hs : s.buffer = none := by
      rw [ht] at hb
      simpa using hb
    rw [ht] at hx
    simp only [Option.some.injEq, Prod.mk.injEq] at hx
    obtain ⟨rfl, rfl⟩ := hx
    rw [hs]
    exact ⟨w, s, [], rfl, h, ⟨by simp, by simp, le_rfl, fun _ _ _ => rfl, fun k hk => .inl hk⟩, by simp, rfl⟩
  | some k =>
    rw [ht] at hx
    simp only [Option.map_eq_some_iff] at hx
    obtain ⟨⟨k', b⟩, ha, hx⟩ := hx
    obtain ⟨j, ha', hs, hk⟩ := access_like h ha
    rw [hs]
    simp only [Prod.mk.injEq] at hx
    obtain ⟨rfl, rfl⟩ := hx
    simp only [ha', Option.map_some]
    refine ⟨_, _, (log w.heap s.category s.priority).map fun a => (a, s.priority, b.text), rfl, ⟨h.heap, h.cat, h.prio, rfl⟩, ⟨rfl, ?_, le_rfl, ?_, ?_⟩, ?_, rfl⟩
    · intro e he
      simp only [List.mem_map] at he
      obtain ⟨a, -, rfl⟩ := he
      rfl
    · intro i hi hne
      simp only
      rw [Function.update_of_ne]
      rintro rfl
      exact hne hs
    · intro i hi
      simp at hi
    · simp only [h.heap, h.cat, h.prio]

lemma step_like {w v : World} {s t : Stream} (h : Like w s v t) (x : Step) {v' : World} {t' : Stream} (hx : step (v, t) x = some (v', t')) :
    ∃ w' s' d, step (w, s) x = some (w', s') ∧ Like w' s' v' t' ∧ Frame w s w' s' d ∧ v'.out = v.out ++ d ∧ s'.priority = s.priority := by
  cases x with
  | insert y =>
    simp only [step, LogStream.insert] at hx ⊢
    rw [h.prio]
    by_cases hp : t.priority ≠ NOTSET
    · rw [if_pos hp] at hx ⊢
      simp only [Option.map_eq_some_iff] at hx
      obtain ⟨⟨k, b⟩, ha, hx⟩ := hx
      obtain ⟨e1, e2, e3, e4⟩ := ensure_like h
      obtain ⟨j, ha', hs, ht⟩ := access_like e1 ha
      simp only [Prod.mk.injEq] at hx
      obtain ⟨rfl, rfl⟩ := hx
      obtain ⟨l1, l2⟩ := write_like e1 hs ht (some (b.insert y))
      rw [ha']
      exact ⟨_, _, [], rfl, l1, e2.trans l2 e4, by simp [e3], by rw [e4, h.prio]⟩
    · rw [if_neg hp] at hx ⊢
      simp only [Option.some.injEq, Prod.mk.injEq] at hx
      obtain ⟨rfl, rfl⟩ := hx
      exact ⟨w, s, [], rfl, h, ⟨by simp, by simp, le_rfl, fun _ _ _ => rfl, fun k hk => .inl hk⟩, by simp, h.prio⟩
  | endline => exact flush_like h hx
  | flush => exact flush_like h hx
  | eol =>
    simp only [step, eol] at hx ⊢
    split at hx
    · simp at hx
    · rename_i kb ha
      obtain ⟨j, ha', -, -⟩ := access_like h (k := kb.1) (b := kb.2) ha
      rw [ha']
      exact flush_like h hx
  | left =>
    simp only [step, LogStream.left, Option.map_eq_some_iff] at hx ⊢
    obtain ⟨⟨k, b⟩, ha, hx⟩ := hx
    obtain ⟨j, ha', hs, ht⟩ := access_like h ha
    simp only [Prod.mk.injEq] at hx
    obtain ⟨rfl, rfl⟩ := hx
    obtain ⟨l1, l2⟩ := write_like h hs ht (some { b with left := true })
    exact ⟨_, _, [], ⟨(j, b), ha', rfl⟩, l1, l2, by simp, rfl⟩
  | width n =>
    simp only [step, LogStream.width, Option.map_eq_some_iff] at hx ⊢
    obtain ⟨⟨k, b⟩, ha, hx⟩ := hx
    obtain ⟨e1, e2, e3, e4⟩ := ensure_like h
    obtain ⟨j, ha', hs, ht⟩ := access_like e1 ha
    simp only [Prod.mk.injEq] at hx
    obtain ⟨rfl, rfl⟩ := hx
    obtain ⟨l1, l2⟩ := write_like e1 hs ht (some { b with width := n })
    exact ⟨_, _, [], ⟨(j, b), ha', rfl⟩, l1, e2.trans l2 e4, by simp [e3], e4⟩
  | category op =>
    simp only [step, Option.some.injEq, Prod.mk.injEq] at hx ⊢
    obtain ⟨rfl, rfl⟩ := hx
    refine ⟨_, _, [], ⟨rfl, rfl⟩, ⟨by simp [h.heap], h.cat, h.prio, h.buf⟩, ⟨by simp, by simp, le_rfl, fun _ _ _ => rfl, fun k hk => .inl hk⟩, by simp, rfl⟩

/-- The state of two streams, and what each of them would see alone. -/
structure Two (w : World) (a b : Stream) (v : World) (a' : Stream) (u : World) (b' : Stream) : Prop where
  first : Like w a v a'
  second : Like w b u b'
  ne : a.priority ≠ b.priority
  apart : ∀ k, a.buffer = some k → b.buffer ≠ some k
  oldA : ∀ k, a.buffer = some k → k < w.next
  oldB : ∀ k, b.buffer = some k → k < w.next
  outA : w.out.filter (fun e => e.2.1 = a.priority) = v.out
  outB : w.out.filter (fun e => e.2.1 = b.priority) = u.out

lemma Two.swap {w v u : World} {a b a' b' : Stream} (h : Two w a b v a' u b') : Two w b a u b' v a' :=
  ⟨h.second, h.first, h.ne.symm, fun k h1 h2 => h.apart k h2 h1, h.oldB, h.oldA, h.outB, h.outA⟩

lemma filter_own {d : List (ℕ × ℤ × List Char)} {p : ℤ} (h : ∀ e ∈ d, e.2.1 = p) : d.filter (fun e => decide (e.2.1 = p)) = d := by
  rw [List.filter_eq_self]
  intro e he
  simp [h e he]

lemma filter_other {d : List (ℕ × ℤ × List Char)} {p q : ℤ} (h : ∀ e ∈ d, e.2.1 = p) (hne : p ≠ q) : d.filter (fun e => decide (e.2.1 = q)) = [] := by
  rw [List.filter_eq_nil_iff]
  intro e he
  rw [h e he]
  simpa using hne

/-- After something that the first stream does (`heap` may change only with calls on categories, which both see). -/
lemma Two.first_step {w v u : World} {a b a' b' : Stream} (h : Two w a b v a' u b') {w' v' : World} {s' t' : Stream} {d : List (ℕ × ℤ × List Char)}
    (hl : Like w' s' v' t') (hf : Frame w a w' s' d) (ho : v'.out = v.out ++ d) (hp : s'.priority = a.priority) {u' : World}
    (hu : u'.heap = w'.heap) (hu2 : u'.buffers = u.buffers) (hu3 : u'.out = u.out) : Two w' s' b v' t' u' b' := by
  refine ⟨hl, ⟨hu.symm, h.second.cat, h.second.prio, ?_⟩, by rw [hp]; exact h.ne, ?_, ?_, ?_, ?_, ?_⟩
  · have := h.second.buf
    unfold content at this ⊢
    rw [hu2, ← this]
    cases hb : b.buffer with
    | none => rfl
    | some k => simp [hf.same k (h.oldB k hb) (fun hc => h.apart k hc hb)]
  · intro k hk hb
    rcases hf.own k hk with h1 | h1
    · exact h.apart k h1 hb
    · exact absurd (h.oldB k hb) (by omega)
  · intro k hk
    rcases hf.own k hk with h1 | h1
    · exact (h.oldA k h1).trans_le hf.next
    · exact h1.2
  · intro k hk
    exact (h.oldB k hk).trans_le hf.next
  · rw [hf.out, List.filter_append, hp, h.outA, filter_own hf.prio, ho]
  · rw [hf.out, List.filter_append, h.outB, filter_other hf.prio h.ne, List.append_nil, hu3]

lemma view_cons_own (which : Bool) (x : Step) (xs : List (Bool × Step)) : view which ((which, x) :: xs) = x :: view which xs := by
  cases x <;> simp [view]

lemma view_cons_category (which c : Bool) (op : Op) (xs : List (Bool × Step)) : view which ((c, .category op) :: xs) = .category op :: view which xs := by
  simp [view]

lemma view_cons_other (which : Bool) (x : Step) (hx : ∀ op, x ≠ .category op) (xs : List (Bool × Step)) : view which ((!which, x) :: xs) = view which xs := by
  cases x <;> simp_all [view]

lemma step_heap (w : World) (s : Stream) (x : Step) (hx : ∀ op, x ≠ .category op) (w' : World) (s' : Stream) (h : step (w, s) x = some (w', s')) :
    w'.heap = w.heap := by
  have he : (ensure w s).1.heap = w.heap := by
    unfold ensure
    split
    · split <;> rfl
    · rfl
  have hfl : ∀ w' s', flush w s = some (w', s') → w'.heap = w.heap := by
    intro w' s' h
    unfold flush at h
    split at h
    · simp only [Option.some.injEq, Prod.mk.injEq] at h
      rw [← h.1]
    · simp only [Option.map_eq_some_iff, Prod.mk.injEq] at h
      obtain ⟨_, -, rfl, -⟩ := h
      rfl
  cases x with
  | insert y =>
    simp only [step, LogStream.insert] at h
    split at h
    · simp only [Option.map_eq_some_iff, Prod.mk.injEq] at h
      obtain ⟨_, -, rfl, -⟩ := h
      exact he
    · simp only [Option.some.injEq, Prod.mk.injEq] at h
      rw [← h.1]
  | endline => exact hfl _ _ h
  | flush => exact hfl _ _ h
  | eol =>
    simp only [step, eol] at h
    split at h
    · simp at h
    · exact hfl _ _ h
  | left =>
    simp only [step, LogStream.left, Option.map_eq_some_iff, Prod.mk.injEq] at h
    obtain ⟨_, -, rfl, -⟩ := h
    rfl
  | width n =>
    simp only [step, LogStream.width, Option.map_eq_some_iff, Prod.mk.injEq] at h
    obtain ⟨_, -, rfl, -⟩ := h
    exact he
  | category op => exact absurd rfl (hx op)

lemma stepsTwo_spec (xs : List (Bool × Step)) : ∀ (w v u : World) (a b a' b' : Stream), Two w a b v a' u b' →
    ∀ v' t' u' r', steps (v, a') (view false xs) = some (v', t') → steps (u, b') (view true xs) = some (u', r') →
    ∃ w' s q, stepsTwo (w, a, b) xs = some (w', s, q) ∧ Two w' s q v' t' u' r' ∧ s.priority = a.priority ∧ q.priority = b.priority := by
  induction xs with
  | nil =>
    intro w v u a b a' b' h v' t' u' r' h1 h2
    simp only [view, List.filterMap_nil, steps, Option.some.injEq, Prod.mk.injEq] at h1 h2
    obtain ⟨rfl, rfl⟩ := h1
    obtain ⟨rfl, rfl⟩ := h2
    exact ⟨w, a, b, rfl, h, rfl, rfl⟩
  | cons x xs ih =>
    obtain ⟨c, x⟩ := x
    intro w v u a b a' b' h v' t' u' r' h1 h2
    by_cases hx : ∃ op, x = .category op
    · obtain ⟨op, rfl⟩ := hx
      rw [view_cons_category, steps] at h1 h2
      simp only [step, Option.bind_some] at h1 h2
      have hT : Two { w with heap := run w.heap op } a b { v with heap := run v.heap op } a' { u with heap := run u.heap op } b' :=
        ⟨⟨by simp [h.first.heap], h.first.cat, h.first.prio, h.first.buf⟩, ⟨by simp [h.second.heap], h.second.cat, h.second.prio, h.second.buf⟩,
          h.ne, h.apart, h.oldA, h.oldB, h.outA, h.outB⟩
      obtain ⟨w', s, q, e1, e2⟩ := ih _ _ _ _ _ _ _ hT _ _ _ _ h1 h2
      refine ⟨w', s, q, ?_, e2⟩
      cases c <;> exact e1
    · have hx' : ∀ op, x ≠ .category op := fun op hc => hx ⟨op, hc⟩
      cases c with
      | false =>
        rw [view_cons_own, steps, Option.bind_eq_some_iff] at h1
        obtain ⟨⟨v1, t1⟩, hs, h1⟩ := h1
        rw [show (false, x) = (!true, x) from rfl, view_cons_other true x hx'] at h2
        obtain ⟨w1, s1, d, e1, e2, e3, e4, e5⟩ := step_like h.first x hs
        have hw := step_heap _ _ _ hx' _ _ e1
        have hT := h.first_step e2 e3 e4 e5 (u' := u) (by rw [hw, h.second.heap]) rfl rfl
        obtain ⟨w', s, q, g1, g2, g3, g4⟩ := ih _ _ _ _ _ _ _ hT _ _ _ _ h1 h2
        refine ⟨w', s, q, ?_, g2, g3.trans e5, g4⟩
        rw [stepsTwo, e1]
        exact g1
      | true =>
        rw [view_cons_own, steps, Option.bind_eq_some_iff] at h2
        obtain ⟨⟨v1, t1⟩, hs, h2⟩ := h2
        rw [show (true, x) = (!false, x) from rfl, view_cons_other false x hx'] at h1
        obtain ⟨w1, s1, d, e1, e2, e3, e4, e5⟩ := step_like h.second x hs
        have hw := step_heap _ _ _ hx' _ _ e1
        have hT := (h.swap.first_step e2 e3 e4 e5 (u' := v) (by rw [hw, h.first.heap]) rfl rfl).swap
        obtain ⟨w', s, q, g1, g2, g3, g4⟩ := ih _ _ _ _ _ _ _ hT _ _ _ _ h1 h2
        refine ⟨w', s, q, ?_, g2, g3, g4.trans e5⟩
        rw [stepsTwo, e1]
        exact g1

lemma flush_heap (w : World) (s : Stream) (w' : World) (s' : Stream) (h : flush w s = some (w', s')) : w'.heap = w.heap :=
  step_heap w s .flush (by simp) w' s' h

lemma enabled_stream (before : List Op) (name : Name) (priority v : ℤ) (ho : OrdinaryPriorities before) (hv : InForce (configAfter before) name v)
    (hle : priority ≤ v) : (getStream (getInstance (before.foldl run Heap.empty) name).1 (getInstance (before.foldl run Heap.empty) name).2 priority).priority =
      priority := by
  obtain ⟨hg, hsem⟩ := runs_spec before _ _ good_empty sem_empty ho
  obtain ⟨g1, g2, g3, -⟩ := getInstance_spec _ hg name
  obtain ⟨hlt, hname⟩ := g1.map_lt _ _ g2
  have hf := inForce_of _ _ g1 (g3 _ hsem) _ hlt
  rw [hname] at hf
  have e1 := inForce_unique hv hf
  unfold getStream isPriorityEnabled
  simp only
  rw [if_pos]
  rw [← e1]
  simpa using hle

lemma safe_cons_category (op : Op) (xs : List Step) (h : Safe xs) : Safe (.category op :: xs) := by
  intro a x b e hx
  cases a with
  | nil =>
    simp only [List.nil_append, List.cons.injEq] at e
    rw [← e.1] at hx
    simp [needsMessage] at hx
  | cons y a =>
    simp only [List.cons_append, List.cons.injEq] at e
    obtain ⟨c, z, d, h1, h2, h3⟩ := h a x b e.2 hx
    exact ⟨y :: c, z, d, by rw [h1]; rfl, h2, h3⟩

lemma delivered_append {α : Type} (D : List Op → List Char → List α) (o : List Op) (segs : List (List Step)) (ops : List Op) :
    delivered D (o ++ ops) segs = delivered (fun x t => D (o ++ x) t) ops segs := by
  induction segs generalizing ops with
  | nil => rfl
  | cons m ms ih => rw [delivered, delivered, List.append_assoc, ih]

lemma delivered_category {α : Type} (D : List Op → List Char → List α) (op : Op) (xs : List Step) :
    delivered D [] ((.category op :: xs).splitOnP isEnd) = delivered (fun x t => D (op :: x) t) [] (xs.splitOnP isEnd) := by
  have h := delivered_append D [op] (xs.splitOnP isEnd) []
  rw [List.append_nil] at h
  rw [show (fun x t => D (op :: x) t) = fun x t => D ([op] ++ x) t from rfl, ← h, List.splitOnP_cons_eq_if_modifyHead, if_neg (by simp [isEnd])]
  obtain ⟨m, ms, hm⟩ := List.exists_cons_of_ne_nil (List.splitOnP_ne_nil isEnd xs)
  rw [hm]
  simp [delivered, calls, begins, text]

/-- **C107**: two streams with different priorities that are used in turn do not disturb each other, for the same category or for different ones: what reaches
the appenders with the priority of one is what this one delivers if the steps of the other, except calls on categories, are left out. -/
theorem C107_streams (before : List Op) (name name' : Name) (priority priority' : ℤ) (hne : priority ≠ priority') (v v' : ℤ) (xs : List (Bool × Step))
    (ho : OrdinaryPriorities before) (hv : InForce (configAfter before) name v) (hle : priority ≤ v)
    (hv' : InForce (configAfter before) name' v') (hle' : priority' ≤ v') (hs : Safe (view false xs)) (hs' : Safe (view true xs)) :
    ∃ w, logStreams before name priority name' priority' xs = some w ∧
      w.out.filter (fun e => e.2.1 = priority) = delivered (fun ops t => (logTo ((before ++ Op.get name :: Op.get name' :: ops).foldl run Heap.empty) name
        priority).map fun a => (a, priority, t)) [] ((view false xs).splitOnP isEnd) ∧
      w.out.filter (fun e => e.2.1 = priority') = delivered (fun ops t => (logTo ((before ++ Op.get name :: Op.get name' :: ops).foldl run Heap.empty) name'
        priority').map fun a => (a, priority', t)) [] ((view true xs).splitOnP isEnd) := by
  have hcfg : configAfter (before ++ [Op.get name]) = configAfter before := by
    unfold configAfter
    rw [List.foldl_append]
    rfl
  have ho' : OrdinaryPriorities (before ++ [Op.get name]) := by
    intro n x hx
    simp only [List.mem_append, List.mem_singleton, reduceCtorEq, or_false] at hx
    exact ho n x hx
  have m1 := C107_messages before name priority v (.category (.get name') :: view false xs) ho hv hle (safe_cons_category _ _ hs)
  have m2 := C107_messages (before ++ [Op.get name]) name' priority' v' (view true xs) ho' (by rw [hcfg]; exact hv') hle' hs'
  have p1 := enabled_stream before name priority v ho hv hle
  have p2 := enabled_stream (before ++ [Op.get name]) name' priority' v' ho' (by rw [hcfg]; exact hv') hle'
  have hb : (before ++ [Op.get name]).foldl run Heap.empty = (getInstance (before.foldl run Heap.empty) name).1 := by
    rw [List.foldl_append]
    rfl
  unfold logStream at m1 m2
  rw [hb] at m2 p2
  simp only at m1 m2
  unfold logStreams
  simp only
  generalize getInstance (before.foldl run Heap.empty) name = r at *
  have hrun : run r.1 (Op.get name') = (getInstance r.1 name').1 := rfl
  rw [steps] at m1
  simp only [step, Option.bind_some, hrun] at m1
  generalize getInstance r.1 name' = r' at *
  rw [Option.map_eq_some_iff] at m1 m2
  obtain ⟨w1, m1, d1⟩ := m1
  obtain ⟨w2, m2, d2⟩ := m2
  rw [Option.map_eq_some_iff] at m1 m2
  obtain ⟨⟨w1', s1'⟩, m1, rfl⟩ := m1
  obtain ⟨⟨w2', s2'⟩, m2, rfl⟩ := m2
  rw [Option.bind_eq_some_iff] at m1 m2
  obtain ⟨⟨v1, t1⟩, m1, f1⟩ := m1
  obtain ⟨⟨v2, t2⟩, m2, f2⟩ := m2
  simp only at f1 f2 d1 d2
  have hT : Two ⟨r'.1, fun _ => none, 0, []⟩ (getStream r.1 r.2 priority) (getStream r'.1 r'.2 priority') ⟨r'.1, fun _ => none, 0, []⟩
      (getStream r.1 r.2 priority) ⟨r'.1, fun _ => none, 0, []⟩ (getStream r'.1 r'.2 priority') :=
    ⟨⟨rfl, rfl, rfl, rfl⟩, ⟨rfl, rfl, rfl, rfl⟩, by rw [p1, p2]; exact hne, by simp [getStream], by simp [getStream], by simp [getStream], rfl, rfl⟩
  obtain ⟨w, s, q, e1, e2, e3, e4⟩ := stepsTwo_spec xs _ _ _ _ _ _ _ hT _ _ _ _ m1 m2
  obtain ⟨u1, q1, d, k1, k2, k3, k4, k5⟩ := flush_like e2.second f2
  have hT2 := (e2.swap.first_step k2 k3 k4 k5 (u' := v1) (by rw [flush_heap _ _ _ _ k1, e2.first.heap]) rfl rfl).swap
  obtain ⟨u2, q2, d', l1, l2, l3, l4, l5⟩ := flush_like hT2.first f1
  have hT3 := hT2.first_step l2 l3 l4 l5 (u' := w2') (by rw [flush_heap _ _ _ _ l1, hT2.second.heap]) rfl rfl
  rw [e1]
  simp only [Option.bind_some, k1, l1, Option.map_some]
  have o1 := hT3.outA
  have o2 := hT3.outB
  rw [l5, e3, p1, d1, delivered_category] at o1
  rw [k5, e4, p2, d2] at o2
  refine ⟨u2, rfl, o1, ?_⟩
  simpa only [List.append_assoc, List.singleton_append] using o2

/-- Two streams of one category: each has its own messages. -/
example : (logStreams [.addAppender [] 1, .setPriority [] 600] ['x'] 300 ['x'] 400
      [(false, .insert ['a']), (true, .insert ['b']), (false, .insert ['c']), (true, .endline), (false, .endline), (true, .insert ['d'])]).map (fun w => w.out) =
    some [(1, 400, ['b']), (1, 300, ['a', 'c']), (1, 400, ['d'])] := by decide +kernel

/-- Setting for the examples: appender 1 at the root, messages of priority 600 and more urgent are logged. -/
def sampleOps : List Op := [.addAppender [] 1, .setPriority [] 600]

/-- Two messages, one with a width, and a separator too many; the second one comes when its priority is not enabled any more. -/
def sampleSteps : List Step := [.insert ['a'], .width 3, .insert ['b'], .eol, .endline, .insert ['c'], .category (.setPriority ['x'] 100), .endline,
  .category (.setPriority ['x'] 700), .insert ['d']]

example : Safe sampleSteps ∧ InForce (configAfter sampleOps) ['x'] 600 ∧ OrdinaryPriorities sampleOps ∧
    (logStream sampleOps ['x'] 300 sampleSteps).map (fun w => w.out) = some [(1, 300, ['a', ' ', ' ', 'b']), (1, 300, ['d'])] := by
  refine ⟨?_, ?_, ?_, by decide +kernel⟩
  · exact (safe_iff _).mpr (safeFrom_of_check _ _ rfl)
  · exact .above _ [] _ rfl ((isAbove_iff _ _ (by simp)).mpr rfl) (.own _ _ rfl)
  · intro n v hv
    simp [sampleOps] at hv
    omega

end Ubitrack.LogStreamProps
