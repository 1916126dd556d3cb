import Verif.Model.DiagnosticContext
import Verif.Spec.DiagnosticContext
import Mathlib.Data.List.Basic
import Mathlib.Tactic.Ring

/-!
# C99: nested diagnostic contexts
-/

namespace Ubitrack.DiagnosticContext

open Spec.Contexts
open LogLayout (Text)

/-- The words of a stack. -/
def wordsOf (s : Stack) : List Text := s.map Context.message

/-- Every context has the sentence of the words up to it. -/
def Consistent (s : Stack) : Prop := ∀ i (h : i < s.length), s[i].fullMessage = sentence ((wordsOf s).take (i + 1))

def view (s : State) : Words := ⟨fun t => wordsOf (s.threads t), s.clones.map wordsOf⟩

def Good (s : State) : Prop := (∀ t, Consistent (s.threads t)) ∧ ∀ c ∈ s.clones, Consistent c

lemma sentence_append (ws : List Text) (h : ws ≠ []) (m : Text) : sentence (ws ++ [m]) = sentence ws ++ " ".toList ++ m := by
  unfold sentence
  induction ws with
  | nil => exact absurd rfl h
  | cons a ws ih =>
    cases ws with
    | nil => simp [List.intercalate]
    | cons b ws =>
      have := ih (by simp)
      simp only [List.intercalate, List.cons_append, List.intersperse_cons_cons, List.flatten_cons] at *
      rw [this]
      simp

lemma get_eq {s : Stack} (h : Consistent s) : get s = sentence (wordsOf s) := by
  unfold get
  rcases List.eq_nil_or_concat s with rfl | ⟨l, c, rfl⟩
  · rfl
  · have := h l.length (by simp)
    simp only [List.concat_eq_append] at *
    simp only [List.getLast?_append, List.getLast?_singleton, Option.some_or]
    rw [List.take_of_length_le (by simp [wordsOf])] at this
    simpa [wordsOf] using this

lemma words_push (s : Stack) (m : Text) : wordsOf (push s m) = wordsOf s ++ [m] := by
  unfold push wordsOf
  split <;> simp

lemma consistent_push {s : Stack} (h : Consistent s) (m : Text) : Consistent (push s m) := by
  have hg := get_eq h
  intro i hi
  rw [words_push]
  have hlen : (push s m).length = s.length + 1 := by unfold push; split <;> simp
  by_cases hlt : i < s.length
  · have h1 : (push s m)[i] = s[i] := by
      have : ∃ c, push s m = s ++ [c] := by unfold push; split <;> exact ⟨_, rfl⟩
      obtain ⟨c, hc⟩ := this
      simp only [hc, List.getElem_append_left hlt]
    rw [h1, h i hlt, List.take_append_of_le_length (by simp [wordsOf]; omega)]
  · obtain rfl : i = s.length := by omega
    rw [List.take_of_length_le (by simp [wordsOf])]
    unfold get at hg
    rcases List.eq_nil_or_concat s with rfl | ⟨l, c, rfl⟩
    · simp [push, sentence, wordsOf, List.intercalate]
    · rw [sentence_append _ (by simp [wordsOf]), ← hg]
      simp [push, List.getElem_append]

lemma consistent_dropLast {s : Stack} (h : Consistent s) : Consistent s.dropLast := by
  intro i hi
  simp only [List.length_dropLast] at hi
  rw [List.getElem_dropLast, h i (by omega)]
  unfold wordsOf
  rw [List.map_dropLast, List.dropLast_eq_take, List.take_take]
  congr 2
  simp
  omega

lemma consistent_nil : Consistent [] := fun i hi => absurd hi (by simp)

lemma pop_eq (s : Stack) : pop s = if h : s = [] then none else some ((s.getLast h).message, s.dropLast) := by
  unfold pop
  split
  · next h => simp [List.getLast?_eq_none_iff.mp h]
  · next c h =>
    have hne : s ≠ [] := by rintro rfl; simp at h
    rw [dif_neg hne]
    rw [List.getLast?_eq_some_getLast hne] at h
    simp at h
    rw [h]

lemma step_spec (s : State) (hs : Good s) (o : Op) :
    (step s o).map view = after (view s) o ∧ ∀ s', step s o = some s' → Good s' := by
  have upd : ∀ (t : ℕ) (st : Stack), (fun u => wordsOf (Function.update s.threads t st u)) =
      fun u => if u = t then wordsOf st else wordsOf (s.threads u) := by
    intro t st; funext u; by_cases h : u = t <;> simp [Function.update_apply, h]
  have good : ∀ (t : ℕ) (st : Stack), Consistent st → Good { s with threads := Function.update s.threads t st } := by
    intro t st h
    refine ⟨fun u => ?_, hs.2⟩
    simp only [Function.update_apply]
    split
    · exact h
    · exact hs.1 u
  cases o with
  | push t m =>
    constructor
    · simp only [step, Option.map_some, view, after, upd, words_push]
      congr 2
      funext u
      by_cases h : u = t
      · simp [h]
      · simp [h]
    · rintro s' ⟨⟩; exact good t _ (consistent_push (hs.1 t) m)
  | pop t =>
    simp only [step, pop_eq]
    by_cases h : s.threads t = []
    · simp [h, after, view, wordsOf]
    · rw [dif_neg h]
      constructor
      · have : ¬ (view s).words t = [] := by simpa [view, wordsOf] using h
        simp only [Option.map_some, after, if_neg this]
        simp only [view, upd]
        congr 2
        funext u
        by_cases hu : u = t
        · simp [hu, wordsOf, List.map_dropLast]
        · simp [hu]
      · rintro s' ⟨⟩; exact good t _ (consistent_dropLast (hs.1 t))
  | clear t =>
    constructor
    · simp only [step, Option.map_some, view, after, upd]
      rfl
    · rintro s' ⟨⟩; exact good t _ consistent_nil
  | cloneStack t =>
    constructor
    · simp [step, view, after]
    · rintro s' ⟨⟩
      refine ⟨hs.1, fun c hc => ?_⟩
      simp only [List.mem_append, List.mem_singleton] at hc
      rcases hc with hc | rfl
      · exact hs.2 c hc
      · exact hs.1 t
  | inherit t c =>
    by_cases h : c < s.clones.length
    · simp only [step, List.getElem?_eq_getElem h, Option.map_some]
      constructor
      · have h' : c < (view s).copies.length := by simpa [view] using h
        rw [after, dif_pos h']
        simp only [view, upd, Option.some.injEq, Words.mk.injEq, and_true]
        funext u
        simp
      · rintro s' ⟨⟩; exact good t _ (hs.2 _ (List.getElem_mem h))
    · have h' : ¬ c < (view s).copies.length := by simpa [view] using h
      simp [step, after, h', List.getElem?_eq_none (not_lt.mp h)]

lemma exec_spec (os : List Op) (s : State) (hs : Good s) :
    (exec s os).map view = history (view s) os ∧ ∀ s', exec s os = some s' → Good s' := by
  induction os generalizing s with
  | nil => exact ⟨rfl, by rintro s' ⟨⟩; exact hs⟩
  | cons o os ih =>
    obtain ⟨h1, h2⟩ := step_spec s hs o
    simp only [exec, history, ← h1]
    cases hst : step s o with
    | none => simp
    | some s1 => simpa [hst] using ih s1 (h2 s1 hst)

lemma good_start : Good start := ⟨fun _ => consistent_nil, by simp [start]⟩

/-- **C99 (contexts).** In any interleaving of the threads: the operations are defined exactly if no thread leaves a context that it has not entered and no
copy is used that does not exist; and then every thread sees the words that it has entered and not left (or inherited), outermost first, with
single spaces between them, and their number. -/
theorem C99_contexts (os : List Op) :
    (history ⟨fun _ => [], []⟩ os = none ↔ exec start os = none) ∧
    ∀ s, exec start os = some s → ∃ w, history ⟨fun _ => [], []⟩ os = some w ∧
      ∀ t, get (s.threads t) = sentence (w.words t) ∧ getDepth (s.threads t) = (w.words t).length := by
  obtain ⟨h1, h2⟩ := exec_spec os start good_start
  have hv : view start = ⟨fun _ => [], []⟩ := rfl
  rw [hv] at h1
  rw [← h1]
  refine ⟨by simp, fun s hs => ⟨view s, by simp [hs], fun t => ⟨get_eq ((h2 s hs).1 t), by simp [view, wordsOf, getDepth]⟩⟩⟩

example : (exec start [.push 0 "a".toList, .push 1 "x".toList, .push 0 "b c".toList, .cloneStack 0, .pop 0, .inherit 1 0, .push 1 "d".toList]).map
    (fun s => (get (s.threads 0), get (s.threads 1), getDepth (s.threads 1))) = some ("a".toList, "a b c d".toList, 3) := by decide

/-! ## Threads -/

lemma step_other {s s' : State} {o : Op} {t : ℕ} (h : step s o = some s') (ht : thread o ≠ t) : s'.threads t = s.threads t := by
  cases o with
  | push u m => cases h; exact Function.update_of_ne (Ne.symm ht) _ _
  | pop u =>
    simp only [step] at h
    obtain ⟨r, -, rfl⟩ := Option.map_eq_some_iff.mp h
    exact Function.update_of_ne (Ne.symm ht) _ _
  | clear u => cases h; exact Function.update_of_ne (Ne.symm ht) _ _
  | cloneStack u => cases h; rfl
  | inherit u c =>
    simp only [step] at h
    obtain ⟨r, -, rfl⟩ := Option.map_eq_some_iff.mp h
    exact Function.update_of_ne (Ne.symm ht) _ _

/-- **C99 (threads).** What other threads do does not change the contexts of a thread. -/
theorem C99_threads (s s' : State) (t : ℕ) (os : List Op) (h : exec s os = some s') (ho : ∀ o ∈ os, thread o ≠ t) :
    get (s'.threads t) = get (s.threads t) ∧ getDepth (s'.threads t) = getDepth (s.threads t) := by
  have : s'.threads t = s.threads t := by
    induction os generalizing s with
    | nil => cases h; rfl
    | cons o os ih =>
      simp only [exec] at h
      obtain ⟨s1, h1, h2⟩ := Option.bind_eq_some_iff.mp h
      rw [ih s1 h2 fun x hx => ho x (by simp [hx]), step_other h1 (ho o (by simp))]
  rw [this]
  exact ⟨rfl, rfl⟩

example : (exec start [.push 1 "x".toList, .pop 1, .push 2 "y".toList]).isSome ∧
    ∀ o ∈ [Op.push 1 "x".toList, .pop 1, .push 2 "y".toList], thread o ≠ 0 := by decide

lemma exec_append (s : State) (a b : List Op) : exec s (a ++ b) = (exec s a).bind fun s' => exec s' b := by
  induction a generalizing s with
  | nil => rfl
  | cons o a ih =>
    simp only [List.cons_append, exec]
    cases step s o with
    | none => rfl
    | some s1 => simp [ih]

lemma push_pop (s : Stack) (m : Text) : pop (push s m) = some (m, s) := by
  unfold push
  split <;> simp [pop]

lemma balanced_stack {t : ℕ} {os : List Op} (hb : Balanced t os) (s s' : State) (h : exec s os = some s') : s'.threads t = s.threads t := by
  induction hb generalizing s s' with
  | nil => cases h; rfl
  | other o os ho _ ih =>
    simp only [exec] at h
    obtain ⟨s1, h1, h2⟩ := Option.bind_eq_some_iff.mp h
    rw [ih s1 s' h2, step_other h1 ho]
  | copy os _ ih =>
    simp only [exec] at h
    obtain ⟨s1, h1, h2⟩ := Option.bind_eq_some_iff.mp h
    rw [ih s1 s' h2]
    cases h1; rfl
  | nest m os os' _ _ ih ih' =>
    rw [List.cons_append, exec] at h
    obtain ⟨s1, h1, h2⟩ := Option.bind_eq_some_iff.mp h
    rw [exec_append] at h2
    obtain ⟨s2, h3, h4⟩ := Option.bind_eq_some_iff.mp h2
    rw [exec] at h4
    obtain ⟨s3, h5, h6⟩ := Option.bind_eq_some_iff.mp h4
    rw [ih' s3 s' h6]
    have e2 := ih s1 s2 h3
    cases h1
    simp only [Function.update_self] at e2
    simp only [step, e2, push_pop, Option.map_some, Option.some.injEq] at h5
    subst h5
    simp

/-- **C99 (nesting).** A thread enters a context, then enters and leaves others in any nesting, while other threads do anything. Then leaving gives back the word
entered, and the context is the one before. -/
theorem C99_nesting (s s' : State) (t : ℕ) (m : Text) (os : List Op) (hb : Balanced t os) (h : exec s (.push t m :: os) = some s') :
    ∃ rest, pop (s'.threads t) = some (m, rest) ∧ get rest = get (s.threads t) ∧ getDepth rest = getDepth (s.threads t) := by
  rw [exec] at h
  obtain ⟨s1, h1, h2⟩ := Option.bind_eq_some_iff.mp h
  refine ⟨s.threads t, ?_, rfl, rfl⟩
  rw [balanced_stack hb s1 s' h2]
  cases h1
  simp [push_pop]

example : Balanced 0 [.push 0 "a".toList, .push 1 "x".toList, .pop 0, .clear 1] :=
  .nest _ [.push 1 "x".toList] [.clear 1] (.other _ _ (by decide) .nil) (.other _ _ (by decide) .nil)

/-- **C99 (inherit).** A thread that inherits a copy has the contexts that the other thread had when the copy was made, whatever happened since. -/
theorem C99_inherit (s s1 s2 s3 : State) (t u : ℕ) (os : List Op) (h1 : step s (.cloneStack t) = some s1) (h2 : exec s1 os = some s2)
    (h3 : step s2 (.inherit u s.clones.length) = some s3) : get (s3.threads u) = get (s.threads t) ∧
      getDepth (s3.threads u) = getDepth (s.threads t) ∧ ∀ v, v ≠ u → s3.threads v = s2.threads v := by
  have keep : ∀ (os : List Op) (a b : State), exec a os = some b → ∃ l, b.clones = a.clones ++ l := by
    intro os
    induction os with
    | nil => intro a b h; cases h; exact ⟨[], by simp⟩
    | cons o os ih =>
      intro a b h
      rw [exec] at h
      obtain ⟨c, hc, h'⟩ := Option.bind_eq_some_iff.mp h
      obtain ⟨l, hl⟩ := ih c b h'
      have : ∃ l', c.clones = a.clones ++ l' := by
        cases o with
        | push => cases hc; exact ⟨[], by simp⟩
        | pop =>
          simp only [step] at hc
          obtain ⟨r, -, rfl⟩ := Option.map_eq_some_iff.mp hc
          exact ⟨[], by simp⟩
        | clear => cases hc; exact ⟨[], by simp⟩
        | cloneStack v => cases hc; exact ⟨_, rfl⟩
        | inherit =>
          simp only [step] at hc
          obtain ⟨r, -, rfl⟩ := Option.map_eq_some_iff.mp hc
          exact ⟨[], by simp⟩
      obtain ⟨l', hl'⟩ := this
      exact ⟨l' ++ l, by rw [hl, hl', List.append_assoc]⟩
  obtain ⟨l, hl⟩ := keep os s1 s2 h2
  cases h1
  simp only [step, hl] at h3
  simp at h3
  subst h3
  refine ⟨by simp, by simp, fun v hv => Function.update_of_ne hv _ _⟩

example : ∃ s1 s2 s3, step start (.cloneStack 0) = some s1 ∧ exec s1 [.push 0 "late".toList] = some s2 ∧ step s2 (.inherit 1 0) = some s3 :=
  ⟨_, _, _, rfl, rfl, rfl⟩

/-- **C99 (leaving too often), refuted.** `pop` without a context is documented to give the empty string; it reads beyond the vector. -/
theorem C99_pop_refuted : pop [] = none ∧ exec start [.push 0 "a".toList, .pop 0, .pop 0] = none := by
  constructor <;> rfl

end Ubitrack.DiagnosticContext
