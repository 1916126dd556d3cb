import Verif.Model.LogConfig
import Verif.Spec.LogConfig
import Verif.Props.Logging
import Mathlib.Tactic.Ring
import Mathlib.Data.List.TakeWhile
import Mathlib.Data.Finset.Lattice.Lemmas

/-!
# C97: what a configuration file of the logging framework sets up
-/

namespace Ubitrack.LogConfig

open Logging Spec Spec.LogFile
open LogLayout (Text)

/-! ## Lines -/

lemma isWhite_iff (c : Char) : isWhite c = true ↔ White c := by
  simp [isWhite, White, or_assoc]

lemma dropWhile_white {l s : Text} (hl : ∀ c ∈ l, White c) : (l ++ s).dropWhile isWhite = s.dropWhile isWhite := by
  induction l with
  | nil => rfl
  | cons c l ih =>
    rw [List.cons_append, List.dropWhile_cons, if_pos ((isWhite_iff c).mpr (hl c List.mem_cons_self))]
    exact ih fun d hd => hl d (List.mem_cons_of_mem _ hd)

lemma dropWhile_black {s : Text} (h : ∀ c ∈ s.head?, ¬ White c) : s.dropWhile isWhite = s := by
  cases s with
  | nil => rfl
  | cons c s =>
    rw [List.dropWhile_cons, if_neg]
    rw [isWhite_iff]
    exact h c rfl

lemma trim_unique {w s : Text} (hp : Padded w s) (ht : Trimmed w) : trim s = w := by
  obtain ⟨l, r, rfl, hl, hr⟩ := hp
  unfold trim
  rw [List.append_assoc, dropWhile_white hl]
  by_cases hw : w = []
  · subst hw
    rw [List.nil_append]
    have : r.dropWhile isWhite = [] := by
      have := dropWhile_white (s := []) hr
      rwa [List.append_nil] at this
    rw [this]
    rfl
  · have h1 : (w ++ r).dropWhile isWhite = w ++ r := by
      refine dropWhile_black fun c hc => ht.1 c ?_
      cases w with
      | nil => exact absurd rfl hw
      | cons d w => exact hc
    rw [h1, List.reverse_append, dropWhile_white (by simpa using hr), dropWhile_black, List.reverse_reverse]
    intro c hc
    rw [List.head?_reverse] at hc
    exact ht.2 c hc

lemma of_mem_takeWhile {p : Char → Bool} {s : Text} {c : Char} (h : c ∈ s.takeWhile p) : p c = true := by
  induction s with
  | nil => simp at h
  | cons d s ih =>
    rw [List.takeWhile_cons] at h
    split at h
    · rename_i hd
      rcases List.mem_cons.mp h with rfl | h
      · exact hd
      · exact ih h
    · simp at h

lemma dropWhile_decomp (s : Text) : ∃ l, s = l ++ s.dropWhile isWhite ∧ (∀ c ∈ l, White c) ∧ ∀ c ∈ (s.dropWhile isWhite).head?, ¬ White c := by
  refine ⟨s.takeWhile isWhite, (List.takeWhile_append_dropWhile).symm, fun c hc => ?_, fun c hc => ?_⟩
  · exact (isWhite_iff c).mp (of_mem_takeWhile hc)
  · rw [← isWhite_iff]
    have := List.head?_dropWhile_not isWhite s
    rw [hc] at this
    simpa using this

lemma trim_spec (s : Text) : Padded (trim s) s ∧ Trimmed (trim s) := by
  obtain ⟨l, h1, h2, h3⟩ := dropWhile_decomp s
  obtain ⟨r, h4, h5, h6⟩ := dropWhile_decomp (s.dropWhile isWhite).reverse
  have h7 : s.dropWhile isWhite = trim s ++ r.reverse := by
    unfold trim
    rw [← List.reverse_append, ← h4, List.reverse_reverse]
  refine ⟨⟨l, r.reverse, ?_, h2, by simpa using h5⟩, ?_, ?_⟩
  · rw [List.append_assoc, ← h7]
    exact h1
  · intro c hc
    apply h3 c
    rw [h7]
    cases ht : trim s with
    | nil => rw [ht] at hc; simp at hc
    | cons d w => rw [ht] at hc; exact hc
  · intro c hc
    apply h6 c
    unfold trim at hc
    rwa [List.getLast?_reverse] at hc

lemma takeWhile_stop {d : Char} {a b : Text} (ha : d ∉ a) (hb : ∀ c ∈ b.head?, c = d) :
    (a ++ b).takeWhile (fun c => decide (c ≠ d)) = a ∧ (a ++ b).dropWhile (fun c => decide (c ≠ d)) = b := by
  induction a with
  | nil =>
    cases b with
    | nil => exact ⟨rfl, rfl⟩
    | cons c b =>
      have : c = d := hb c rfl
      subst this
      simp
  | cons c a ih =>
    have hc : c ≠ d := fun h => ha (h ▸ List.mem_cons_self)
    obtain ⟨h1, h2⟩ := ih fun h => ha (List.mem_cons_of_mem _ h)
    rw [List.cons_append, List.takeWhile_cons, List.dropWhile_cons, if_pos (by simpa using hc), if_pos (by simpa using hc), h1, h2]
    exact ⟨rfl, rfl⟩

lemma takeWhile_split (d : Char) (s : Text) : ∃ a b, s = a ++ b ∧ d ∉ a ∧ (b = [] ∨ ∃ t, b = d :: t) ∧
    s.takeWhile (fun c => decide (c ≠ d)) = a ∧ s.dropWhile (fun c => decide (c ≠ d)) = b := by
  refine ⟨_, _, (List.takeWhile_append_dropWhile (p := fun c => decide (c ≠ d))).symm, fun h => ?_, ?_, rfl, rfl⟩
  · simpa using of_mem_takeWhile h
  · have := List.head?_dropWhile_not (fun c => decide (c ≠ d)) s
    cases hb : s.dropWhile (fun c => decide (c ≠ d)) with
    | nil => exact Or.inl rfl
    | cons c t =>
      rw [hb] at this
      simp only [List.head?_cons, decide_not, Bool.not_eq_eq_eq_not] at this
      exact Or.inr ⟨t, by simpa using this⟩

lemma comment_head {s : Text} (h : Comment s) : ∀ c ∈ s.head?, c = '#' := by
  rintro c hc
  rcases h with rfl | ⟨t, rfl⟩
  · simp at hc
  · simpa using hc.symm

/-- A line assigns a value to a key exactly when the reader of properties sees this assignment. -/
theorem C97_line (line key value : Text) : entry line = some (key, value) ↔ Assigns line key value := by
  constructor
  · intro h
    obtain ⟨a, b, h1, h2, h3, h4, h5⟩ := takeWhile_split '#' line
    obtain ⟨l, r, h6, h7, h8, h9, h10⟩ := takeWhile_split '=' a
    unfold entry at h
    simp only [h4, h9, h10] at h
    split at h
    · exact absurd h (by simp)
    · split at h
      · rename_i hc heq
        simp only [Option.some.injEq, Prod.mk.injEq] at h
        rcases h8 with rfl | ⟨t, rfl⟩
        · rw [h6] at heq
          simp at heq
          exact absurd heq h7
        · rw [List.drop_succ_cons, List.drop_zero] at h
          obtain ⟨p1, p2⟩ := trim_spec l
          obtain ⟨q1, q2⟩ := trim_spec t
          rw [h6] at h1 h2
          refine ⟨l, t, b, h1, h7, fun h => h2 (by simp [h]), fun h => h2 (by simp [h]), h3, h.1 ▸ p1, h.2 ▸ q1, h.1 ▸ p2, h.2 ▸ q2⟩
      · exact absurd h (by simp)
  · rintro ⟨l, r, c, rfl, hl, hl', hr, hc, hk, hv, hk', hv'⟩
    have h1 := takeWhile_stop (d := '#') (a := l ++ '=' :: r) (b := c) (by simp [hl', hr]) (comment_head hc)
    have h2 := takeWhile_stop (d := '=') (a := l) (b := '=' :: r) hl (by simp)
    unfold entry
    simp only [h1, h2, List.drop_succ_cons, List.drop_zero]
    rw [if_neg (by simp), if_pos (by simp), trim_unique hk hk', trim_unique hv hv']

/-- A line is skipped exactly when it has no `=` before its comment. -/
theorem C97_silent (line : Text) : entry line = none ↔ Silent line := by
  obtain ⟨a, b, h1, h2, h3, h4, h5⟩ := takeWhile_split '#' line
  constructor
  · intro h
    unfold entry at h
    simp only [h4] at h
    refine ⟨a, b, h1, fun hm => ?_, h3⟩
    rw [if_neg (by rintro ⟨-, rfl⟩; simp at hm), if_pos hm] at h
    exact absurd h (by simp)
  · rintro ⟨t, c, ht, hn, hc⟩
    unfold entry
    simp only [h4]
    split
    · rfl
    · rw [if_neg]
      intro hm
      rw [h1] at ht
      rcases hc with rfl | ⟨u, rfl⟩
      · rw [List.append_nil] at ht
        exact hn (ht ▸ by simp [hm])
      · -- the comment starts at or before the end of `t`
        rcases List.append_eq_append_iff.mp ht with ⟨d, hd, _⟩ | ⟨d, hd, he⟩
        · exact hn (hd ▸ by simp [hm])
        · cases d with
          | nil => rw [List.append_nil] at hd; exact hn (hd ▸ hm)
          | cons x d =>
            rw [List.cons_append] at he
            have : '#' = x := by injection he
            exact h2 (hd ▸ by simp [← this])

/-! ## Variables -/

lemma substitute_cons (env : Text → Option Text) (m : Props) (c : Char) (s : Text) (h : ∀ t, c = '$' → s = '{' :: t → False) :
    substitute env m (c :: s) = c :: substitute env m s := by
  rw [substitute.eq_3]
  exact h

lemma substitute_plain (env : Text → Option Text) (m : Props) (a s : Text) (ha : ¬ "${".toList <:+: a) (hs : s.head? ≠ some '{') :
    substitute env m (a ++ s) = a ++ substitute env m s := by
  induction a with
  | nil => rfl
  | cons c a ih =>
    rw [List.cons_append, substitute_cons, ih fun h => ha (h.trans (List.suffix_cons c a).isInfix)]
    · rfl
    · rintro t rfl ht
      cases a with
      | nil =>
        rw [List.nil_append] at ht
        rw [ht] at hs
        exact hs rfl
      | cons d a =>
        rw [List.cons_append] at ht
        injection ht with h1 h2
        subst h1
        exact ha (List.IsPrefix.isInfix ⟨a, rfl⟩)

lemma substitute_open (env : Text → Option Text) (m : Props) (s : Text) (h : '}' ∉ s) :
    substitute env m ('$' :: '{' :: s) = '$' :: '{' :: s := by
  rw [substitute.eq_2, if_neg h]

lemma substitute_var (env : Text → Option Text) (m : Props) (name b : Text) (h : '}' ∉ name) :
    substitute env m ('$' :: '{' :: (name ++ '}' :: b)) = expansion env m name ++ substitute env m b := by
  rw [substitute.eq_2, if_pos (by simp)]
  have := takeWhile_stop (d := '}') (a := name) (b := '}' :: b) h (by simp)
  rw [this.1, this.2]
  rfl

lemma expansion_eq (env : Text → Option Text) (m : Props) (name : Text) : expansion env m name = valueOf env (find m) name := by
  unfold expansion valueOf
  split
  · rfl
  · cases env name <;> rfl

lemma expands_substitute (env : Text → Option Text) (m : Props) (s t : Text) (h : Expands (valueOf env (find m)) s t) :
    substitute env m s = t := by
  induction h with
  | plain s h =>
    have := substitute_plain env m s [] h (by simp)
    rw [List.append_nil] at this
    rw [this, substitute.eq_1, List.append_nil]
  | unclosed a s h1 h2 =>
    rw [List.append_assoc, substitute_plain env m a _ h1 (by simp)]
    exact congrArg (a ++ ·) (substitute_open env m s h2)
  | var a name b b' h1 h2 h3 ih =>
    rw [List.append_assoc, List.append_assoc, substitute_plain env m a _ h1 (by simp)]
    refine (congrArg (a ++ ·) (substitute_var env m name b h2)).trans ?_
    rw [ih, expansion_eq, List.append_assoc]

/-- The first place of an opening, if there is one. -/
lemma first_open (s : Text) : (¬ "${".toList <:+: s) ∨ ∃ a t, s = a ++ "${".toList ++ t ∧ ¬ "${".toList <:+: a := by
  induction s with
  | nil => left; simp
  | cons c s ih =>
    by_cases hc : ∃ t, c :: s = '$' :: '{' :: t
    · obtain ⟨t, ht⟩ := hc
      exact Or.inr ⟨[], t, ht, by simp⟩
    · rcases ih with h | ⟨a, t, rfl, ha⟩
      · left
        rintro ⟨u, v, huv⟩
        cases u with
        | nil => exact hc ⟨v, huv.symm⟩
        | cons d u =>
          injection huv with _ h2
          exact h ⟨u, v, h2⟩
      · refine Or.inr ⟨c :: a, t, by simp, ?_⟩
        rintro ⟨u, v, huv⟩
        cases u with
        | nil =>
          refine hc ⟨v ++ "${".toList ++ t, ?_⟩
          have : c :: (a ++ "${".toList ++ t) = (c :: a) ++ "${".toList ++ t := rfl
          rw [this, ← huv]
          simp
        | cons d u =>
          injection huv with _ h2
          exact ha ⟨u, v, h2⟩

lemma expands_exists (val : Text → Text) (s : Text) : ∃ t, Expands val s t := by
  induction hn : s.length using Nat.strong_induction_on generalizing s with
  | _ n ih =>
    rcases first_open s with h | ⟨a, t, rfl, ha⟩
    · exact ⟨s, .plain s h⟩
    · obtain ⟨name, b, h1, h2, h3, -, -⟩ := takeWhile_split '}' t
      rcases h3 with rfl | ⟨b, rfl⟩
      · rw [List.append_nil] at h1
        subst h1
        exact ⟨_, .unclosed a t ha h2⟩
      · subst h1
        obtain ⟨b', hb⟩ := ih b.length (by rw [← hn]; simp; omega) b rfl
        refine ⟨a ++ val name ++ b', ?_⟩
        rw [← List.append_assoc]
        exact .var a name b b' ha h2 hb

/-- The value that is stored is the one with its variables replaced; there is exactly one. -/
theorem C97_variables (env : Text → Option Text) (m : Props) (s t : Text) :
    substitute env m s = t ↔ Expands (valueOf env (find m)) s t := by
  refine ⟨fun h => ?_, expands_substitute env m s t⟩
  obtain ⟨u, hu⟩ := expands_exists (valueOf env (find m)) s
  rw [← h, expands_substitute env m s u hu]
  exact hu

/-! ## Properties -/

lemma strip_iff (key short : Text) : strip key = short ↔ Stripped key short := by
  obtain ⟨a, b, h1, h2, h3, h4, -⟩ := takeWhile_split '.' key
  have key_pre : ∀ w : Text, '.' ∉ w → (w ++ ['.'] <+: key ↔ a = w ∧ ∃ t, b = '.' :: t) := by
    intro w hw
    constructor
    · rintro ⟨t, ht⟩
      have ht' : w ++ '.' :: t = key := by rw [← ht]; simp
      have := takeWhile_stop (d := '.') (a := w) (b := '.' :: t) hw (by simp)
      rw [ht', h4] at this
      refine ⟨this.1, t, ?_⟩
      rw [this.1] at h1
      exact List.append_cancel_left (h1.symm.trans ht'.symm)
    · rintro ⟨rfl, t, rfl⟩
      exact ⟨t, by rw [h1]; simp⟩
  have e1 : "log4j.".toList = "log4j".toList ++ ['.'] := by decide
  have e2 : "log4cpp.".toList = "log4cpp".toList ++ ['.'] := by decide
  have k1 := key_pre "log4j".toList (by decide)
  have k2 := key_pre "log4cpp".toList (by decide)
  rw [← e1] at k1
  rw [← e2] at k2
  unfold strip Stripped
  simp only [h4]
  by_cases hb : ∃ t, b = '.' :: t
  · obtain ⟨t, rfl⟩ := hb
    have hdot : '.' ∈ key := by rw [h1]; simp
    by_cases ha : a = "log4j".toList ∨ a = "log4cpp".toList
    · rw [if_pos ⟨ha, hdot⟩]
      have hdrop : key.drop (a.length + 1) = t := by
        rw [h1, ← List.append_cancel_left_eq (as := ([] : Text))]
        simp
      rw [hdrop]
      rcases ha with rfl | rfl
      · have hk : key = "log4j.".toList ++ t := by rw [h1, e1]; simp
        constructor
        · rintro rfl
          exact Or.inl hk
        · rintro (h | h | ⟨-, h, -⟩)
          · rw [hk] at h
            exact List.append_cancel_left h
          · have := (k2.mp ⟨short, h.symm⟩).1
            exact absurd this (by decide)
          · exact absurd ⟨t, hk.symm⟩ h
      · have hk : key = "log4cpp.".toList ++ t := by rw [h1, e2]; simp
        constructor
        · rintro rfl
          exact Or.inr (Or.inl hk)
        · rintro (h | h | ⟨-, -, h⟩)
          · have := (k1.mp ⟨short, h.symm⟩).1
            exact absurd this (by decide)
          · rw [hk] at h
            exact List.append_cancel_left h
          · exact absurd ⟨t, hk.symm⟩ h
    · rw [if_neg fun h => ha h.1]
      push Not at ha
      constructor
      · intro h
        exact Or.inr (Or.inr ⟨h, fun hp => ha.1 (k1.mp hp).1, fun hp => ha.2 (k2.mp hp).1⟩)
      · rintro (h | h | ⟨h, -, -⟩)
        · exact absurd (k1.mp ⟨short, h.symm⟩).1 ha.1
        · exact absurd (k2.mp ⟨short, h.symm⟩).1 ha.2
        · exact h
  · have hdot : '.' ∉ key := by
      rcases h3 with rfl | h3
      · rw [h1, List.append_nil]
        exact h2
      · exact absurd h3 hb
    rw [if_neg fun h => hdot h.2]
    constructor
    · intro h
      exact Or.inr (Or.inr ⟨h, fun hp => hb (k1.mp hp).2, fun hp => hb (k2.mp hp).2⟩)
    · rintro (h | h | ⟨h, -, -⟩)
      · exact absurd (k1.mp ⟨short, h.symm⟩).2 hb
      · exact absurd (k2.mp ⟨short, h.symm⟩).2 hb
      · exact h

/-- The entries are in the order of their keys, with no key twice. -/
def Sorted (m : Props) : Prop := m.Pairwise fun a b => a.1 < b.1

lemma find_cons (e : Text × Text) (m : Props) (k : Text) : find (e :: m) k = if e.1 = k then some e.2 else find m k := by
  unfold find
  rw [List.find?_cons]
  by_cases h : e.1 = k <;> simp [h]

lemma find_none {m : Props} {k : Text} (h : ∀ e ∈ m, e.1 ≠ k) : find m k = none := by
  induction m with
  | nil => rfl
  | cons e m ih =>
    rw [find_cons, if_neg (h e List.mem_cons_self)]
    exact ih fun f hf => h f (List.mem_cons_of_mem _ hf)

lemma mem_insert {k v : Text} {m : Props} {e : Text × Text} (h : e ∈ insert k v m) : e = (k, v) ∨ e ∈ m := by
  induction m with
  | nil => exact Or.inl (by simpa [insert] using h)
  | cons f m ih =>
    rw [insert] at h
    split at h
    · rcases List.mem_cons.mp h with h | h
      · exact Or.inl h
      · exact Or.inr h
    · split at h
      · exact Or.inr h
      · rcases List.mem_cons.mp h with h | h
        · exact Or.inr (h ▸ List.mem_cons_self)
        · rcases ih h with h | h
          · exact Or.inl h
          · exact Or.inr (List.mem_cons_of_mem _ h)

lemma insert_sorted {k v : Text} {m : Props} (h : Sorted m) : Sorted (insert k v m) := by
  induction m with
  | nil => simp [insert, Sorted]
  | cons f m ih =>
    obtain ⟨h1, h2⟩ := List.pairwise_cons.mp h
    rw [insert]
    split
    · rename_i hk
      refine List.pairwise_cons.mpr ⟨fun e he => ?_, h⟩
      rcases List.mem_cons.mp he with rfl | he
      · exact hk
      · exact lt_trans hk (h1 e he)
    · rename_i hk
      split
      · exact h
      · rename_i hk'
        refine List.pairwise_cons.mpr ⟨fun e he => ?_, ih h2⟩
        rcases mem_insert he with rfl | he
        · exact lt_of_le_of_ne (not_lt.mp hk) (Ne.symm hk')
        · exact h1 e he

lemma find_insert {k v : Text} {m : Props} (h : Sorted m) (k' : Text) :
    find (insert k v m) k' = (find m k').or (if k' = k then some v else none) := by
  induction m with
  | nil =>
    rw [insert, find_cons]
    by_cases hk : k' = k
    · subst hk; simp [find]
    · rw [if_neg (Ne.symm hk), if_neg hk]; simp [find]
  | cons f m ih =>
    obtain ⟨h1, h2⟩ := List.pairwise_cons.mp h
    rw [insert]
    split
    · rename_i hk
      rw [find_cons]
      by_cases hk' : k' = k
      · subst hk'
        rw [if_pos rfl, if_pos rfl, find_none, Option.none_or]
        intro e he
        rcases List.mem_cons.mp he with rfl | he
        · exact (ne_of_lt hk).symm
        · exact (ne_of_lt (lt_trans hk (h1 e he))).symm
      · rw [if_neg (Ne.symm hk'), if_neg hk', Option.or_none]
    · split
      · rename_i hk hk'
        by_cases hk'' : k' = k
        · subst hk''
          rw [find_cons, if_pos hk'.symm]
          rfl
        · rw [if_neg hk'', Option.or_none]
      · rename_i hk hk'
        rw [find_cons, find_cons, ih h2]
        split
        · rfl
        · rfl

lemma loadLine_sorted (env : Text → Option Text) {m : Props} (h : Sorted m) (l : Text) : Sorted (loadLine env m l) := by
  unfold loadLine
  cases entry l with
  | none => exact h
  | some e => exact insert_sorted h

lemma load_sorted (env : Text → Option Text) (s : Text) : Sorted (load env s) := by
  unfold load
  have : ∀ (ls : List Text) (m : Props), Sorted m → Sorted (ls.foldl (loadLine env) m) := by
    intro ls
    induction ls with
    | nil => exact fun m h => h
    | cons l ls ih => exact fun m h => ih _ (loadLine_sorted env h l)
  exact this _ _ List.Pairwise.nil

lemma takeWhile_all {d : Char} {s : Text} (h : d ∉ s) : s.takeWhile (fun c => decide (c ≠ d)) = s := by
  have := (takeWhile_stop (b := []) h (by simp)).1
  rwa [List.append_nil] at this

lemma lines_cons {l : Text} (h : Readable l) (s : Text) : lines (l ++ '\n' :: s) = l :: lines s := by
  rw [lines, dif_neg (by simp)]
  have := takeWhile_stop (d := '\n') (a := l) (b := '\n' :: s) h.1 (by simp)
  simp only [this, List.drop_succ_cons, List.drop_zero]
  rw [if_neg (by have := h.2.2; omega), takeWhile_all h.2.1]

lemma lines_text (ls : List Text) (h : ∀ l ∈ ls, Readable l) (s : Text) : lines (text ls ++ s) = ls ++ lines s := by
  induction ls with
  | nil => rfl
  | cons l ls ih =>
    have : text (l :: ls) ++ s = l ++ '\n' :: (text ls ++ s) := by simp [text]
    rw [this, lines_cons (h l List.mem_cons_self), ih fun l' hl' => h l' (List.mem_cons_of_mem _ hl')]
    rfl

lemma lines_nil : lines [] = [] := by rw [lines, dif_pos rfl]

lemma load_text (env : Text → Option Text) (ls : List Text) (h : ∀ l ∈ ls, Readable l) :
    load env (text ls) = ls.foldl (loadLine env) [] := by
  have := lines_text ls h []
  rw [List.append_nil, lines_nil, List.append_nil] at this
  rw [load, this]

/-- What a file sets, line by line: nothing at first; a line without an assignment changes nothing; an assignment sets the property of its
key, without the prefix, to the value with its variables replaced, unless the property is set already. -/
theorem C97_read (env : Text → Option Text) (ls : List Text) (l : Text) (hls : ∀ l ∈ ls, Readable l) (hl : Readable l) :
    (∀ k, find (load env []) k = none) ∧
    (Silent l → ∀ k, find (load env (text (ls ++ [l]))) k = find (load env (text ls)) k) ∧
    ∀ raw value key w, Assigns l raw value → Stripped raw key → Expands (valueOf env (find (load env (text ls)))) value w →
      ∀ k, find (load env (text (ls ++ [l]))) k = (find (load env (text ls)) k).or (if k = key then some w else none) := by
  have hall : ∀ l' ∈ ls ++ [l], Readable l' := by
    intro l' hl'
    rcases List.mem_append.mp hl' with h | h
    · exact hls l' h
    · rw [List.mem_singleton.mp h]
      exact hl
  refine ⟨fun k => ?_, fun hs k => ?_, fun raw value key w ha hs he k => ?_⟩
  · rw [load, lines_nil]
    rfl
  · rw [load_text env _ hall, load_text env _ hls, List.foldl_append, List.foldl_cons, List.foldl_nil]
    conv_lhs => rw [loadLine, (C97_silent l).mpr hs]
  · have hsort := load_sorted env (text ls)
    rw [load_text env _ hall, List.foldl_append, List.foldl_cons, List.foldl_nil, ← load_text env _ hls]
    conv_lhs => rw [loadLine, (C97_line l raw value).mpr ha]
    simp only
    rw [find_insert hsort, (strip_iff raw key).mpr hs, (C97_variables env _ _ _).mpr he]

/-- A last line without a line end counts as any other line. -/
theorem C97_last_line (env : Text → Option Text) (ls : List Text) (l : Text) (hls : ∀ l ∈ ls, Readable l) (hl : Readable l) (k : Text) :
    find (load env (text ls ++ l)) k = find (load env (text (ls ++ [l]))) k := by
  have hall : ∀ l' ∈ ls ++ [l], Readable l' := by
    intro l' hl'
    rcases List.mem_append.mp hl' with h | h
    · exact hls l' h
    · rw [List.mem_singleton.mp h]
      exact hl
  rw [load_text env _ hall, load, lines_text ls hls]
  by_cases h : l = []
  · subst h
    rw [lines_nil, List.append_nil, List.foldl_append]
    rfl
  · have : lines l = [l] := by
      rw [lines, dif_neg h]
      have h1 := takeWhile_stop (d := '\n') (a := l) (b := []) hl.1 (by simp)
      rw [List.append_nil] at h1
      simp only [h1]
      rw [if_neg (by have := hl.2.2; omega), takeWhile_all hl.2.1, List.drop_nil, lines_nil]
    rw [this]

/-- A property that the file format can express: no white space around key and value, no `#` in them, no `=` in the key, no variable in the value, no prefix
that is stripped, and a line that can be read. -/
structure Savable (k v : Text) : Prop where
  key : Trimmed k
  value : Trimmed v
  equals : '=' ∉ k
  hashK : '#' ∉ k
  hashV : '#' ∉ v
  plain : ¬ "${".toList <:+: v
  log4j : ¬ "log4j.".toList <+: k
  log4cpp : ¬ "log4cpp.".toList <+: k
  line : Readable (k ++ '=' :: v)

lemma padded_self (s : Text) : Padded s s := ⟨[], [], by simp, by simp, by simp⟩

lemma insert_last (k v : Text) (m : Props) (h : ∀ e ∈ m, e.1 < k) : insert k v m = m ++ [(k, v)] := by
  induction m with
  | nil => rfl
  | cons e m ih =>
    have h1 := h e List.mem_cons_self
    rw [insert, if_neg (not_lt_of_gt h1), if_neg (ne_of_gt h1), ih fun x hx => h x (List.mem_cons_of_mem _ hx)]
    rfl

lemma loadLine_savable (env : Text → Option Text) (m : Props) (k v : Text) (h : Savable k v) : loadLine env m (k ++ '=' :: v) = insert k v m := by
  have e1 : entry (k ++ '=' :: v) = some (k, v) := (C97_line _ _ _).mpr
    ⟨k, v, [], by simp, h.equals, h.hashK, h.hashV, .inl rfl, padded_self k, padded_self v, h.key, h.value⟩
  have e2 : substitute env m v = v := (C97_variables env m v v).mpr (.plain v h.plain)
  have e3 : strip k = k := (strip_iff k k).mpr (.inr (.inr ⟨rfl, h.log4j, h.log4cpp⟩))
  unfold loadLine
  rw [e1]
  simp only [e2, e3]

/-- What is saved is read back, if the file format can express it, whatever the environment is. -/
theorem C97_save (env : Text → Option Text) (m : Props) (hs : m.Pairwise fun a b => a.1 < b.1) (h : ∀ e ∈ m, Savable e.1 e.2) : load env (save m) = m := by
  have e1 : save m = text (m.map fun e => e.1 ++ '=' :: e.2) := by
    unfold save text
    rw [List.flatMap_map]
  rw [e1, load_text env _ (by
    intro l hl
    obtain ⟨e, he, rfl⟩ := List.mem_map.mp hl
    exact (h e he).line)]
  have : ∀ (m' acc : Props), (acc ++ m').Pairwise (fun a b => a.1 < b.1) → (∀ e ∈ m', Savable e.1 e.2) →
      (m'.map fun e => e.1 ++ '=' :: e.2).foldl (loadLine env) acc = acc ++ m' := by
    intro m'
    induction m' with
    | nil => intro acc _ _; simp
    | cons e m' ih =>
      intro acc hp hall
      rw [List.map_cons, List.foldl_cons, loadLine_savable env acc e.1 e.2 (hall e List.mem_cons_self), insert_last, ih]
      · simp
      · simpa using hp
      · exact fun x hx => hall x (List.mem_cons_of_mem _ hx)
      · intro x hx
        exact (List.pairwise_append.mp hp).2.2 x hx e List.mem_cons_self
  exact this m [] hs h

/-- Two properties. -/
example : Savable "appender.A".toList "ConsoleAppender".toList ∧ Savable "rootCategory".toList "INFO, A".toList ∧
    load (fun _ => none) (save [("appender.A".toList, "ConsoleAppender".toList), ("rootCategory".toList, "INFO, A".toList)]) =
      [("appender.A".toList, "ConsoleAppender".toList), ("rootCategory".toList, "INFO, A".toList)] := by
  have h1 : Savable "appender.A".toList "ConsoleAppender".toList := by
    refine ⟨?_, ?_, by decide, by decide, by decide, by decide, by decide, by decide, ?_, ?_, by decide⟩ <;> simp [Trimmed, White]
  have h2 : Savable "rootCategory".toList "INFO, A".toList := by
    refine ⟨?_, ?_, by decide, by decide, by decide, by decide, by decide, by decide, ?_, ?_, by decide⟩ <;> simp [Trimmed, White]
  refine ⟨h1, h2, C97_save _ _ (by decide) ?_⟩
  intro e he
  simp only [List.mem_cons, List.not_mem_nil, or_false] at he
  rcases he with rfl | rfl
  · exact h1
  · exact h2

/-- The claim that whatever was read is the same after saving and reading it again fails: a value from the environment may contain `#`. -/
theorem C97_save_refuted : ∃ (env : Text → Option Text) (s : Text), load env (save (load env s)) ≠ load env s := by
  refine ⟨fun _ => some "1#2".toList, "a=${X}\n".toList, ?_⟩
  decide +kernel

/-- The claim that every line of a file counts fails: after a line of 256 or more characters, be it a comment, the rest of the file is ignored. -/
theorem C97_long_line_refuted (env : Text → Option Text) (ls : List Text) (long rest : Text) (hls : ∀ l ∈ ls, Readable l) (hn : '\n' ∉ long)
    (hlen : 255 < long.length) : load env (text ls ++ long ++ '\n' :: rest) = load env (text ls) := by
  rw [load_text env _ hls, load, List.append_assoc, lines_text ls hls]
  have : lines (long ++ '\n' :: rest) = [] := by
    rw [lines, dif_neg (by simp)]
    have h1 := takeWhile_stop (d := '\n') (a := long) (b := '\n' :: rest) hn (by simp)
    simp only [h1]
    rw [if_pos hlen]
  rw [this, List.append_nil]

/-! ## Appenders -/

lemma split_noDot {d : Char} {s : Text} (h : d ∉ s) : split d s = [s] := by
  induction s with
  | nil => rfl
  | cons c s ih =>
    have hc : c ≠ d := fun e => h (e ▸ List.mem_cons_self)
    rw [split, if_neg hc, ih fun e => h (List.mem_cons_of_mem _ e)]

lemma split_ne_nil (d : Char) (s : Text) : split d s ≠ [] := by
  cases s with
  | nil => simp [split]
  | cons c s =>
    rw [split]
    split
    · simp
    · cases split d s <;> simp

lemma split_append {d : Char} {s : Text} (h : d ∉ s) (t : Text) : split d (s ++ d :: t) = s :: split d t := by
  induction s with
  | nil => rw [List.nil_append, split, if_pos rfl]
  | cons c s ih =>
    have hc : c ≠ d := fun e => h (e ▸ List.mem_cons_self)
    rw [List.cons_append, split, if_neg hc, ih fun e => h (List.mem_cons_of_mem _ e)]

lemma cons_le_cons_iff' {c d : Char} {s t : Text} : c :: s ≤ d :: t ↔ c < d ∨ c = d ∧ s ≤ t := by
  rw [← not_lt, List.cons_lt_cons_iff]
  push Not
  constructor
  · rintro ⟨h1, h2⟩
    rcases lt_or_eq_of_le h1 with h | h
    · exact Or.inl h
    · exact Or.inr ⟨h, h2 h.symm⟩
  · rintro (h | ⟨rfl, h⟩)
    · exact ⟨h.le, fun e => absurd e (ne_of_gt h)⟩
    · exact ⟨le_rfl, fun _ => h⟩

lemma char_between {c : Char} (h1 : '.' ≤ c) (h2 : c < '/') : c = '.' := by
  have h3 : ('.' : Char).val ≤ c.val := h1
  have h4 : c.val < ('/' : Char).val := h2
  have h5 : c.val.toNat < 47 := h4
  have h6 : 46 ≤ c.val.toNat := h3
  apply Char.ext
  apply UInt32.toNat_inj.mp
  change c.val.toNat = 46
  omega

lemma mem_range_iff (pre k : Text) : (pre ++ ['.'] ≤ k ∧ k < pre ++ ['/']) ↔ pre ++ ['.'] <+: k := by
  induction pre generalizing k with
  | nil =>
    cases k with
    | nil => simp
    | cons c k =>
      simp only [List.nil_append]
      rw [cons_le_cons_iff', List.cons_lt_cons_iff, List.cons_prefix_cons]
      constructor
      · rintro ⟨h1, h2⟩
        have h3 : c < '/' := by
          rcases h2 with h | ⟨-, h⟩
          · exact h
          · exact absurd h (by simp)
        refine ⟨(char_between ?_ h3).symm, by simp⟩
        rcases h1 with h | ⟨h, -⟩
        · exact h.le
        · exact h.le
      · rintro ⟨rfl, -⟩
        exact ⟨Or.inr ⟨rfl, not_lt.mp (List.not_lt_nil _)⟩, Or.inl (by decide)⟩
  | cons a pre ih =>
    cases k with
    | nil => simp
    | cons c k =>
      simp only [List.cons_append]
      rw [cons_le_cons_iff', List.cons_lt_cons_iff, List.cons_prefix_cons, ← ih k]
      constructor
      · rintro ⟨h1 | ⟨h1, h2⟩, h3 | ⟨h3, h4⟩⟩
        · exact absurd (lt_trans h1 h3) (lt_irrefl _)
        · exact absurd h3.symm (ne_of_lt h1)
        · exact absurd h1.symm (ne_of_lt h3)
        · exact ⟨h1, h2, h4⟩
      · rintro ⟨h1, h2, h3⟩
        exact ⟨Or.inr ⟨h1, h2⟩, Or.inr ⟨h1.symm, h3⟩⟩

lemma mem_range (m : Props) (pre : Text) (e : Text × Text) : e ∈ range m pre ↔ e ∈ m ∧ pre ++ ['.'] <+: e.1 := by
  unfold range
  rw [List.mem_filter, decide_eq_true_eq, mem_range_iff]

/-- Names made of characters after the dot are in the order of the keys that belong to them. -/
lemma belongs_lt {n1 n2 r1 r2 : Text} (h : n1 < n2) (hn2 : ∀ c ∈ n2, '.' < c) (hr1 : r1 = [] ∨ ∃ t, r1 = '.' :: t) :
    n1 ++ r1 < n2 ++ r2 := by
  induction n1 generalizing n2 with
  | nil =>
    cases n2 with
    | nil => exact absurd h (lt_irrefl _)
    | cons c n2 =>
      rcases hr1 with rfl | ⟨t, rfl⟩
      · simp
      · exact List.cons_lt_cons_iff.mpr (Or.inl (hn2 c List.mem_cons_self))
  | cons a n1 ih =>
    cases n2 with
    | nil => exact absurd h (by simp)
    | cons c n2 =>
      rw [List.cons_append, List.cons_append, List.cons_lt_cons_iff]
      rcases List.cons_lt_cons_iff.mp h with h | ⟨h1, h2⟩
      · exact Or.inl h
      · exact Or.inr ⟨h1, ih h2 fun d hd => hn2 d (List.mem_cons_of_mem _ hd)⟩

lemma append_lt_iff (p s t : Text) : p ++ s < p ++ t ↔ s < t := by
  induction p with
  | nil => rfl
  | cons a p ih =>
    rw [List.cons_append, List.cons_append, List.cons_lt_cons_iff, ih]
    simp

/-- The rest of a key that belongs to a name. -/
lemma belongs_rest {k n : Text} (h : Belongs k n) : ∃ r, k = "appender.".toList ++ (n ++ r) ∧ (r = [] ∨ ∃ t, r = '.' :: t) := by
  rcases h.2 with rfl | ⟨t, rfl⟩
  · exact ⟨[], by simp, Or.inl rfl⟩
  · exact ⟨'.' :: t, by simp, Or.inr ⟨t, rfl⟩⟩

lemma belongs_order {k1 k2 n1 n2 : Text} (h1 : Belongs k1 n1) (h2 : Belongs k2 n2) (hn2 : ∀ c ∈ n2, '.' < c) (h : n1 < n2) : k1 < k2 := by
  obtain ⟨r1, rfl, hr1⟩ := belongs_rest h1
  obtain ⟨r2, rfl, hr2⟩ := belongs_rest h2
  rw [append_lt_iff]
  exact belongs_lt h hn2 hr1

lemma belongs_split {k n : Text} (h : Belongs k n) : ∃ ws, split '.' k = "appender".toList :: n :: ws ∧ (ws = [] ↔ k = "appender.".toList ++ n) := by
  have e : ∀ s : Text, "appender.".toList ++ s = "appender".toList ++ '.' :: s := fun s => by
    have : "appender.".toList = "appender".toList ++ ['.'] := by decide
    rw [this]; simp
  rcases h.2 with rfl | ⟨t, rfl⟩
  · refine ⟨[], ?_, by simp⟩
    rw [e, split_append (by decide), split_noDot h.1]
  · refine ⟨split '.' t, ?_, ?_⟩
    · rw [List.append_assoc, e, split_append (by decide), split_append h.1]
    · constructor
      · intro h
        exact absurd h (split_ne_nil _ _)
      · intro h
        have := congrArg List.length h
        simp at this

lemma belongs_unique {k n n' : Text} (h : Belongs k n) (h' : Belongs k n') : n = n' := by
  obtain ⟨ws, h1, -⟩ := belongs_split h
  obtain ⟨ws', h2, -⟩ := belongs_split h'
  rw [h1] at h2
  injection h2 with _ h2
  injection h2

lemma belongs_exists {k : Text} (h : "appender".toList ++ ['.'] <+: k) : ∃ n, Belongs k n := by
  obtain ⟨t, rfl⟩ := h
  obtain ⟨n, b, h1, h2, h3, -, -⟩ := takeWhile_split '.' t
  have e : "appender".toList ++ ['.'] = "appender.".toList := by decide
  rw [e]
  refine ⟨n, h2, ?_⟩
  rcases h3 with rfl | ⟨u, rfl⟩
  · left; rw [h1]; simp
  · right; exact ⟨u, by rw [h1]; simp⟩

/-- The appender with a name in the list. -/
def appOf (apps : List (Text × App)) (n : Text) : Option App := (apps.find? fun e => decide (e.1 = n)).map (·.2)

lemma appOf_cons (e : Text × App) (apps : List (Text × App)) (n : Text) : appOf (e :: apps) n = if e.1 = n then some e.2 else appOf apps n := by
  unfold appOf
  rw [List.find?_cons]
  by_cases h : e.1 = n <;> simp [h]

lemma rounds (m : Props) (ks : List Text) (cur : Text) (apps : List (Text × App)) (hsort : ks.Pairwise (· < ·))
    (hk : ∀ k ∈ ks, ∃ n, Belongs k n ∧ cur ≤ n ∧ (∀ c ∈ n, '.' < c) ∧ (n ≠ cur → "appender.".toList ++ n ∈ ks) ∧ ∃ a, instantiateAppender m n = .ok a) :
    ∃ cur' apps', ks.foldlM (appenderRound m) (cur, apps) = .ok (cur', apps') ∧ ∀ n,
      ((∃ k ∈ ks, Belongs k n) → n ≠ cur → ∃ a, instantiateAppender m n = .ok a ∧ appOf apps' n = some a) ∧
      ((¬ ∃ k ∈ ks, Belongs k n) ∨ n = cur → appOf apps' n = appOf apps n) := by
  induction ks generalizing cur apps with
  | nil => exact ⟨cur, apps, rfl, fun n => ⟨by rintro ⟨k, hk, -⟩; simp at hk, fun _ => rfl⟩⟩
  | cons k ks ih =>
    obtain ⟨hs1, hs2⟩ := List.pairwise_cons.mp hsort
    obtain ⟨n, hb, hcur, hn, hdef, a, ha⟩ := hk k List.mem_cons_self
    obtain ⟨ws, hw1, hw2⟩ := belongs_split hb
    by_cases hne : n = cur
    · -- another property of the current appender
      have hround : appenderRound m (cur, apps) k = .ok (cur, apps) := by
        unfold appenderRound
        rw [hw1]
        simp only [if_pos hne]
      obtain ⟨cur', apps', h1, h2⟩ := ih cur apps hs2 (by
        intro k' hk'
        obtain ⟨n', g1, g2, g3, g4, g5⟩ := hk k' (List.mem_cons_of_mem _ hk')
        refine ⟨n', g1, g2, g3, fun h => ?_, g5⟩
        rcases List.mem_cons.mp (g4 h) with e | e
        · exact absurd ((belongs_unique (k := k) ⟨g1.1, Or.inl e.symm⟩ hb).trans hne) h
        · exact e)
      refine ⟨cur', apps', ?_, fun n' => ⟨?_, ?_⟩⟩
      · rw [List.foldlM_cons, hround]
        exact h1
      · rintro ⟨k', hk', hb'⟩ hn'
        rcases List.mem_cons.mp hk' with rfl | hk'
        · exact absurd ((belongs_unique hb' hb).trans hne) hn'
        · exact (h2 n').1 ⟨k', hk', hb'⟩ hn'
      · rintro (h | h)
        · exact (h2 n').2 (Or.inl fun ⟨k', hk', hb'⟩ => h ⟨k', List.mem_cons_of_mem _ hk', hb'⟩)
        · exact (h2 n').2 (Or.inr h)
    · -- a new appender: its definition comes first
      have hkey : k = "appender.".toList ++ n := by
        rcases List.mem_cons.mp (hdef hne) with e | e
        · exact e.symm
        · have hlt := hs1 _ e
          obtain ⟨r, rfl, hr⟩ := belongs_rest hb
          rw [append_lt_iff] at hlt
          exfalso
          have h1 : n ++ r < n ++ [] := by rwa [List.append_nil]
          rw [append_lt_iff] at h1
          exact absurd h1 (by simp)
      have hround : appenderRound m (cur, apps) k = .ok (n, (n, a) :: apps) := by
        unfold appenderRound
        rw [hw1]
        simp only [if_neg hne, if_pos (hw2.mpr hkey), ha]
        rfl
      obtain ⟨cur', apps', h1, h2⟩ := ih n ((n, a) :: apps) hs2 (by
        intro k' hk'
        obtain ⟨n', g1, g2, g3, g4, g5⟩ := hk k' (List.mem_cons_of_mem _ hk')
        refine ⟨n', g1, ?_, g3, fun h => ?_, g5⟩
        · by_contra hlt
          exact absurd (belongs_order g1 hb hn (not_le.mp hlt)) (not_lt.mpr (hs1 k' hk').le)
        · have hn' : n' ≠ cur := by
            rintro rfl
            have : n < n' → False := fun h' => absurd (belongs_order hb g1 g3 h') (by
              intro _
              exact absurd (lt_of_lt_of_le h' hcur) (lt_irrefl _))
            have h3 : n' < n := lt_of_le_of_ne hcur h
            exact absurd (belongs_order g1 hb hn h3) (not_lt.mpr (hs1 k' hk').le)
          rcases List.mem_cons.mp (g4 hn') with e | e
          · exact absurd (belongs_unique (k := k) ⟨g1.1, Or.inl e.symm⟩ hb) h
          · exact e)
      refine ⟨cur', apps', ?_, fun n' => ⟨?_, ?_⟩⟩
      · rw [List.foldlM_cons, hround]
        exact h1
      · rintro ⟨k', hk', hb'⟩ hn'
        by_cases hnn : n' = n
        · subst hnn
          refine ⟨a, ha, ?_⟩
          rw [(h2 n').2 (Or.inr rfl), appOf_cons, if_pos rfl]
        · rcases List.mem_cons.mp hk' with rfl | hk'
          · exact absurd (belongs_unique hb' hb) hnn
          · exact (h2 n').1 ⟨k', hk', hb'⟩ hnn
      · intro h
        have hnn : n' ≠ n := by
          rintro rfl
          rcases h with h | h
          · exact h ⟨k, List.mem_cons_self, hb⟩
          · exact hne h
        have hex : ¬ ∃ k' ∈ ks, Belongs k' n' := by
          rcases h with h | h
          · exact fun ⟨k', hk', hb'⟩ => h ⟨k', List.mem_cons_of_mem _ hk', hb'⟩
          · rintro ⟨k', hk', hb'⟩
            subst h
            have h3 : n' < n := lt_of_le_of_ne hcur (Ne.symm hne)
            exact absurd (belongs_order hb' hb hn h3) (not_lt.mpr (hs1 k' hk').le)
        rw [(h2 n').2 (Or.inl hex), appOf_cons, if_neg (Ne.symm hnn)]

lemma mem_of_find {m : Props} {k v : Text} (h : find m k = some v) : ∃ e ∈ m, e.1 = k := by
  induction m with
  | nil => simp [find] at h
  | cons e m ih =>
    rw [find_cons] at h
    split at h
    · rename_i he
      exact ⟨e, List.mem_cons_self, he⟩
    · obtain ⟨f, hf, he⟩ := ih h
      exact ⟨f, List.mem_cons_of_mem _ hf, he⟩

lemma find_of_mem {m : Props} {e : Text × Text} (h : e ∈ m) : ∃ v, find m e.1 = some v := by
  induction m with
  | nil => simp at h
  | cons f m ih =>
    rw [find_cons]
    split
    · exact ⟨_, rfl⟩
    · rename_i hne
      rcases List.mem_cons.mp h with rfl | h
      · exact absurd rfl hne
      · exact ih h

lemma instantiate_defined {m : Props} {n : Text} {a : App} (h : instantiateAppender m n = .ok a) : ∃ v, find m ("appender.".toList ++ n) = some v := by
  unfold instantiateAppender at h
  cases hf : find m ("appender.".toList ++ n) with
  | none => simp only [hf] at h; exact absurd h (by simp)
  | some v => exact ⟨v, rfl⟩

/-- If the names of the appenders are made of characters after the dot (letters, digits, underscore), and each appender can be made, then exactly the
appenders that are defined are made. -/
theorem C97_appenders (env : Text → Option Text) (s : Text)
    (h : ∀ k n, (find (load env s) k).isSome → Belongs k n → n ≠ [] ∧ (∀ c ∈ n, '.' < c) ∧ ∃ a, instantiateAppender (load env s) n = .ok a) :
    ∃ apps, instantiateAllAppenders (load env s) = .ok apps ∧ ∀ n a,
      appOf apps n = some a ↔ '.' ∉ n ∧ (find (load env s) ("appender.".toList ++ n)).isSome ∧ instantiateAppender (load env s) n = .ok a := by
  obtain ⟨m, hm⟩ : ∃ m, load env s = m := ⟨_, rfl⟩
  have hsort : Sorted m := hm ▸ load_sorted env s
  rw [hm] at h ⊢
  have hsort' : ((range m "appender".toList).map (·.1)).Pairwise (· < ·) := by
    rw [List.pairwise_map]
    exact List.Pairwise.sublist List.filter_sublist hsort
  have hmem : ∀ k, k ∈ (range m "appender".toList).map (·.1) ↔ (find m k).isSome ∧ "appender".toList ++ ['.'] <+: k := by
    intro k
    rw [List.mem_map]
    constructor
    · rintro ⟨e, he, rfl⟩
      obtain ⟨h1, h2⟩ := (mem_range m _ e).mp he
      obtain ⟨v, hv⟩ := find_of_mem h1
      exact ⟨by rw [hv]; rfl, h2⟩
    · rintro ⟨h1, h2⟩
      obtain ⟨v, hv⟩ := Option.isSome_iff_exists.mp h1
      obtain ⟨e, he, rfl⟩ := mem_of_find hv
      exact ⟨e, (mem_range m _ e).mpr ⟨he, h2⟩, rfl⟩
  have hpre : ∀ n : Text, "appender".toList ++ ['.'] <+: "appender.".toList ++ n := fun n => by
    have : "appender".toList ++ ['.'] = "appender.".toList := by decide
    rw [this]
    exact ⟨n, rfl⟩
  obtain ⟨cur', apps, h1, h2⟩ := rounds m ((range m "appender".toList).map (·.1)) [] [] hsort' (by
    intro k hk
    obtain ⟨hk1, hk2⟩ := (hmem k).mp hk
    obtain ⟨n, hn⟩ := belongs_exists hk2
    obtain ⟨g1, g2, a, ha⟩ := h k n hk1 hn
    refine ⟨n, hn, not_lt.mp (List.not_lt_nil _), g2, fun _ => ?_, a, ha⟩
    obtain ⟨v, hv⟩ := instantiate_defined ha
    exact (hmem _).mpr ⟨by rw [hv]; rfl, hpre n⟩)
  refine ⟨apps, ?_, fun n a => ⟨fun hn => ?_, fun ⟨hd, hf, ha⟩ => ?_⟩⟩
  · unfold instantiateAllAppenders
    rw [h1]
    rfl
  · by_cases hex : ∃ k ∈ (range m "appender".toList).map (·.1), Belongs k n
    · obtain ⟨k, hk, hb⟩ := hex
      have hne := (h k n ((hmem k).mp hk).1 hb).1
      obtain ⟨a', ha', happ⟩ := (h2 n).1 ⟨k, hk, hb⟩ hne
      rw [happ] at hn
      injection hn with hn
      subst hn
      obtain ⟨v, hv⟩ := instantiate_defined ha'
      exact ⟨hb.1, by rw [hv]; rfl, ha'⟩
    · rw [(h2 n).2 (Or.inl hex)] at hn
      simp [appOf] at hn
  · have hb : Belongs ("appender.".toList ++ n) n := ⟨hd, Or.inl rfl⟩
    have hne := (h _ n hf hb).1
    obtain ⟨a', ha', happ⟩ := (h2 n).1 ⟨_, (hmem _).mpr ⟨hf, hpre n⟩, hb⟩ hne
    rw [ha] at ha'
    injection ha' with ha'
    rw [happ, ha']

/-! ## Priorities -/

lemma digits_isDigit {n : ℕ} {c : Char} (h : c ∈ Nat.toDigits 10 n) : c.isDigit = true := Nat.isDigit_of_mem_toDigits (by norm_num) le_rfl h

lemma value_toDigits (n : ℕ) : LogLayout.value (Nat.toDigits 10 n) = n := by
  have := Nat.ofDigitChars_toDigits (b := 10) (n := n) (by norm_num) (by norm_num)
  rw [Nat.ofDigitChars_eq_foldl] at this
  exact this

lemma strtoul_toDigits {n : ℕ} (h : n < 2 ^ 31) : strtoul (Nat.toDigits 10 n) = some (n : ℤ) := by
  have hne : Nat.toDigits 10 n ≠ [] := Nat.toDigits_ne_nil
  obtain ⟨c, cs, hcs⟩ := List.exists_cons_of_ne_nil hne
  have hd : ∀ x ∈ Nat.toDigits 10 n, x.isDigit = true := fun x hx => digits_isDigit hx
  have hc : c.isDigit = true := hd c (hcs ▸ List.mem_cons_self)
  have hw : isWhite c = false := by
    rw [Bool.eq_false_iff, Ne, isWhite_iff]
    rintro (rfl | rfl | rfl | rfl) <;> exact absurd hc (by decide)
  have hm : c ≠ '-' := by rintro rfl; exact absurd hc (by decide)
  have hp : c ≠ '+' := by rintro rfl; exact absurd hc (by decide)
  have htake : (Nat.toDigits 10 n).takeWhile Char.isDigit = Nat.toDigits 10 n := List.takeWhile_eq_self_iff.mpr hd
  have hdrop : (Nat.toDigits 10 n).dropWhile Char.isDigit = [] := List.dropWhile_eq_nil_iff.mpr hd
  unfold strtoul
  have hwhite : (Nat.toDigits 10 n).dropWhile isWhite = Nat.toDigits 10 n := by
    rw [hcs, List.dropWhile_cons, if_neg (by rw [hw]; simp)]
  have hmatch : sign (Nat.toDigits 10 n) = (false, Nat.toDigits 10 n) := by
    rw [hcs, sign, if_neg hm, if_neg hp]
  simp only [hwhite, hmatch, htake, hdrop, value_toDigits]
  rw [if_neg hne, if_neg (by simp), if_neg (by norm_num at h ⊢; omega), if_neg (by simp)]
  have hb : Int.bmod (n : ℤ) 4294967296 = n := by
    rw [Int.bmod_def]
    norm_num at h
    omega
  exact congrArg some hb

lemma names_not_digit {w : Text} {c : Char} (hc : w.head? = some c) (hd : c.isDigit = true) :
    LogLayout.names.find? (fun n => decide (n.1.toList = w)) = none := by
  rw [List.find?_eq_none]
  intro n hn
  rw [decide_eq_true_eq]
  rintro rfl
  revert hc hd
  simp only [LogLayout.names, List.mem_cons, List.not_mem_nil, or_false] at hn
  rcases hn with rfl | rfl | rfl | rfl | rfl | rfl | rfl | rfl | rfl | rfl | rfl <;>
    · intro hd hc
      have := Option.some.inj hc
      subst this
      exact absurd hd (by decide)

/-- The words for priorities mean what they say: nothing, one of the names, or a number. -/
theorem C97_priority (w : Text) (v : ℤ) (h : PriorityWord w v) : (if w = [] then some 800 else getPriorityValue w) = some v := by
  cases h with
  | empty => rfl
  | name w v h =>
    simp only [List.mem_cons, Prod.mk.injEq, List.not_mem_nil, or_false] at h
    rcases h with ⟨rfl, rfl⟩ | ⟨rfl, rfl⟩ | ⟨rfl, rfl⟩ | ⟨rfl, rfl⟩ | ⟨rfl, rfl⟩ | ⟨rfl, rfl⟩ | ⟨rfl, rfl⟩ | ⟨rfl, rfl⟩ | ⟨rfl, rfl⟩ |
      ⟨rfl, rfl⟩ | ⟨rfl, rfl⟩ <;> decide
  | number n h =>
    have hne : Nat.toDigits 10 n ≠ [] := Nat.toDigits_ne_nil
    rw [if_neg hne]
    obtain ⟨c, cs, hcs⟩ := List.exists_cons_of_ne_nil hne
    have hc : c.isDigit = true := digits_isDigit (n := n) (hcs ▸ List.mem_cons_self)
    unfold getPriorityValue
    rw [names_not_digit (c := c) (by rw [hcs]; rfl) hc]
    exact strtoul_toDigits h

/-- Any other word that starts with a letter is refused. -/
theorem C97_priority_refused (w : Text) (c : Char) (hc : w.head? = some c) (hl : c.isAlpha = true) (h : ∀ v, ¬ PriorityWord w v) :
    getPriorityValue w = none := by
  unfold getPriorityValue
  have hfind : LogLayout.names.find? (fun n => decide (n.1.toList = w)) = none := by
    rw [List.find?_eq_none]
    intro n hn
    rw [decide_eq_true_eq]
    rintro rfl
    refine h n.2 (.name n.1 n.2 ?_)
    simp only [LogLayout.names, List.mem_cons, List.not_mem_nil, or_false] at hn
    rcases hn with rfl | rfl | rfl | rfl | rfl | rfl | rfl | rfl | rfl | rfl | rfl <;> simp
  rw [hfind]
  simp only
  obtain ⟨cs, rfl⟩ : ∃ cs, w = c :: cs := by
    cases w with
    | nil => simp at hc
    | cons d cs =>
      have := Option.some.inj hc
      exact ⟨cs, by rw [this]⟩
  have hw : isWhite c = false := by
    rw [Bool.eq_false_iff, Ne, isWhite_iff]
    rintro (rfl | rfl | rfl | rfl) <;> exact absurd hl (by decide)
  have hm : c ≠ '-' := by rintro rfl; exact absurd hl (by decide)
  have hp : c ≠ '+' := by rintro rfl; exact absurd hl (by decide)
  have hd : c.isDigit = false := by
    rw [Bool.eq_false_iff]
    intro hd
    simp only [Char.isAlpha, Char.isUpper, Char.isLower, Char.isDigit, Bool.or_eq_true, Bool.and_eq_true, decide_eq_true_eq] at hl hd
    obtain ⟨h1, h2⟩ := hd
    have h2' : c.val.toNat ≤ 57 := h2
    rcases hl with ⟨h3, -⟩ | ⟨h3, -⟩
    · have h3' : 65 ≤ c.val.toNat := h3
      omega
    · have h3' : 97 ≤ c.val.toNat := h3
      omega
  unfold strtoul
  have hmatch : sign (c :: cs) = (false, c :: cs) := by
    rw [sign, if_neg hm, if_neg hp]
  have hwhite : (c :: cs : Text).dropWhile isWhite = c :: cs := by
    rw [List.dropWhile_cons, if_neg (by rw [hw]; simp)]
  simp only [hwhite, hmatch]
  have htake : (c :: cs : Text).takeWhile Char.isDigit = [] := by
    rw [List.takeWhile_cons, if_neg (by rw [hd]; simp)]
  rw [htake, if_pos rfl, if_neg (by simp)]

/-! ## Categories -/

lemma words_split {s : Text} {ws : List Text} (h : Words s ws) : (split ',' s).map trim = ws := by
  induction h with
  | last w s h1 h2 h3 => rw [split_noDot h1, List.map_singleton, trim_unique h2 h3]
  | more w s rest ws h1 h2 h3 _ ih => rw [split_append h1, List.map_cons, trim_unique h2 h3, ih]

lemma attach_ok {addr : Text → ℕ} {apps : List (Text × App)} {cat : Text} {ts : List Text} {ops : List Op}
    (h : attach addr apps cat ts = (ops, none)) :
    ops = ts.map (fun t => Op.addAppender cat (addr (trim t))) ∧ ∀ t ∈ ts, (appOf apps (trim t)).isSome := by
  induction ts generalizing ops with
  | nil =>
    rw [attach] at h
    injection h with h1 _
    exact ⟨h1.symm, by simp⟩
  | cons t ts ih =>
    rw [attach] at h
    split at h
    · rename_i ht
      injection h with h1 h2
      obtain ⟨g1, g2⟩ := ih (ops := (attach addr apps cat ts).1) (Prod.ext rfl h2)
      refine ⟨by rw [← h1, g1]; rfl, fun t' ht' => ?_⟩
      rcases List.mem_cons.mp ht' with rfl | ht'
      · simpa [appOf] using ht
      · exact g2 t' ht'
    · exact absurd h (by simp)

lemma adds_config (cat : Text) (as : List ℕ) (c : Spec.LogConfig) :
    let c' := (as.map (Op.addAppender cat)).foldl LogConfig.after c
    c'.priority = c.priority ∧ c'.additive = c.additive ∧ ∀ n, c'.appenders n = if n = cat then c.appenders n ∪ as.toFinset else c.appenders n := by
  induction as generalizing c with
  | nil => exact ⟨rfl, rfl, fun n => by simp⟩
  | cons a as ih =>
    obtain ⟨h1, h2, h3⟩ := ih (c.after (.addAppender cat a))
    refine ⟨h1, h2, fun n => (h3 n).trans ?_⟩
    by_cases hn : n = cat
    · rw [if_pos hn, if_pos hn]
      simp only [LogConfig.after, if_pos hn, List.toFinset_cons]
      rw [Finset.insert_union, Finset.union_insert]
    · rw [if_neg hn, if_neg hn]
      simp only [LogConfig.after, if_neg hn]

/-- The category that `categoryName` stands for. -/
def target (categoryName : Text) : Text := if categoryName = "rootCategory".toList then [] else categoryName

/-- The property of `categoryName`. -/
def targetKey (categoryName : Text) : Text :=
  if categoryName = "rootCategory".toList then categoryName else "category.".toList ++ categoryName

lemma category_ok {m : Props} {addr : Text → ℕ} {apps : List (Text × App)} {cn : Text} {ops : List Op}
    (h : configureCategory m addr apps cn = (ops, none)) (c : Spec.LogConfig) :
    ∃ v first rest p, find m (targetKey cn) = some v ∧ split ',' v = first :: rest ∧
      (if trim first = [] then some 800 else getPriorityValue (trim first)) = some p ∧ ¬ (target cn = [] ∧ ¬ p < 800) ∧
      (∀ t ∈ rest, (appOf apps (trim t)).isSome) ∧
      let c' := ops.foldl LogConfig.after c
      (∀ n, n ≠ target cn → c'.priority n = c.priority n ∧ c'.additive n = c.additive n ∧ c'.appenders n = c.appenders n) ∧
      c'.priority (target cn) = (if p < 800 then some p else none) ∧
      c'.additive (target cn) = getBool m ("additivity.".toList ++ cn) true ∧
      c'.appenders (target cn) = (rest.map fun t => addr (trim t)).toFinset := by
  unfold configureCategory at h
  have hkey : (if decide (cn = "rootCategory".toList) = true then cn else "category.".toList ++ cn) = targetKey cn := by
    unfold targetKey
    simp only [decide_eq_true_eq]
  have htgt : (if decide (cn = "rootCategory".toList) = true then [] else cn) = target cn := by
    unfold target
    simp only [decide_eq_true_eq]
  simp only [hkey, htgt] at h
  cases hf : find m (targetKey cn) with
  | none => simp only [hf] at h; exact absurd h (by simp)
  | some v =>
    simp only [hf] at h
    cases hs : split ',' v with
    | nil => simp only [hs] at h; exact absurd h (by simp)
    | cons first rest =>
      simp only [hs] at h
      cases hp : (if trim first = [] then some NOTSET else getPriorityValue (trim first)) with
      | none => simp only [hp] at h; exact absurd h (by simp)
      | some p =>
        simp only [hp] at h
        split at h
        · exact absurd h (by simp)
        · rename_i hroot
          injection h with h1 h2
          obtain ⟨g1, g2⟩ := attach_ok (ops := (attach addr apps (target cn) rest).1) (Prod.ext rfl h2)
          refine ⟨v, first, rest, p, rfl, hs, hp, hroot, g2, ?_⟩
          have hm : rest.map (fun t => Op.addAppender (target cn) (addr (trim t))) =
              (rest.map fun t => addr (trim t)).map (Op.addAppender (target cn)) := by
            rw [List.map_map]
            rfl
          rw [g1, hm] at h1
          rw [← h1, List.foldl_append]
          obtain ⟨a1, a2, a3⟩ := adds_config (target cn) (rest.map fun t => addr (trim t))
            ([Op.get (target cn), .setPriority (target cn) p, .setAdditivity (target cn) (getBool m ("additivity.".toList ++ cn) true),
              .removeAllAppenders (target cn)].foldl LogConfig.after c)
          refine ⟨fun n hn => ⟨?_, ?_, ?_⟩, ?_, ?_, ?_⟩
          · rw [a1]
            simp only [List.foldl_cons, List.foldl_nil, LogConfig.after, if_neg hn]
          · rw [a2]
            simp only [List.foldl_cons, List.foldl_nil, LogConfig.after, if_neg hn]
          · rw [a3, if_neg hn]
            simp only [List.foldl_cons, List.foldl_nil, LogConfig.after, if_neg hn]
          · rw [a1]
            simp only [List.foldl_cons, List.foldl_nil, LogConfig.after, if_true]
            split
            · rfl
            · rename_i hp'
              rw [if_neg fun he => hroot ⟨he, hp'⟩]
          · rw [a2]
            simp only [List.foldl_cons, List.foldl_nil, LogConfig.after, if_true]
          · rw [a3, if_pos rfl]
            simp only [List.foldl_cons, List.foldl_nil, LogConfig.after, if_true, Finset.empty_union]

lemma all_ok {m : Props} {addr : Text → ℕ} {apps : List (Text × App)} {cs : List Text} {ops : List Op}
    (h : configureAll m addr apps cs = (ops, none)) (hnd : (cs.map target).Nodup) (c : Spec.LogConfig) :
    let c' := ops.foldl LogConfig.after c
    (∀ n, n ∉ cs.map target → c'.priority n = c.priority n ∧ c'.additive n = c.additive n ∧ c'.appenders n = c.appenders n) ∧
    ∀ cn ∈ cs, ∃ v first rest p, find m (targetKey cn) = some v ∧ split ',' v = first :: rest ∧
      (if trim first = [] then some 800 else getPriorityValue (trim first)) = some p ∧ ¬ (target cn = [] ∧ ¬ p < 800) ∧
      (∀ t ∈ rest, (appOf apps (trim t)).isSome) ∧
      c'.priority (target cn) = (if p < 800 then some p else none) ∧
      c'.additive (target cn) = getBool m ("additivity.".toList ++ cn) true ∧
      c'.appenders (target cn) = (rest.map fun t => addr (trim t)).toFinset := by
  induction cs generalizing ops c with
  | nil =>
    rw [configureAll] at h
    injection h with h1 _
    subst h1
    exact ⟨fun n _ => ⟨rfl, rfl, rfl⟩, by simp⟩
  | cons cn cs ih =>
    rw [configureAll] at h
    rcases hc : configureCategory m addr apps cn with ⟨ops1, f⟩
    rw [hc] at h
    cases f with
    | some f => exact absurd h (by simp)
    | none =>
      simp only [Prod.mk.injEq] at h
      obtain ⟨h1, h2⟩ := h
      rw [List.map_cons, List.nodup_cons] at hnd
      subst h1
      rw [List.foldl_append]
      obtain ⟨v, first, rest, p, g1, g2, g3, g4, g5, g6, g7, g8, g9⟩ := category_ok hc c
      obtain ⟨i1, i2⟩ := ih (ops := (configureAll m addr apps cs).1) (Prod.ext rfl h2) hnd.2 (ops1.foldl LogConfig.after c)
      refine ⟨fun n hn => ?_, fun cn' hcn' => ?_⟩
      · rw [List.map_cons, List.mem_cons, not_or] at hn
        obtain ⟨j1, j2, j3⟩ := i1 n hn.2
        obtain ⟨k1, k2, k3⟩ := g6 n hn.1
        exact ⟨j1.trans k1, j2.trans k2, j3.trans k3⟩
      · rcases List.mem_cons.mp hcn' with rfl | hcn'
        · obtain ⟨j1, j2, j3⟩ := i1 (target cn') hnd.1
          exact ⟨v, first, rest, p, g1, g2, g3, g4, g5, j1.trans g7, j2.trans g8, j3.trans g9⟩
        · exact i2 cn' hcn'

lemma rounds_defined (m : Props) (ks : List Text) (st st' : Text × List (Text × App)) (h : ks.foldlM (appenderRound m) st = .ok st')
    (hst : ∀ e ∈ st.2, ∃ v, find m ("appender.".toList ++ e.1) = some v) : ∀ e ∈ st'.2, ∃ v, find m ("appender.".toList ++ e.1) = some v := by
  induction ks generalizing st with
  | nil =>
    have : st = st' := by injection h
    exact this ▸ hst
  | cons k ks ih =>
    rw [List.foldlM_cons] at h
    cases hr : appenderRound m st k with
    | error f => rw [hr] at h; exact absurd h (by simp [bind, Except.bind])
    | ok st1 =>
      rw [hr] at h
      refine ih st1 h ?_
      unfold appenderRound at hr
      split at hr
      · split at hr
        · injection hr with hr
          exact hr ▸ hst
        · split at hr
          · rename_i name rest _ _ _
            cases hi : instantiateAppender m name with
            | error f => simp [hi, bind, Except.bind] at hr
            | ok a =>
              simp only [hi, bind, Except.bind, Except.ok.injEq] at hr
              subst hr
              intro e he
              rcases List.mem_cons.mp he with rfl | he
              · exact instantiate_defined hi
              · exact hst e he
          · exact absurd hr (by simp)
      · exact absurd hr (by simp)

lemma all_defined {m : Props} {apps : List (Text × App)} (h : instantiateAllAppenders m = .ok apps) {n : Text} (hn : (appOf apps n).isSome) :
    (find m ("appender.".toList ++ n)).isSome := by
  unfold instantiateAllAppenders at h
  cases hr : ((range m "appender".toList).map (·.1)).foldlM (appenderRound m) ([], []) with
  | error f => rw [hr] at h; exact absurd h (by simp [Except.map])
  | ok st =>
    rw [hr] at h
    simp only [Except.map, Except.ok.injEq] at h
    subst h
    have := rounds_defined m _ _ st hr (by simp)
    unfold appOf at hn
    rw [Option.isSome_map] at hn
    obtain ⟨e, he⟩ := Option.isSome_iff_exists.mp hn
    obtain ⟨v, hv⟩ := this e (List.mem_of_find?_eq_some he)
    have hen := List.find?_some he
    rw [decide_eq_true_eq] at hen
    rw [← hen, hv]
    rfl

/-- A configuration that succeeds sets exactly what the file says: the priority, the additivity and the appenders of each category that the file
configures, and nothing for the others. The root is configured, and the appenders are those that the file defines. -/
theorem C97_configure (env : Text → Option Text) (addr : Text → ℕ) (s : Text) (ops : List Op) (h : doConfigure env addr s = (ops, none))
    (h1 : find (load env s) "category.".toList = none) (h2 : find (load env s) "category.rootCategory".toList = none)
    (before : Spec.LogConfig) (name : Text) :
    let property := find (load env s)
    let after := ops.foldl LogConfig.after before
    (property "rootCategory".toList).isSome ∧
    (property (categoryKey name) = none → after.priority name = before.priority name ∧ after.additive name = before.additive name ∧
      after.appenders name = before.appenders name) ∧
    ∀ v w ws, property (categoryKey name) = some v → Words v (w :: ws) →
      (∀ z, PriorityWord w z → after.priority name = if z < 800 then some z else none) ∧
      (after.additive name = true ↔ property (additivityKey name) = none ∨ property (additivityKey name) = some "true".toList) ∧
      (∀ a, a ∈ after.appenders name ↔ ∃ x ∈ ws, addr x = a) ∧
      ∀ x ∈ ws, (property ("appender.".toList ++ x)).isSome := by
  unfold doConfigure at h
  have hsort := load_sorted env s
  obtain ⟨m, hm⟩ : ∃ m, load env s = m := ⟨_, rfl⟩
  rw [hm] at h h1 h2 hsort ⊢
  simp only at h
  cases hi : instantiateAllAppenders m with
  | error f => rw [hi] at h; exact absurd h (by simp)
  | ok apps =>
    rw [hi] at h
    simp only at h
    have hcat : ∀ cn, cn ∈ (range m "category".toList).map (fun e => e.1.drop ("category".toList.length + 1)) ↔ (find m ("category.".toList ++ cn)).isSome := by
      intro cn
      have e1 : "category".toList ++ ['.'] = "category.".toList := by decide
      rw [List.mem_map]
      constructor
      · rintro ⟨e, he, rfl⟩
        obtain ⟨g1, t, ht⟩ := (mem_range m _ e).mp he
        obtain ⟨v, hv⟩ := find_of_mem g1
        rw [e1] at ht
        rw [← ht] at hv ⊢
        have : ("category.".toList ++ t).drop ("category".toList.length + 1) = t := rfl
        rw [this, hv]
        rfl
      · intro hs
        obtain ⟨v, hv⟩ := Option.isSome_iff_exists.mp hs
        obtain ⟨e, he, hek⟩ := mem_of_find hv
        refine ⟨e, (mem_range m _ e).mpr ⟨he, cn, ?_⟩, ?_⟩
        · rw [e1, hek]
        · rw [hek]
          rfl
    have hne : ∀ cn ∈ (range m "category".toList).map (fun e => e.1.drop ("category".toList.length + 1)),
        cn ≠ "rootCategory".toList ∧ cn ≠ [] := by
      intro cn hcn
      have hs := (hcat cn).mp hcn
      constructor
      · rintro rfl
        have e2 : "category.".toList ++ "rootCategory".toList = "category.rootCategory".toList := by decide
        rw [e2, h2] at hs
        exact absurd hs (by simp)
      · rintro rfl
        rw [List.append_nil, h1] at hs
        exact absurd hs (by simp)
    have htgt : ∀ cn ∈ (range m "category".toList).map (fun e => e.1.drop ("category".toList.length + 1)), target cn = cn := fun cn hcn => by
      rw [target, if_neg (hne cn hcn).1]
    have hmap : ((range m "category".toList).map (fun e => e.1.drop ("category".toList.length + 1))).map target =
        (range m "category".toList).map (fun e => e.1.drop ("category".toList.length + 1)) := by
      conv_rhs => rw [← List.map_id ((range m "category".toList).map _)]
      exact List.map_congr_left htgt
    have hnd : ((getCategories m).map target).Nodup := by
      unfold getCategories
      rw [List.map_cons, hmap, List.nodup_cons]
      constructor
      · intro hin
        have : target "rootCategory".toList = [] := by decide
        rw [this] at hin
        exact (hne _ hin).2 rfl
      · have hr : (range m "category".toList).Pairwise fun a b => a.1 < b.1 := List.Pairwise.sublist List.filter_sublist hsort
        rw [List.Nodup, List.pairwise_map]
        refine List.Pairwise.imp_of_mem ?_ hr
        intro a b ha hb hab heq
        obtain ⟨-, ta, hta⟩ := (mem_range m _ a).mp ha
        obtain ⟨-, tb, htb⟩ := (mem_range m _ b).mp hb
        rw [← hta, ← htb] at heq hab
        have : ta = tb := heq
        rw [this] at hab
        exact absurd hab (lt_irrefl _)
    obtain ⟨a1, a2⟩ := all_ok h hnd before
    have hroot := a2 "rootCategory".toList (by unfold getCategories; exact List.mem_cons_self)
    refine ⟨?_, fun hnone => a1 name ?_, fun v w ws hv hw => ?_⟩
    · obtain ⟨v, -, -, -, g1, -⟩ := hroot
      have : targetKey "rootCategory".toList = "rootCategory".toList := by decide
      rw [this] at g1
      rw [g1]
      rfl
    · intro hin
      unfold getCategories at hin
      rw [List.map_cons, hmap, List.mem_cons] at hin
      rcases hin with hin | hin
      · have ht : target "rootCategory".toList = [] := by decide
        rw [ht] at hin
        subst hin
        obtain ⟨v, -, -, -, g1, -⟩ := hroot
        have : targetKey "rootCategory".toList = categoryKey [] := by decide
        rw [this, hnone] at g1
        exact absurd g1 (by simp)
      · have := (hcat name).mp hin
        rw [categoryKey, if_neg (hne name hin).2] at hnone
        rw [hnone] at this
        exact absurd this (by simp)
    · -- the category as it is in the list
      obtain ⟨cn, hcn, ht, hk, hadd⟩ : ∃ cn ∈ getCategories m, target cn = name ∧ targetKey cn = categoryKey name ∧
          "additivity.".toList ++ cn = additivityKey name := by
        by_cases hn : name = []
        · subst hn
          exact ⟨"rootCategory".toList, by unfold getCategories; exact List.mem_cons_self, by decide, by decide, by decide⟩
        · rw [categoryKey, if_neg hn] at hv
          have hin := (hcat name).mpr (by rw [hv]; rfl)
          refine ⟨name, ?_, htgt name hin, ?_, ?_⟩
          · unfold getCategories
            exact List.mem_cons_of_mem _ hin
          · unfold targetKey categoryKey
            simp only [if_neg (hne name hin).1, if_neg hn]
          · unfold additivityKey
            simp only [if_neg hn]
      obtain ⟨v', first, rest, p, g1, g2, g3, g4, g5, g6, g7, g8⟩ := a2 cn hcn
      rw [ht] at g4 g6 g7 g8
      rw [hk, hv] at g1
      injection g1 with g1
      subst g1
      have hws := words_split hw
      rw [g2, List.map_cons] at hws
      injection hws with hw1 hw2
      refine ⟨fun z hz => ?_, ?_, fun a => ?_, fun x hx => ?_⟩
      · have hpz := C97_priority w z hz
        rw [← hw1, g3] at hpz
        rw [g6, Option.some.inj hpz]
      · rw [g7, hadd, getBool]
        cases hb : find m (additivityKey name) with
        | none => simp
        | some b => simp
      · rw [g8, List.mem_toFinset, List.mem_map, ← hw2]
        constructor
        · rintro ⟨t, ht, rfl⟩
          exact ⟨trim t, List.mem_map.mpr ⟨t, ht, rfl⟩, rfl⟩
        · rintro ⟨x, hx, rfl⟩
          obtain ⟨t, ht, rfl⟩ := List.mem_map.mp hx
          exact ⟨t, ht, rfl⟩
      · rw [← hw2] at hx
        obtain ⟨t, ht, rfl⟩ := List.mem_map.mp hx
        exact all_defined hi (g5 t ht)

/-! ## One appender -/

lemma lastPart_of {v type : Text} (h : HasType v type) : lastPart v = type := by
  obtain ⟨hd, h⟩ := h
  unfold lastPart
  rcases h with rfl | ⟨package, rfl⟩
  · rw [takeWhile_all (by simpa using hd), List.reverse_reverse]
  · rw [List.reverse_append, List.reverse_cons, List.append_assoc]
    have := (takeWhile_stop (d := '.') (a := type.reverse) (b := ['.'] ++ package.reverse) (by simpa using hd) (by simp)).1
    rw [this, List.reverse_reverse]

lemma atoi_toDigits {n : ℕ} (h : n < 2 ^ 31) : atoi (Nat.toDigits 10 n) = some (n : ℤ) := by
  have hne : Nat.toDigits 10 n ≠ [] := Nat.toDigits_ne_nil
  obtain ⟨c, cs, hcs⟩ := List.exists_cons_of_ne_nil hne
  have hd : ∀ x ∈ Nat.toDigits 10 n, x.isDigit = true := fun x hx => digits_isDigit hx
  have hc : c.isDigit = true := hd c (hcs ▸ List.mem_cons_self)
  have hw : isWhite c = false := by
    rw [Bool.eq_false_iff, Ne, isWhite_iff]
    rintro (rfl | rfl | rfl | rfl) <;> exact absurd hc (by decide)
  have hm : c ≠ '-' := by rintro rfl; exact absurd hc (by decide)
  have hp : c ≠ '+' := by rintro rfl; exact absurd hc (by decide)
  have hwhite : (Nat.toDigits 10 n).dropWhile isWhite = Nat.toDigits 10 n := by
    rw [hcs, List.dropWhile_cons, if_neg (by rw [hw]; simp)]
  have hmatch : sign (Nat.toDigits 10 n) = (false, Nat.toDigits 10 n) := by
    rw [hcs, sign, if_neg hm, if_neg hp]
  have htake : (Nat.toDigits 10 n).takeWhile Char.isDigit = Nat.toDigits 10 n := List.takeWhile_eq_self_iff.mpr hd
  unfold atoi
  simp only [hwhite, hmatch, htake, value_toDigits, Bool.false_eq_true, if_false]
  rw [if_pos]
  norm_num at h ⊢
  omega

/-- A number as a property, with a default. -/
def Numeral (v : Option Text) (default z : ℤ) : Prop := (v = none ∧ z = default) ∨ ∃ n : ℕ, n < 2 ^ 31 ∧ v = some (Nat.toDigits 10 n) ∧ z = n

lemma getInt_of {m : Props} {k : Text} {d z : ℤ} (h : Numeral (find m k) d z) : getInt m k d = some z := by
  unfold getInt
  rcases h with ⟨h1, rfl⟩ | ⟨n, hn, h1, rfl⟩
  · rw [h1]
  · rw [h1]
    exact atoi_toDigits hn

lemma getBool_of {m : Props} {k : Text} {b : Bool} (h : b = true ↔ find m k = none ∨ find m k = some "true".toList) : getBool m k true = b := by
  unfold getBool
  cases hf : find m k with
  | none => simp only [hf, true_or, iff_true] at h; exact h.symm
  | some v =>
    rw [hf] at h
    simp only [reduceCtorEq, Option.some.injEq, false_or] at h
    by_cases hv : v = "true".toList
    · rw [h.mpr hv]; simpa using hv
    · have : b = false := by rw [Bool.eq_false_iff]; exact fun hb => hv (h.mp hb)
      rw [this]; simpa using hv

lemma threshold_of {m : Props} {pre : Text} {z : ℤ}
    (h : (find m (pre ++ ".threshold".toList) = none ∧ z = 800) ∨ ∃ w, find m (pre ++ ".threshold".toList) = some w ∧ PriorityWord w z) :
    thresholdOf m pre = .ok z := by
  unfold thresholdOf getString
  rcases h with ⟨h1, rfl⟩ | ⟨w, h1, hw⟩
  · rw [h1]; rfl
  · rw [h1]
    have := C97_priority w z hw
    simp only [Option.getD_some]
    split
    · rename_i hw0
      rw [if_pos hw0] at this
      rw [← Option.some.inj this]
    · rename_i hw0
      rw [if_neg hw0] at this
      rw [this]

lemma layout_of {m : Props} {pre l : Text} {f : Format} (hl : find m (pre ++ ".layout".toList) = some l)
    (hf : (HasType l "BasicLayout".toList ∧ f = .basic) ∨ (HasType l "SimpleLayout".toList ∧ f = .simple) ∨
      (HasType l "PatternLayout".toList ∧ f = .pattern (find m (pre ++ ".layout.ConversionPattern".toList)) ∧
        ∀ q, find m (pre ++ ".layout.ConversionPattern".toList) = some q → ∃ cs, LogLayout.components q = .ok cs)) :
    layoutOf m pre = .ok f := by
  unfold layoutOf
  rw [hl]
  simp only
  rcases hf with ⟨h, rfl⟩ | ⟨h, rfl⟩ | ⟨h, rfl, hq⟩
  · rw [lastPart_of h, if_pos rfl]
  · rw [lastPart_of h, if_neg (by decide), if_pos rfl]
  · rw [lastPart_of h, if_neg (by decide), if_neg (by decide), if_pos rfl]
    cases hp : find m (pre ++ ".layout.ConversionPattern".toList) with
    | none => rfl
    | some q =>
      obtain ⟨cs, hcs⟩ := hq q hp
      simp only [hcs]

lemma instantiate_of {m : Props} {n v : Text} {k : Kind} {f : Format} {z : ℤ} (hv : find m ("appender.".toList ++ n) = some v)
    (hk : kindOf m ("appender.".toList ++ n) (lastPart v) = .ok k) (hk' : k ≠ .abort) (hf : layoutOf m ("appender.".toList ++ n) = .ok f)
    (hz : thresholdOf m ("appender.".toList ++ n) = .ok z) : instantiateAppender m n = .ok ⟨k, some f, z⟩ := by
  unfold instantiateAppender
  simp only [hv, hk, hf, hz, if_neg hk', bind, Except.bind, Except.map]

/-- An appender is made as its properties say: its kind by the last part of the class name, its layout, its threshold, and its file name, size and
number of backups, with the documented defaults. -/
theorem C97_appender (m : Props) (n v l : Text) (f : Format) (z size index : ℤ) (append : Bool) :
    let property := fun key : String => find m ("appender.".toList ++ n ++ key.toList)
    property "" = some v → property ".layout" = some l →
    ((HasType l "BasicLayout".toList ∧ f = .basic) ∨ (HasType l "SimpleLayout".toList ∧ f = .simple) ∨
      (HasType l "PatternLayout".toList ∧ f = .pattern (property ".layout.ConversionPattern") ∧
        ∀ q, property ".layout.ConversionPattern" = some q → ∃ cs, LogLayout.components q = .ok cs)) →
    ((property ".threshold" = none ∧ z = 800) ∨ ∃ w, property ".threshold" = some w ∧ PriorityWord w z) →
    (append = true ↔ property ".append" = none ∨ property ".append" = some "true".toList) →
    Numeral (property ".maxFileSize") 10485760 size → Numeral (property ".maxBackupIndex") 1 index →
    (HasType v "ConsoleAppender".toList → instantiateAppender m n = .ok ⟨.console, some f, z⟩) ∧
    (HasType v "FileAppender".toList →
      instantiateAppender m n = .ok ⟨.file ((property ".fileName").getD "foobar".toList) append, some f, z⟩) ∧
    (HasType v "RollingFileAppender".toList →
      instantiateAppender m n = .ok ⟨.rolling ((property ".fileName").getD "foobar".toList) size index append, some f, z⟩) := by
  intro property hv hl hf hz ha hs hi
  have hv' : find m ("appender.".toList ++ n) = some v := by
    have : property "" = find m ("appender.".toList ++ n ++ []) := rfl
    rw [this, List.append_nil] at hv
    exact hv
  have hlay := layout_of hl hf
  have hthr := threshold_of hz
  have happ := getBool_of ha
  refine ⟨fun h => ?_, fun h => ?_, fun h => ?_⟩
  · refine instantiate_of hv' ?_ (by simp) hlay hthr
    rw [lastPart_of h]
    rfl
  · refine instantiate_of hv' ?_ (by simp) hlay hthr
    rw [lastPart_of h, kindOf, if_neg (by decide), if_pos rfl, happ]
    rfl
  · refine instantiate_of hv' ?_ (by simp) hlay hthr
    rw [lastPart_of h, kindOf, if_neg (by decide), if_neg (by decide), if_pos rfl, happ]
    have h1 := getInt_of hs
    have h2 := getInt_of hi
    have e : (10 * 1024 * 1024 : ℤ) = 10485760 := by norm_num
    rw [e]
    simp only [h1, h2, defined, bind, Except.bind]
    rfl

/-- An appender of a type that does not exist, and one without a layout, are refused with an exception. -/
theorem C97_appender_refused (m : Props) (n v type : Text) (hv : find m ("appender.".toList ++ n) = some v) (ht : HasType v type) :
    (type ∉ ["ConsoleAppender".toList, "FileAppender".toList, "RollingFileAppender".toList, "SyslogAppender".toList, "LocalSyslogAppender".toList,
      "AbortAppender".toList] → instantiateAppender m n = .error .throws) ∧
    (type ∈ ["ConsoleAppender".toList, "FileAppender".toList] → find m ("appender.".toList ++ n ++ ".layout".toList) = none →
      instantiateAppender m n = .error .throws) := by
  constructor
  · intro h
    simp only [List.mem_cons, List.not_mem_nil, or_false, not_or] at h
    obtain ⟨h1, h2, h3, h4, h5, h6⟩ := h
    unfold instantiateAppender
    simp only [hv, lastPart_of ht, kindOf, if_neg h1, if_neg h2, if_neg h3, if_neg h4, if_neg h5, if_neg h6, bind, Except.bind]
  · intro h hl
    unfold instantiateAppender layoutOf
    simp only [List.mem_cons, List.not_mem_nil, or_false] at h
    rcases h with rfl | rfl
    · simp only [hv, lastPart_of ht, kindOf, if_true, hl, bind, Except.bind, reduceCtorEq, if_false, Except.map]
    · have hne : ¬ ("FileAppender".toList = "ConsoleAppender".toList) := by decide
      simp only [hv, lastPart_of ht, kindOf, if_true, if_neg hne, hl, bind, Except.bind, reduceCtorEq, if_false, Except.map]

/-! ## Initialisation -/

lemma configure_no_root {env : Text → Option Text} {addr : Text → ℕ} {s : Text} {apps : List (Text × App)}
    (h : instantiateAllAppenders (load env s) = .ok apps) (hr : find (load env s) "rootCategory".toList = none) :
    doConfigure env addr s = ([], some .throws) := by
  unfold doConfigure
  simp only [h, getCategories, configureAll]
  have : configureCategory (load env s) addr apps "rootCategory".toList = ([], some .throws) := by
    unfold configureCategory
    simp only [decide_true, if_true, hr]
  rw [this]

open Classical in
/-- Without a file, with a file whose appenders are refused, and with a file that does not configure the root, the default configuration is in force: messages
up to `INFO`, for events up to `NOTICE`, are written to the standard error stream exactly once. -/
theorem C97_fallback (env : Text → Option Text) (addr : Text → ℕ) (app : ℕ) (file : Option Text)
    (h : file = none ∨ ∃ s, file = some s ∧ (instantiateAllAppenders (load env s) = .error .throws ∨
      ((∃ apps, instantiateAllAppenders (load env s) = .ok apps) ∧ find (load env s) "rootCategory".toList = none)))
    (name : Text) (priority : ℤ) :
    ∃ ops, initLoggingFile env addr app file = .ok ops ∧
      (logTo (ops.foldl run Heap.empty) name priority).count app = if priority ≤ (if IsEvents name then 500 else 600) then 1 else 0 := by
  have hd := C90_default [] [] app name priority
  simp only [List.map_nil, List.nil_append, List.append_nil] at hd
  refine ⟨initLogging app, ?_, hd⟩
  unfold initLoggingFile
  rcases h with rfl | ⟨s, rfl, h | ⟨⟨apps, h⟩, hr⟩⟩
  · rfl
  · have : doConfigure env addr s = ([], some .throws) := by
      unfold doConfigure
      simp only [h]
    simp only [this, List.nil_append]
  · simp only [configure_no_root h hr, List.nil_append]

/-- The claim that a file which cannot be used leads to the default configuration fails: a file that gives the root no priority, although the word
`NOTSET` or nothing is accepted for every other category, ends the program. -/
theorem C97_root_priority_refuted (env : Text → Option Text) (addr : Text → ℕ) (app : ℕ) (s v w : Text) (ws : List Text) (z : ℤ) (apps : List (Text × App))
    (ha : instantiateAllAppenders (load env s) = .ok apps) (hv : find (load env s) "rootCategory".toList = some v) (hw : Words v (w :: ws))
    (hz : PriorityWord w z) (h800 : 800 ≤ z) : initLoggingFile env addr app (some s) = .error .terminates := by
  have hws := words_split hw
  have hp := C97_priority w z hz
  have : configureCategory (load env s) addr apps "rootCategory".toList = ([.get []], some .terminates) := by
    unfold configureCategory
    simp only [decide_true, if_true, hv]
    cases hsp : split ',' v with
    | nil => exact absurd hsp (split_ne_nil _ _)
    | cons first rest =>
      rw [hsp, List.map_cons] at hws
      injection hws with h1 h2
      simp only [h1, hp]
      rw [if_pos ⟨trivial, by change ¬ z < 800; omega⟩]
  unfold initLoggingFile doConfigure
  simp only [ha, getCategories, configureAll, this]

deriving instance DecidableEq for Op

/-- A file with an error in the third category. -/
def broken : Text := "rootCategory=INFO\ncategory.U=ERROR\nadditivity.U=false\ncategory.V=INFO,B\n".toList

/-- What has been set when the error is found stays set: here the messages of a category are lost, although the file is refused and the default
configuration should be in force. -/
theorem C97_half_configured_refuted (app : ℕ) (priority : ℤ) : ∃ ops,
    initLoggingFile (fun _ => none) (fun _ => 0) app (some broken) = .ok ops ∧
    (logTo (ops.foldl run Heap.empty) "U".toList priority).count app = 0 := by
  have hc : doConfigure (fun _ => none) (fun _ => 0) broken = ([.get [], .setPriority [] 600, .setAdditivity [] true, .removeAllAppenders [],
      .get "U".toList, .setPriority "U".toList 300, .setAdditivity "U".toList false, .removeAllAppenders "U".toList,
      .get "V".toList, .setPriority "V".toList 600, .setAdditivity "V".toList true, .removeAllAppenders "V".toList], some .throws) := by
    decide +kernel
  refine ⟨_, by unfold initLoggingFile; simp only [hc]; rfl, ?_⟩
  set ops := _ ++ initLogging app with hops
  have ho : OrdinaryPriorities ops := by
    refine OrdinaryPriorities.append ?_ (init_ordinary app)
    intro n v hv
    simp only [List.mem_cons, Op.setPriority.injEq, List.not_mem_nil, or_false, reduceCtorEq, false_or] at hv
    omega
  obtain ⟨⟨v, hv, -⟩, -⟩ := C90_one_answer ops ho "U".toList
  obtain ⟨e1, e2, e3⟩ := config_after_init (configAfter [.get [], .setPriority [] 600, .setAdditivity [] true, .removeAllAppenders [],
      .get "U".toList, .setPriority "U".toList 300, .setAdditivity "U".toList false, .removeAllAppenders "U".toList,
      .get "V".toList, .setPriority "V".toList 600, .setAdditivity "V".toList true, .removeAllAppenders "V".toList]) app
  have hcfg : configAfter ops = (initLogging app).foldl LogConfig.after (configAfter [.get [], .setPriority [] 600, .setAdditivity [] true,
      .removeAllAppenders [], .get "U".toList, .setPriority "U".toList 300, .setAdditivity "U".toList false, .removeAllAppenders "U".toList,
      .get "V".toList, .setPriority "V".toList 600, .setAdditivity "V".toList true, .removeAllAppenders "V".toList]) := by
    rw [hops, configAfter, List.foldl_append]
    rfl
  rw [C90_delivery ops ho "U".toList v ["U".toList] hv (.stop _ (by rw [hcfg, e2]; decide))]
  split
  · rw [hcfg, e3]
    simp [configAfter, LogConfig.after, LogConfig.init]
  · rfl

/-- Two appenders, named `A` and `A-B`. -/
def twoNames : Text := ("appender.A=ConsoleAppender\nappender.A.layout=SimpleLayout\nappender.A-B=ConsoleAppender\n" ++
  "appender.A-B.layout=SimpleLayout\nrootCategory=INFO,A\n").toList

/-- The claim that appenders may have any names fails: both appenders of this file can be made, but the file is refused. -/
theorem C97_names_refuted :
    instantiateAppender (load (fun _ => none) twoNames) "A".toList = .ok ⟨.console, some .simple, 800⟩ ∧
    instantiateAppender (load (fun _ => none) twoNames) "A-B".toList = .ok ⟨.console, some .simple, 800⟩ ∧
    instantiateAllAppenders (load (fun _ => none) twoNames) = .error .throws := by
  have hl : load (fun _ => none) twoNames = [("appender.A".toList, "ConsoleAppender".toList), ("appender.A-B".toList, "ConsoleAppender".toList),
      ("appender.A-B.layout".toList, "SimpleLayout".toList), ("appender.A.layout".toList, "SimpleLayout".toList),
      ("rootCategory".toList, "INFO,A".toList)] := by decide +kernel
  rw [hl]
  refine ⟨?_, ?_, ?_⟩ <;> rfl

/-! ## An ordinary file -/

/-- The lines of a file with a comment, a variable, a pattern and two categories. -/
def sample : List Text := ["# logging".toList, "log4cpp.rootCategory = INFO, A  # the root".toList,
  "log4cpp.appender.A=org.apache.log4j.FileAppender".toList, "log4cpp.appender.A.fileName=${HOME}/log".toList,
  "log4cpp.appender.A.layout=org.apache.log4j.PatternLayout".toList, "log4cpp.appender.A.layout.ConversionPattern=%p %m%n".toList,
  "log4cpp.category.U.E=NOTICE".toList]

/-- The environment. -/
def home : Text → Option Text := fun n => if n = "HOME".toList then some "/root".toList else none

/-- All lines of the file can be read. -/
example : ∀ l ∈ sample, Readable l := by
  have : ∀ l ∈ sample, '\n' ∉ l ∧ '\x00' ∉ l ∧ l.length ≤ 255 := by decide +kernel
  exact this

/-- A line with a comment, and one with a variable. -/
example : Assigns "log4cpp.rootCategory = INFO, A  # the root".toList "log4cpp.rootCategory".toList "INFO, A".toList ∧ Silent "# logging".toList ∧
    Stripped "log4cpp.rootCategory".toList "rootCategory".toList ∧
    Expands (valueOf home fun _ => none) "${HOME}/log".toList "/root/log".toList := by
  refine ⟨(C97_line _ _ _).mp (by decide +kernel), (C97_silent _).mp (by decide +kernel), Or.inr (Or.inl (by decide)), ?_⟩
  have h : find [] = fun _ => none := rfl
  rw [← h, ← C97_variables]
  decide +kernel

lemma sample_load : load home (text sample) = [("appender.A".toList, "org.apache.log4j.FileAppender".toList),
    ("appender.A.fileName".toList, "/root/log".toList), ("appender.A.layout".toList, "org.apache.log4j.PatternLayout".toList),
    ("appender.A.layout.ConversionPattern".toList, "%p %m%n".toList), ("category.U.E".toList, "NOTICE".toList),
    ("rootCategory".toList, "INFO, A".toList)] := by decide +kernel

lemma sample_appender : instantiateAppender (load home (text sample)) "A".toList =
    .ok ⟨.file "/root/log".toList true, some (.pattern (some "%p %m%n".toList)), 800⟩ := by
  rw [sample_load]
  rfl

/-- The hypotheses of `C97_appenders` are met. -/
example : ∀ k n, (find (load home (text sample)) k).isSome → Belongs k n →
    n ≠ [] ∧ (∀ c ∈ n, '.' < c) ∧ ∃ a, instantiateAppender (load home (text sample)) n = .ok a := by
  intro k n hk hb
  have hA : ∀ k, Belongs k "A".toList → Belongs k n → n = "A".toList := fun k h1 h2 => belongs_unique h2 h1
  suffices h : n = "A".toList by
    subst h
    exact ⟨by decide, by decide, _, sample_appender⟩
  obtain ⟨v, hv⟩ := Option.isSome_iff_exists.mp hk
  obtain ⟨e, he, rfl⟩ := mem_of_find hv
  have hpre : "appender.".toList <+: e.1 := by
    obtain ⟨r, hr, -⟩ := belongs_rest hb
    exact ⟨_, hr.symm⟩
  rw [sample_load] at he
  simp only [List.mem_cons, List.not_mem_nil, or_false] at he
  rcases he with rfl | rfl | rfl | rfl | rfl | rfl
  · exact hA _ ⟨by decide, Or.inl (by decide)⟩ hb
  · exact hA _ ⟨by decide, Or.inr ⟨"fileName".toList, by decide⟩⟩ hb
  · exact hA _ ⟨by decide, Or.inr ⟨"layout".toList, by decide⟩⟩ hb
  · exact hA _ ⟨by decide, Or.inr ⟨"layout.ConversionPattern".toList, by decide⟩⟩ hb
  · exact absurd hpre (by decide)
  · exact absurd hpre (by decide)

/-- The hypotheses of `C97_configure` are met, with words and priorities. -/
example : (doConfigure home (fun n => n.length) (text sample)).2 = none ∧ find (load home (text sample)) "category.".toList = none ∧
    find (load home (text sample)) "category.rootCategory".toList = none ∧ find (load home (text sample)) (categoryKey []) = some "INFO, A".toList ∧
    Words "INFO, A".toList ["INFO".toList, "A".toList] ∧ PriorityWord "INFO".toList 600 := by
  refine ⟨by decide +kernel, by rw [sample_load]; decide, by rw [sample_load]; decide, by rw [sample_load]; decide, ?_, .name "INFO" 600 (by simp)⟩
  refine .more "INFO".toList "INFO".toList " A".toList ["A".toList] (by decide) ⟨[], [], by decide, by simp, by simp⟩ ?_
    (.last "A".toList " A".toList (by decide) ⟨[' '], [], by decide, by simp [White], by simp⟩ ?_)
  · exact (trim_spec "INFO".toList).2
  · exact (trim_spec "A".toList).2

/-- The hypotheses of `C97_appender` are met by the appender of this file, and those of `C97_appender_refused` by a misspelt class. -/
example : HasType "org.apache.log4j.FileAppender".toList "FileAppender".toList ∧ HasType "org.apache.log4j.PatternLayout".toList "PatternLayout".toList ∧
    (∃ cs, LogLayout.components "%p %m%n".toList = .ok cs) ∧ HasType "FileApender".toList "FileApender".toList ∧ Numeral none 1 1 :=
  ⟨⟨by decide, Or.inr ⟨"org.apache.log4j".toList, by decide⟩⟩, ⟨by decide, Or.inr ⟨"org.apache.log4j".toList, by decide⟩⟩, ⟨_, rfl⟩,
    ⟨by decide, Or.inl rfl⟩, Or.inl ⟨rfl, rfl⟩⟩

/-- A file after which the program ends: the root with an appender and without a priority. -/
example : (∃ apps, instantiateAllAppenders (load home (text ["rootCategory=,A".toList, "appender.A=AbortAppender".toList])) = .ok apps) ∧
    find (load home (text ["rootCategory=,A".toList, "appender.A=AbortAppender".toList])) "rootCategory".toList = some ",A".toList ∧
    Words ",A".toList [[], "A".toList] := by
  have h : load home (text ["rootCategory=,A".toList, "appender.A=AbortAppender".toList]) =
      [("appender.A".toList, "AbortAppender".toList), ("rootCategory".toList, ",A".toList)] := by decide +kernel
  rw [h]
  refine ⟨⟨_, rfl⟩, by decide, ?_⟩
  refine .more [] [] "A".toList ["A".toList] (by simp) ⟨[], [], by simp, by simp, by simp⟩ (by simp [Trimmed])
    (.last "A".toList "A".toList (by decide) ⟨[], [], by decide, by simp, by simp⟩ ?_)
  exact (trim_spec "A".toList).2

/-- A long comment, after which the rest of the file is ignored. -/
example : '\n' ∉ List.replicate 256 '#' ∧ 255 < (List.replicate 256 '#').length := by
  rw [List.length_replicate]
  exact ⟨fun h => absurd (List.eq_of_mem_replicate h) (by decide), by norm_num⟩

/-- Words that are refused as priorities. -/
example : ∀ v, ¬ PriorityWord "WARNING".toList v := by
  intro v h
  have h1 := C97_priority _ v h
  rw [if_neg (by decide)] at h1
  have h2 : getPriorityValue "WARNING".toList = none := by decide
  rw [h2] at h1
  exact absurd h1 (by simp)

end Ubitrack.LogConfig
