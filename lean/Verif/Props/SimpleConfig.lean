import Verif.Spec.SimpleConfig
import Verif.Props.LogConfig

/-!
# C104: simple configuration files of the logging framework
-/

namespace Ubitrack.SimpleConfigProps

open SimpleConfig
open LogLayout (Text)
open LogConfig (Failure Format sign getPriorityValue)
open Spec.SimpleFile

/-! ## Words -/

lemma isSpace_iff (c : Char) : isSpace c = true ↔ Blank c := by simp [isSpace, Blank, or_assoc]

lemma not_isSpace_iff (c : Char) : isSpace c = false ↔ ¬ Blank c := by rw [← isSpace_iff, Bool.not_eq_true]

lemma drop_gap {g s : Text} (h : Gap g) : (g ++ s).dropWhile isSpace = s.dropWhile isSpace := by
  induction g with
  | nil => rfl
  | cons c g ih =>
    rw [List.cons_append, List.dropWhile_cons, if_pos ((isSpace_iff c).mpr (h c (by simp))), ih fun d hd => h d (by simp [hd])]

lemma drop_word {w s : Text} (h : Word w) : (w ++ s).dropWhile isSpace = w ++ s := by
  obtain ⟨hne, hw⟩ := h
  cases w with
  | nil => exact absurd rfl hne
  | cons c w => rw [List.cons_append, List.dropWhile_cons, if_neg (by rw [isSpace_iff]; exact hw c (by simp))]

lemma drop_gap_word {g w s : Text} (hg : Gap g) (hw : Word w) : (g ++ w ++ s).dropWhile isSpace = w ++ s := by
  rw [List.append_assoc, drop_gap hg, drop_word hw]

lemma span_word {w s : Text} (hw : ∀ c ∈ w, ¬ Blank c) (hs : Ends s) :
    (w ++ s).takeWhile (fun c => !isSpace c) = w ∧ (w ++ s).dropWhile (fun c => !isSpace c) = s := by
  induction w with
  | nil =>
    cases s with
    | nil => exact ⟨rfl, rfl⟩
    | cons c s =>
      have : isSpace c = true := (isSpace_iff c).mpr (hs c (by simp))
      simp [this]
  | cons c w ih =>
    have hc : isSpace c = false := (not_isSpace_iff c).mpr (hw c (by simp))
    have := ih fun d hd => hw d (by simp [hd])
    simp [hc, this.1, this.2]

lemma word_eq {g w s : Text} (hg : Gap g) (hw : Word w) (hs : Ends s) : word (g ++ w ++ s) = some (w, s) := by
  unfold word
  simp only [drop_gap_word hg hw, (span_word hw.2 hs).1, (span_word hw.2 hs).2]
  rw [if_neg]
  intro h
  exact hw.1 (List.append_eq_nil_iff.mp h).1

lemma word_gap {g : Text} (hg : Gap g) : word g = none := by
  have := drop_gap (s := []) hg
  rw [List.append_nil] at this
  simp [word, this]

/-! ## Numbers -/

lemma digit_not_blank {c : Char} (h : c.isDigit = true) : ¬ Blank c := by
  rintro (rfl | rfl | rfl | rfl | rfl | rfl) <;> exact absurd h (by decide)

lemma blank_not_digit {c : Char} (h : Blank c) : c.isDigit = false := by
  rw [← Bool.not_eq_true]
  exact fun hd => digit_not_blank hd h

lemma digits_ne_nil (n : ℕ) : Nat.toDigits 10 n ≠ [] := by
  intro h
  have := Nat.length_toDigits_pos (b := 10) (n := n)
  rw [h] at this
  simp at this

lemma span_digits {ds s : Text} (hd : ∀ c ∈ ds, c.isDigit = true) (hs : Ends s) :
    (ds ++ s).takeWhile Char.isDigit = ds ∧ (ds ++ s).dropWhile Char.isDigit = s := by
  induction ds with
  | nil =>
    cases s with
    | nil => exact ⟨rfl, rfl⟩
    | cons c s => simp [blank_not_digit (hs c (by simp))]
  | cons c ds ih =>
    have hc : c.isDigit = true := hd c (by simp)
    have := ih fun d hd' => hd d (by simp [hd'])
    simp [hc, this.1, this.2]

lemma sign_digits {ds s : Text} (hne : ds ≠ []) (hd : ∀ c ∈ ds, c.isDigit = true) : sign (ds ++ s) = (false, ds ++ s) := by
  cases ds with
  | nil => exact absurd rfl hne
  | cons c ds =>
    have hc : c.isDigit = true := hd c (by simp)
    have h1 : c ≠ '-' := by rintro rfl; exact absurd hc (by decide)
    have h2 : c ≠ '+' := by rintro rfl; exact absurd hc (by decide)
    simp [sign, h1, h2]

lemma unsigned_eq {g s : Text} {n bits : ℕ} (hg : Gap g) (hw : Word (Nat.toDigits 10 n)) (hs : Ends s) (hn : n < 2 ^ bits) :
    unsigned bits (g ++ Nat.toDigits 10 n ++ s) = some (n, s) := by
  have hd : ∀ c ∈ Nat.toDigits 10 n, c.isDigit = true := fun c hc => LogConfig.digits_isDigit hc
  unfold unsigned
  simp only [drop_gap_word hg hw, sign_digits (digits_ne_nil n) hd, (span_digits hd hs).1, (span_digits hd hs).2,
    LogConfig.value_toDigits, if_neg (digits_ne_nil n), if_pos hn]
  simp

lemma signed_eq {g w s : Text} {v : ℤ} (hg : Gap g) (hw : Word w) (hs : Ends s) (hn : Number w v) (hv : IsInt v) :
    signed (g ++ w ++ s) = some (v, s) := by
  unfold signed
  rw [drop_gap_word hg hw]
  cases hn with
  | nonneg n =>
    have hd : ∀ c ∈ Nat.toDigits 10 n, c.isDigit = true := fun c hc => LogConfig.digits_isDigit hc
    simp only [sign_digits (digits_ne_nil n) hd, (span_digits hd hs).1, (span_digits hd hs).2, LogConfig.value_toDigits,
      if_neg (digits_ne_nil n), Bool.false_eq_true, if_false]
    exact if_pos hv
  | neg n =>
    have hd : ∀ c ∈ Nat.toDigits 10 n, c.isDigit = true := fun c hc => LogConfig.digits_isDigit hc
    simp only [List.cons_append, sign, if_true, (span_digits hd hs).1, (span_digits hd hs).2, LogConfig.value_toDigits,
      if_neg (digits_ne_nil n)]
    exact if_pos hv

/-- What starts with neither a digit nor a sign is no number. -/
lemma signed_none {g w s : Text} (hg : Gap g) (hw : Word w) (h : ∀ c ∈ w.head?, c.isDigit = false ∧ c ≠ '-' ∧ c ≠ '+') : signed (g ++ w ++ s) = none := by
  unfold signed
  rw [drop_gap_word hg hw]
  cases w with
  | nil => exact absurd rfl hw.1
  | cons c w =>
    obtain ⟨h1, h2, h3⟩ := h c (by simp)
    simp [sign, h1, h2, h3]

lemma signed_gap {g : Text} (hg : Gap g) : signed g = none := by
  have := drop_gap (s := []) hg
  rw [List.append_nil] at this
  simp [signed, this, sign]

/-! ## Commands -/

/-- Reading the first of some words. -/
lemma word_spaced {w s s' : Text} {ws : List Text} (h : Spaced (w :: ws) s) (hs : Ends s') :
    ∃ t, word (s ++ s') = some (w, t ++ s') ∧ Spaced ws t ∧ Ends (t ++ s') := by
  cases h with
  | cons gap _ t _ hg hw he hr =>
    have hend : Ends (t ++ s') := by
      cases t with
      | nil => exact hs
      | cons c t => exact he
    refine ⟨t, ?_, hr, hend⟩
    rw [List.append_assoc (gap ++ w), word_eq hg hw hend]

lemma spaced_word {w s : Text} {ws : List Text} (h : Spaced (w :: ws) s) : Word w := by
  cases h with
  | cons gap _ t _ hg hw he hr => exact hw

lemma unsigned_spaced {s s' : Text} {ws : List Text} {n bits : ℕ} (h : Spaced (Nat.toDigits 10 n :: ws) s) (hs : Ends s') (hn : n < 2 ^ bits) :
    ∃ t, unsigned bits (s ++ s') = some (n, t ++ s') ∧ Spaced ws t ∧ Ends (t ++ s') := by
  cases h with
  | cons gap _ t _ hg hw he hr =>
    have hend : Ends (t ++ s') := by
      cases t with
      | nil => exact hs
      | cons c t => exact he
    refine ⟨t, ?_, hr, hend⟩
    rw [List.append_assoc (gap ++ _), unsigned_eq hg hw hend hn]

lemma signed_spaced {w s s' : Text} {ws : List Text} {v : ℤ} (h : Spaced (w :: ws) s) (hs : Ends s') (hn : Number w v) (hv : IsInt v) :
    ∃ t, signed (s ++ s') = some (v, t ++ s') ∧ Spaced ws t ∧ Ends (t ++ s') := by
  cases h with
  | cons gap _ t _ hg hw he hr =>
    have hend : Ends (t ++ s') := by
      cases t with
      | nil => exact hs
      | cons c t => exact he
    refine ⟨t, ?_, hr, hend⟩
    rw [List.append_assoc (gap ++ w), signed_eq hg hw hend hn hv]

lemma spaced_nil {s : Text} (h : Spaced [] s) : s = [] := by
  cases h
  rfl

lemma categoryOf_nameWord {name : Text} (h : Name name) : categoryOf (nameWord name) = name := by
  unfold categoryOf nameWord
  rcases h with rfl | ⟨hw, hr⟩
  · simp
  · rw [if_neg hw.1, if_neg hr]

lemma getPriorityValue_eq {w : Text} {v : ℤ} (h : Priority w v) : getPriorityValue w = some v := by
  have hp : Spec.LogFile.PriorityWord w v := by
    cases h with
    | name w v hm => exact .name w v hm
    | number n hn => exact .number n hn
  have hne : w ≠ [] := by
    cases h with
    | name w v hm =>
      simp only [List.mem_cons, Prod.mk.injEq, List.not_mem_nil, or_false] at hm
      rcases hm with ⟨rfl, -⟩ | ⟨rfl, -⟩ | ⟨rfl, -⟩ | ⟨rfl, -⟩ | ⟨rfl, -⟩ | ⟨rfl, -⟩ | ⟨rfl, -⟩ | ⟨rfl, -⟩ | ⟨rfl, -⟩ | ⟨rfl, -⟩ | ⟨rfl, -⟩ <;> decide
    | number n hn => exact digits_ne_nil n
  have := LogConfig.C97_priority w v hp
  rwa [if_neg hne] at this

/-- The words of an appender give the appender. -/
lemma appenderOf_eq {t : Target} {ws : List Text} {s s' : Text} (hk : Kind t ws) (hsp : Spaced ws s) (hs : Ends s') :
    ∃ k u, word (s ++ s') = some (k, u) ∧ appenderOf k u = .ok (t, some s') := by
  cases hk with
  | file f =>
    obtain ⟨a, h1, h2, -⟩ := word_spaced hsp hs
    obtain ⟨b, h3, h4, -⟩ := word_spaced h2 hs
    obtain rfl := spaced_nil h4
    refine ⟨_, _, h1, ?_⟩
    simp only [appenderOf, h3]
    rfl
  | rolling f size backups hz hb =>
    obtain ⟨a, h1, h2, -⟩ := word_spaced hsp hs
    obtain ⟨b, h3, h4, -⟩ := word_spaced h2 hs
    obtain ⟨c, h5, h6, -⟩ := unsigned_spaced h4 hs hz
    obtain ⟨d, h7, h8, -⟩ := unsigned_spaced h6 hs hb
    obtain rfl := spaced_nil h8
    refine ⟨_, _, h1, ?_⟩
    simp only [appenderOf, h3, h5, h7]
    rfl
  | console =>
    obtain ⟨a, h1, h2, -⟩ := word_spaced hsp hs
    obtain rfl := spaced_nil h2
    exact ⟨_, _, h1, rfl⟩
  | stdout =>
    obtain ⟨a, h1, h2, -⟩ := word_spaced hsp hs
    obtain rfl := spaced_nil h2
    exact ⟨_, _, h1, rfl⟩
  | stderr =>
    obtain ⟨a, h1, h2, -⟩ := word_spaced hsp hs
    obtain rfl := spaced_nil h2
    exact ⟨_, _, h1, rfl⟩
  | syslog name w v hn hv =>
    have hv' : IsInt v := by
      have := hv.1; have := hv.2
      constructor <;> omega
    obtain ⟨a, h1, h2, -⟩ := word_spaced hsp hs
    obtain ⟨b, h3, h4, -⟩ := word_spaced h2 hs
    obtain ⟨c, h5, h6, -⟩ := signed_spaced h4 hs hn hv'
    obtain rfl := spaced_nil h6
    refine ⟨_, _, h1, ?_⟩
    rw [mul_comm]
    simp only [appenderOf, h3, h5]
    rw [mul_comm] at hv
    rw [if_pos (show -2 ^ 31 ≤ v * 8 ∧ v * 8 < 2 ^ 31 from hv)]
    rfl
  | remote name host w w' v v' hn hn' hv hv' =>
    obtain ⟨a, h1, h2, -⟩ := word_spaced hsp hs
    obtain ⟨b, h3, h4, -⟩ := word_spaced h2 hs
    obtain ⟨c, h5, h6, -⟩ := word_spaced h4 hs
    obtain ⟨d, h7, h8, -⟩ := signed_spaced h6 hs hn hv
    obtain ⟨e, h9, h10, -⟩ := signed_spaced h8 hs hn' hv'
    obtain rfl := spaced_nil h10
    refine ⟨_, _, h1, ?_⟩
    simp only [appenderOf, h3, h5, h7, h9]
    rfl

/-- The words of an appender command. -/
lemma appenderCommand_eq {name layout : Text} {t : Target} {ws : List Text} {s s' : Text} (hk : Kind t ws) (hsp : Spaced (layout :: ws) s) (hs : Ends s')
    {f : Format} {rest : Option Text} (hl : layoutOf layout (some s') = .ok (f, rest)) :
    appenderCommand name (s ++ s') = ([.get name, .addAppender name t f], .ok rest) := by
  obtain ⟨a, h1, h2, -⟩ := word_spaced hsp hs
  obtain ⟨k, u, h3, h4⟩ := appenderOf_eq hk h2 hs
  simp only [appenderCommand, h1, h3, h4, hl]

/-- A command without a pattern. -/
lemma command_eq {ws : List Text} {now : List Act} {s s' : Text} (hc : Command ws now) (hsp : Spaced ws s) (hs : Ends s') :
    ∃ k u, word (s ++ s') = some (k, u) ∧ k.head? ≠ some '#' ∧ command k u = (now, .ok (some s')) := by
  cases hc with
  | category name hn =>
    obtain ⟨a, h1, h2, -⟩ := word_spaced hsp hs
    obtain ⟨b, h3, h4, -⟩ := word_spaced h2 hs
    obtain rfl := spaced_nil h4
    refine ⟨_, _, h1, by decide, ?_⟩
    simp only [command, h3, categoryOf_nameWord hn]
    rfl
  | priority name w v hn hp hr =>
    obtain ⟨a, h1, h2, -⟩ := word_spaced hsp hs
    obtain ⟨b, h3, h4, -⟩ := word_spaced h2 hs
    obtain ⟨c, h5, h6, -⟩ := word_spaced h4 hs
    obtain rfl := spaced_nil h6
    refine ⟨_, _, h1, by decide, ?_⟩
    have hroot : ¬ (name = [] ∧ ¬ v < Logging.NOTSET) := fun h => h.2 (hr h.1)
    simp only [command, h3, categoryOf_nameWord hn, priorityCommand, h5, getPriorityValue_eq hp, if_neg hroot]
    rfl
  | basic name t ws hn hk =>
    obtain ⟨a, h1, h2, -⟩ := word_spaced hsp hs
    obtain ⟨b, h3, h4, -⟩ := word_spaced h2 hs
    refine ⟨_, _, h1, by decide, ?_⟩
    simp only [command, h3, categoryOf_nameWord hn, if_true]
    exact appenderCommand_eq hk h4 hs rfl
  | simple name t ws hn hk =>
    obtain ⟨a, h1, h2, -⟩ := word_spaced hsp hs
    obtain ⟨b, h3, h4, -⟩ := word_spaced h2 hs
    refine ⟨_, _, h1, by decide, ?_⟩
    simp only [command, h3, categoryOf_nameWord hn, if_true]
    exact appenderCommand_eq hk h4 hs rfl

/-- The patterns that the layout accepts. -/
def Valid (p : Text) : Prop := ∃ cs, LogLayout.components p = .ok cs

lemma takeWhile_none {d : Char} {p : Text} (h : d ∉ p) : p.takeWhile (fun c => decide (c ≠ d)) = p := LogConfig.takeWhile_all h

lemma lineEnd_span {d : Text} {s rest : Text} (hd : '\n' ∉ d) (h : LineEnd s rest) :
    (d ++ s).takeWhile (fun c => decide (c ≠ '\n')) = d ∧ ((d ++ s).dropWhile fun c => decide (c ≠ '\n')).drop 1 = rest := by
  induction d with
  | nil =>
    rcases h with ⟨rfl, rfl⟩ | rfl
    · exact ⟨rfl, rfl⟩
    · simp
  | cons c d ih =>
    have hc : c ≠ '\n' := by rintro rfl; exact hd (by simp)
    have := ih fun h' => hd (by simp [h'])
    constructor
    · rw [List.cons_append, List.takeWhile_cons, if_pos (by simpa using hc), this.1]
    · rw [List.cons_append, List.dropWhile_cons, if_pos (by simpa using hc), this.2]

lemma patternOf_eq {gap p s rest : Text} (hg : Gap gap) (hp : Pattern Valid p) (hl : LineEnd s rest) :
    patternOf (some (gap ++ p ++ s)) = (p, some rest) := by
  obtain ⟨⟨c, hc, hb⟩, hn, h0, hlen, -⟩ := hp
  cases p with
  | nil => simp at hc
  | cons d p =>
    obtain rfl : d = c := by simpa using hc
    have hdrop : (gap ++ (d :: p) ++ s).dropWhile isSpace = (d :: p) ++ s := by
      rw [List.append_assoc, drop_gap hg, List.cons_append, List.dropWhile_cons, if_neg (by rw [isSpace_iff]; exact hb)]
    have h1 := lineEnd_span hn hl
    unfold patternOf
    simp only [hdrop, h1.1, h1.2, takeWhile_none h0]
    rw [if_neg (by simp), if_neg (by omega)]

/-- One round that skips a comment. -/
lemma loop_comment {fuel : ℕ} {gap line s s' : Text} (hg : Gap gap) (hn : '\n' ∉ line) (hl : LineEnd s s') :
    loop (fuel + 1) (some (gap ++ '#' :: line ++ s)) = loop fuel (some s') := by
  have hdrop : (gap ++ '#' :: line ++ s).dropWhile isSpace = '#' :: line ++ s := by
    rw [List.append_assoc, drop_gap hg, List.cons_append, List.dropWhile_cons, if_neg (by decide)]
  have hw : word (gap ++ '#' :: line ++ s) =
      some (('#' :: line ++ s).takeWhile (fun c => !isSpace c), ('#' :: line ++ s).dropWhile (fun c => !isSpace c)) := by
    unfold word
    simp only [hdrop]
    rw [if_neg (by simp)]
  have hhead : (('#' :: line ++ s).takeWhile (fun c => !isSpace c)).head? = some '#' := by
    rw [List.cons_append, List.takeWhile_cons, if_pos (by decide)]
    rfl
  have key : ∀ d : Text, '\n' ∉ d → (((d ++ s).dropWhile fun c => !isSpace c).dropWhile fun c => decide (c ≠ '\n')).drop 1 = s' := by
    intro d
    induction d with
    | nil =>
      intro _
      rcases hl with ⟨rfl, rfl⟩ | rfl
      · rfl
      · rfl
    | cons c d ih =>
      intro hd
      have hd' : '\n' ∉ d := fun h => hd (by simp [h])
      by_cases hc : isSpace c = true
      · rw [List.cons_append, List.dropWhile_cons, if_neg (by simp [hc]), ← List.cons_append]
        exact (lineEnd_span hd hl).2
      · rw [List.cons_append, List.dropWhile_cons, if_pos (by simpa using hc)]
        exact ih hd'
  have hline := key ('#' :: line) (by simp [hn])
  simp only [loop, hw, hhead, if_true, hline]

/-- One round with a command. -/
lemma loop_command {fuel : ℕ} {s k u : Text} {now : List Act} {rest : Option Text} (hw : word s = some (k, u)) (hk : k.head? ≠ some '#')
    (hc : command k u = (now, .ok rest)) : loop (fuel + 1) (some s) = (now ++ (loop fuel rest).1, (loop fuel rest).2) := by
  simp only [loop, hw, if_neg hk, hc]

lemma spaced_length {ws : List Text} {s : Text} (hs : Spaced ws s) (hne : ws ≠ []) : 0 < s.length := by
  cases hs with
  | nil => exact absurd rfl hne
  | cons gap w s ws hg hw he hr =>
    have := List.length_pos_iff.mpr hw.1
    simp only [List.length_append]
    omega

lemma command_ne_nil {ws : List Text} {now : List Act} (h : Command ws now) : ws ≠ [] := by cases h <;> simp

/-- The rounds for some commands. -/
lemma loop_commands {s rest : Text} {acts : List Act} (h : Commands Valid s acts rest) : ∀ fuel, s.length < fuel →
    ∃ fuel', rest.length < fuel' + 1 ∧ loop fuel (some s) = (acts ++ (loop (fuel' + 1) (some rest)).1, (loop (fuel' + 1) (some rest)).2) := by
  induction h with
  | nil rest =>
    intro fuel hf
    obtain ⟨k, rfl⟩ : ∃ k, fuel = k + 1 := ⟨fuel - 1, by omega⟩
    exact ⟨k, hf, by simp⟩
  | comment gap line s s' rest acts hg hn hl _ ih =>
    intro fuel hf
    obtain ⟨k, rfl⟩ : ∃ k, fuel = k + 1 := ⟨fuel - 1, by omega⟩
    have hlen : s'.length ≤ s.length := by
      rcases hl with ⟨rfl, rfl⟩ | rfl <;> simp
    simp only [List.length_append, List.length_cons] at hf
    obtain ⟨f, h1, h2⟩ := ih k (by omega)
    exact ⟨f, h1, by rw [loop_comment hg hn hl, h2]⟩
  | command ws s s' rest now acts hc hsp he _ ih =>
    intro fuel hf
    obtain ⟨k, rfl⟩ : ∃ k, fuel = k + 1 := ⟨fuel - 1, by omega⟩
    have := spaced_length hsp (command_ne_nil hc)
    simp only [List.length_append] at hf
    obtain ⟨f, h1, h2⟩ := ih k (by omega)
    obtain ⟨c, u, h3, h4, h5⟩ := command_eq hc hsp he
    exact ⟨f, h1, by rw [loop_command h3 h4 h5, h2, List.append_assoc]⟩
  | pattern name t ws s gap p s' s'' rest acts hn hk hsp hgne hg hp hl _ ih =>
    intro fuel hf
    obtain ⟨k, rfl⟩ : ∃ k, fuel = k + 1 := ⟨fuel - 1, by omega⟩
    have := spaced_length hsp (by simp)
    have hlen : s''.length ≤ s'.length := by
      rcases hl with ⟨rfl, rfl⟩ | rfl <;> simp
    simp only [List.length_append] at hf
    obtain ⟨f, h1, h2⟩ := ih k (by omega)
    have he : Ends (gap ++ p ++ s') := by
      cases gap with
      | nil => exact absurd rfl hgne
      | cons c gap =>
        intro d hd
        obtain rfl : c = d := by simpa using hd
        exact hg c (by simp)
    obtain ⟨a, h3, h4, -⟩ := word_spaced hsp he
    obtain ⟨b, h5, h6, -⟩ := word_spaced h4 he
    have hlay : layoutOf "pattern".toList (some (gap ++ p ++ s')) = .ok (.pattern (some p), some s'') := by
      obtain ⟨cs, hcs⟩ := hp.2.2.2.2
      unfold layoutOf
      rw [if_neg (by decide), if_neg (by decide), if_pos rfl]
      simp only [patternOf_eq hg hp hl, hcs]
    have hcom : command "appender".toList (a ++ (gap ++ p ++ s')) = ([.get name, .addAppender name t (.pattern (some p))], .ok (some s'')) := by
      simp only [command, h5, categoryOf_nameWord hn, if_true]
      exact appenderCommand_eq hk h6 he hlay
    refine ⟨f, h1, ?_⟩
    have hs : s ++ gap ++ p ++ s' = s ++ (gap ++ p ++ s') := by simp [List.append_assoc]
    rw [hs, loop_command h3 (by decide) hcom, h2, List.append_assoc]

/-- **C104**: a file of commands and comments, with any white space between the words, makes exactly the calls that the commands stand for, in
the order of the commands. -/
theorem C104_configure (s rest : Text) (acts : List Act) (h : Commands Valid s acts rest) (hrest : Gap rest) :
    configure (some s) = (acts, none) := by
  obtain ⟨f, -, h1⟩ := loop_commands h (s.length + 1) (Nat.lt_succ_self _)
  rw [configure, h1]
  simp [loop, word_gap hrest]

/-- Commands before something else are carried out. -/
lemma configure_before {s rest : Text} {acts : List Act} (h : Commands Valid s acts rest) :
    ∃ fuel, rest.length < fuel + 1 ∧ configure (some s) = (acts ++ (loop (fuel + 1) (some rest)).1, (loop (fuel + 1) (some rest)).2) :=
  loop_commands h (s.length + 1) (Nat.lt_succ_self _)

lemma loop_error {fuel : ℕ} {s k u : Text} {now : List Act} {f : Failure} (hw : word s = some (k, u)) (hk : k.head? ≠ some '#')
    (hc : command k u = (now, .error f)) : loop (fuel + 1) (some s) = (now, some f) := by
  simp only [loop, hw, if_neg hk, hc]

lemma command_wrong {ws : List Text} {name s s' : Text} (hc : Wrong ws name) (hsp : Spaced ws s) (hs : Ends s') :
    ∃ k u, word (s ++ s') = some (k, u) ∧ k.head? ≠ some '#' ∧ command k u = ([.get name], .error .throws) := by
  cases hc with
  | command k name hk hh hn =>
    obtain ⟨a, h1, h2, -⟩ := word_spaced hsp hs
    obtain ⟨b, h3, h4, -⟩ := word_spaced h2 hs
    refine ⟨_, _, h1, hh, ?_⟩
    simp only [commandWords, List.mem_cons, List.not_mem_nil, or_false, not_or] at hk
    simp only [command, h3, categoryOf_nameWord hn]
    rw [if_neg hk.2.2, if_neg hk.2.1, if_neg hk.1]
  | priority name w c hn hc ha hp =>
    obtain ⟨a, h1, h2, -⟩ := word_spaced hsp hs
    obtain ⟨b, h3, h4, -⟩ := word_spaced h2 hs
    obtain ⟨d, h5, h6, -⟩ := word_spaced h4 hs
    refine ⟨_, _, h1, by decide, ?_⟩
    have hno : getPriorityValue w = none := by
      refine LogConfig.C97_priority_refused w c hc ha ?_
      intro v hv
      cases hv with
      | empty => simp at hc
      | name w v hm => exact hp v (.name w v hm)
      | number n hn => exact hp n (.number n hn)
    simp only [command, h3, categoryOf_nameWord hn, priorityCommand, h5, hno]
    rfl
  | root w v hp hv =>
    obtain ⟨a, h1, h2, -⟩ := word_spaced hsp hs
    obtain ⟨b, h3, h4, -⟩ := word_spaced h2 hs
    obtain ⟨d, h5, h6, -⟩ := word_spaced h4 hs
    refine ⟨_, _, h1, by decide, ?_⟩
    have hroot : categoryOf "root".toList = [] := rfl
    have hlt : ¬ v < Logging.NOTSET := not_lt.mpr hv
    simp only [command, h3, hroot, priorityCommand, h5, getPriorityValue_eq hp, hlt, not_false_eq_true, and_self, if_true]
    rfl
  | kind name layout k hn hk =>
    obtain ⟨a, h1, h2, -⟩ := word_spaced hsp hs
    obtain ⟨b, h3, h4, -⟩ := word_spaced h2 hs
    obtain ⟨d, h5, h6, -⟩ := word_spaced h4 hs
    obtain ⟨e, h7, h8, -⟩ := word_spaced h6 hs
    refine ⟨_, _, h1, by decide, ?_⟩
    have hno : appenderOf k (e ++ s') = .error .throws := by
      simp only [kindWords, List.mem_cons, List.not_mem_nil, or_false, not_or] at hk
      obtain ⟨k1, k2, k3, k4, k5, k6, k7⟩ := hk
      unfold appenderOf
      rw [if_neg k1, if_neg k2, if_neg k3, if_neg k4, if_neg k5, if_neg k6, if_neg k7]
    simp only [command, h3, categoryOf_nameWord hn, if_true, appenderCommand, h5, h7, hno]
  | layout name layout t ws hn hl hk =>
    obtain ⟨a, h1, h2, -⟩ := word_spaced hsp hs
    obtain ⟨b, h3, h4, -⟩ := word_spaced h2 hs
    obtain ⟨d, h5, h6, -⟩ := word_spaced h4 hs
    obtain ⟨k, u, h7, h8⟩ := appenderOf_eq hk h6 hs
    refine ⟨_, _, h1, by decide, ?_⟩
    have hno : layoutOf layout (some s') = .error .throws := by
      simp only [layoutWords, List.mem_cons, List.not_mem_nil, or_false, not_or] at hl
      unfold layoutOf
      rw [if_neg hl.1, if_neg hl.2.1, if_neg hl.2.2]
    simp only [command, h3, categoryOf_nameWord hn, if_true, appenderCommand, h5, h7, h8, hno]

/-- **C104**: a wrong command behind correct ones throws, whatever follows it; the correct ones in front of it stay in force, and the category of
the wrong one exists. -/
theorem C104_wrong (s bad rest name : Text) (acts : List Act) (ws : List Text) (h : Commands Valid s acts (bad ++ rest)) (hw : Wrong ws name)
    (hb : Spaced ws bad) (hr : Ends rest) : configure (some s) = (acts ++ [.get name], some .throws) := by
  obtain ⟨f, -, h1⟩ := configure_before h
  obtain ⟨k, u, h2, h3, h4⟩ := command_wrong hw hb hr
  rw [h1, loop_error h2 h3 h4]

lemma gap_ends {g : Text} (h : Gap g) : Ends g := by
  intro c hc
  exact h c (List.mem_of_mem_head? hc)

lemma unsigned_gap {bits : ℕ} {g : Text} (hg : Gap g) : unsigned bits g = none := by
  have := drop_gap (s := []) hg
  rw [List.append_nil] at this
  simp [unsigned, this, sign]

lemma command_short {ws : List Text} {name s s' : Text} (hc : Short ws name) (hsp : Spaced ws s) (hg : Gap s') :
    ∃ k u, word (s ++ s') = some (k, u) ∧ k.head? ≠ some '#' ∧ command k u = ([.get name], .error .throws) := by
  have hs := gap_ends hg
  cases hc with
  | priority name hn =>
    obtain ⟨a, h1, h2, -⟩ := word_spaced hsp hs
    obtain ⟨b, h3, h4, -⟩ := word_spaced h2 hs
    obtain rfl := spaced_nil h4
    refine ⟨_, _, h1, by decide, ?_⟩
    simp only [command, h3, categoryOf_nameWord hn, priorityCommand, List.nil_append, word_gap hg]
    rfl
  | file name layout hn =>
    obtain ⟨a, h1, h2, -⟩ := word_spaced hsp hs
    obtain ⟨b, h3, h4, -⟩ := word_spaced h2 hs
    obtain ⟨d, h5, h6, -⟩ := word_spaced h4 hs
    obtain ⟨e, h7, h8, -⟩ := word_spaced h6 hs
    obtain rfl := spaced_nil h8
    refine ⟨_, _, h1, by decide, ?_⟩
    simp only [command, h3, categoryOf_nameWord hn, if_true, appenderCommand, h5, h7, appenderOf, List.nil_append, word_gap hg]
  | rolling name layout hn =>
    obtain ⟨a, h1, h2, -⟩ := word_spaced hsp hs
    obtain ⟨b, h3, h4, -⟩ := word_spaced h2 hs
    obtain ⟨d, h5, h6, -⟩ := word_spaced h4 hs
    obtain ⟨e, h7, h8, -⟩ := word_spaced h6 hs
    obtain rfl := spaced_nil h8
    refine ⟨_, _, h1, by decide, ?_⟩
    simp only [command, h3, categoryOf_nameWord hn, if_true, appenderCommand, h5, h7, appenderOf, List.nil_append, word_gap hg]
    rfl
  | size name layout f hn =>
    obtain ⟨a, h1, h2, -⟩ := word_spaced hsp hs
    obtain ⟨b, h3, h4, -⟩ := word_spaced h2 hs
    obtain ⟨d, h5, h6, -⟩ := word_spaced h4 hs
    obtain ⟨e, h7, h8, -⟩ := word_spaced h6 hs
    obtain ⟨e', h9, h10, -⟩ := word_spaced h8 hs
    obtain rfl := spaced_nil h10
    refine ⟨_, _, h1, by decide, ?_⟩
    simp only [command, h3, categoryOf_nameWord hn, if_true, appenderCommand, h5, h7, h9, appenderOf, List.nil_append, unsigned_gap hg]
    rfl
  | backups name layout f size hn hz =>
    obtain ⟨a, h1, h2, -⟩ := word_spaced hsp hs
    obtain ⟨b, h3, h4, -⟩ := word_spaced h2 hs
    obtain ⟨d, h5, h6, -⟩ := word_spaced h4 hs
    obtain ⟨e, h7, h8, -⟩ := word_spaced h6 hs
    obtain ⟨e', h9, h10, -⟩ := word_spaced h8 hs
    obtain ⟨e'', h11, h12, -⟩ := unsigned_spaced h10 hs hz
    obtain rfl := spaced_nil h12
    refine ⟨_, _, h1, by decide, ?_⟩
    simp only [command, h3, categoryOf_nameWord hn, if_true, appenderCommand, h5, h7, h9, h11, appenderOf, List.nil_append, unsigned_gap hg]
    rfl
  | syslog name layout hn =>
    obtain ⟨a, h1, h2, -⟩ := word_spaced hsp hs
    obtain ⟨b, h3, h4, -⟩ := word_spaced h2 hs
    obtain ⟨d, h5, h6, -⟩ := word_spaced h4 hs
    obtain ⟨e, h7, h8, -⟩ := word_spaced h6 hs
    obtain rfl := spaced_nil h8
    refine ⟨_, _, h1, by decide, ?_⟩
    simp only [command, h3, categoryOf_nameWord hn, if_true, appenderCommand, h5, h7, appenderOf, List.nil_append, word_gap hg]
    rfl
  | remote name layout hn =>
    obtain ⟨a, h1, h2, -⟩ := word_spaced hsp hs
    obtain ⟨b, h3, h4, -⟩ := word_spaced h2 hs
    obtain ⟨d, h5, h6, -⟩ := word_spaced h4 hs
    obtain ⟨e, h7, h8, -⟩ := word_spaced h6 hs
    obtain rfl := spaced_nil h8
    refine ⟨_, _, h1, by decide, ?_⟩
    simp only [command, h3, categoryOf_nameWord hn, if_true, appenderCommand, h5, h7, appenderOf, List.nil_append, word_gap hg]
    rfl
  | host name layout n hn =>
    obtain ⟨a, h1, h2, -⟩ := word_spaced hsp hs
    obtain ⟨b, h3, h4, -⟩ := word_spaced h2 hs
    obtain ⟨d, h5, h6, -⟩ := word_spaced h4 hs
    obtain ⟨e, h7, h8, -⟩ := word_spaced h6 hs
    obtain ⟨e', h9, h10, -⟩ := word_spaced h8 hs
    obtain rfl := spaced_nil h10
    refine ⟨_, _, h1, by decide, ?_⟩
    simp only [command, h3, categoryOf_nameWord hn, if_true, appenderCommand, h5, h7, h9, appenderOf, List.nil_append, word_gap hg]
    rfl

/-- **C104**: a file that ends within one of these commands throws, and the commands in front stay in force. -/
theorem C104_short (s bad rest name : Text) (acts : List Act) (ws : List Text) (h : Commands Valid s acts (bad ++ rest)) (hw : Short ws name)
    (hb : Spaced ws bad) (hr : Gap rest) : configure (some s) = (acts ++ [.get name], some .throws) := by
  obtain ⟨f, -, h1⟩ := configure_before h
  obtain ⟨k, u, h2, h3, h4⟩ := command_short hw hb hr
  rw [h1, loop_error h2 h3 h4]

/-- A file that cannot be opened throws. -/
theorem C104_no_file : configure none = ([], some .throws) := rfl

/-! ## What goes wrong -/

lemma loop_none (fuel : ℕ) : loop fuel none = ([], none) := by cases fuel <;> rfl

/-- A file may end within the first words of an appender command: no exception, and no appender. -/
theorem C104_incomplete_refuted (s bad rest name layout : Text) (acts : List Act) (hn : Name name) (h : Commands Valid s acts (bad ++ rest))
    (hr : Gap rest) (hb : Spaced ["appender".toList, nameWord name] bad ∨ Spaced ["appender".toList, nameWord name, layout] bad) :
    configure (some s) = (acts ++ [.get name], none) := by
  obtain ⟨f, -, h1⟩ := configure_before h
  have hs := gap_ends hr
  rcases hb with hb | hb
  · obtain ⟨a, h2, h3, -⟩ := word_spaced hb hs
    obtain ⟨b, h4, h5, -⟩ := word_spaced h3 hs
    obtain rfl := spaced_nil h5
    have hc : command "appender".toList (a ++ rest) = ([.get name], .ok none) := by
      simp only [command, h4, categoryOf_nameWord hn, if_true, appenderCommand, List.nil_append, word_gap hr]
    rw [h1, loop_command h2 (by decide) hc, loop_none]
    simp
  · obtain ⟨a, h2, h3, -⟩ := word_spaced hb hs
    obtain ⟨b, h4, h5, -⟩ := word_spaced h3 hs
    obtain ⟨c, h6, h7, -⟩ := word_spaced h5 hs
    obtain rfl := spaced_nil h7
    have hc : command "appender".toList (a ++ rest) = ([.get name], .ok none) := by
      simp only [command, h4, categoryOf_nameWord hn, if_true, appenderCommand, h6, List.nil_append, word_gap hr]
    rw [h1, loop_command h2 (by decide) hc, loop_none]
    simp

/-- Text that does not start with a number: white space, and then nothing or something else. -/
def NoNumber (s : Text) : Prop := ∀ c ∈ (s.dropWhile isSpace).head?, c.isDigit = false ∧ c ≠ '-' ∧ c ≠ '+'

lemma signed_noNumber {s : Text} (h : NoNumber s) : signed s = none := by
  unfold signed
  unfold NoNumber at h
  cases hs : s.dropWhile isSpace with
  | nil => simp [sign]
  | cons c t =>
    rw [hs] at h
    obtain ⟨h1, h2, h3⟩ := h c (by simp)
    simp [sign, h1, h2, h3]

/-- The facility of a system log may be left out, but then the rest of the file is ignored, whatever it is, without an exception; and
with the layout `pattern`, the pattern of the command is ignored, too: all messages are empty. -/
theorem C104_facility_refuted (s first rest name logName : Text) (acts : List Act) (hn : Name name) (h : Commands Valid s acts (first ++ rest))
    (he : Ends rest) (hr : NoNumber rest) :
    (Spaced ["appender".toList, nameWord name, "basic".toList, "syslog".toList, logName] first →
      configure (some s) = (acts ++ [.get name, .addAppender name (.syslog logName 8) .basic], none)) ∧
    (Spaced ["appender".toList, nameWord name, "pattern".toList, "syslog".toList, logName] first →
      configure (some s) = (acts ++ [.get name, .addAppender name (.syslog logName 8) (.pattern (some []))], none)) := by
  obtain ⟨f, -, h1⟩ := configure_before h
  constructor <;> intro hb
  · obtain ⟨a, h2, h3, -⟩ := word_spaced hb he
    obtain ⟨b, h4, h5, -⟩ := word_spaced h3 he
    obtain ⟨c, h6, h7, -⟩ := word_spaced h5 he
    obtain ⟨d, h8, h9, -⟩ := word_spaced h7 he
    obtain ⟨e, h10, h11, -⟩ := word_spaced h9 he
    obtain rfl := spaced_nil h11
    have hc : command "appender".toList (a ++ rest) = ([.get name, .addAppender name (.syslog logName 8) .basic], .ok none) := by
      have ha : appenderOf "syslog".toList (d ++ rest) = .ok (.syslog logName 8, none) := by
        simp only [appenderOf, h10, List.nil_append, signed_noNumber hr]
        rfl
      simp only [command, h4, categoryOf_nameWord hn, if_true, appenderCommand, h6, h8, ha]
      rfl
    rw [h1, loop_command h2 (by decide) hc, loop_none]
    simp
  · obtain ⟨a, h2, h3, -⟩ := word_spaced hb he
    obtain ⟨b, h4, h5, -⟩ := word_spaced h3 he
    obtain ⟨c, h6, h7, -⟩ := word_spaced h5 he
    obtain ⟨d, h8, h9, -⟩ := word_spaced h7 he
    obtain ⟨e, h10, h11, -⟩ := word_spaced h9 he
    obtain rfl := spaced_nil h11
    have hc : command "appender".toList (a ++ rest) = ([.get name, .addAppender name (.syslog logName 8) (.pattern (some []))], .ok none) := by
      have ha : appenderOf "syslog".toList (d ++ rest) = .ok (.syslog logName 8, none) := by
        simp only [appenderOf, h10, List.nil_append, signed_noNumber hr]
        rfl
      simp only [command, h4, categoryOf_nameWord hn, if_true, appenderCommand, h6, h8, ha]
      rfl
    rw [h1, loop_command h2 (by decide) hc, loop_none]
    simp

/-- The words of a command with a pattern that is read as `q`. -/
lemma configure_pattern {s first after name q : Text} {t : Target} {ws : List Text} {acts : List Act} {rest : Option Text} (hn : Name name)
    (hk : Kind t ws) (h : Commands Valid s acts (first ++ after)) (hsp : Spaced (["appender".toList, nameWord name, "pattern".toList] ++ ws) first)
    (he : Ends after) (hp : patternOf (some after) = (q, rest)) (hq : Valid q) :
    ∃ fuel, configure (some s) = (acts ++ [.get name, .addAppender name t (.pattern (some q))] ++ (loop fuel rest).1, (loop fuel rest).2) ∧
      after.length ≤ fuel := by
  obtain ⟨f, hf, h1⟩ := configure_before h
  obtain ⟨a, h3, h4, -⟩ := word_spaced hsp he
  obtain ⟨b, h5, h6, -⟩ := word_spaced h4 he
  have hlay : layoutOf "pattern".toList (some after) = .ok (.pattern (some q), rest) := by
    obtain ⟨cs, hcs⟩ := hq
    unfold layoutOf
    rw [if_neg (by decide), if_neg (by decide), if_pos rfl]
    simp only [hp, hcs]
  have hcom : command "appender".toList (a ++ after) = ([.get name, .addAppender name t (.pattern (some q))], .ok rest) := by
    simp only [command, h5, categoryOf_nameWord hn, if_true]
    exact appenderCommand_eq hk h6 he hlay
  refine ⟨f, ?_, ?_⟩
  · rw [h1, loop_command h3 (by decide) hcom, List.append_assoc]
  · simp only [List.length_append] at hf
    omega

/-- A pattern of more than 999 characters is cut, and the rest of the file is ignored, whatever it is, without an exception. -/
theorem C104_long_pattern_refuted (s first gap p rest name : Text) (t : Target) (ws : List Text) (acts : List Act) (hn : Name name) (hk : Kind t ws)
    (h : Commands Valid s acts (first ++ (gap ++ p ++ rest))) (hsp : Spaced (["appender".toList, nameWord name, "pattern".toList] ++ ws) first)
    (hgne : gap ≠ []) (hg : Gap gap) (hp : ∃ c ∈ p.head?, ¬ Blank c) (hnl : '\n' ∉ p) (h0 : '\x00' ∉ p) (hlen : 999 < p.length)
    (hv : Valid (p.take 999)) :
    configure (some s) = (acts ++ [.get name, .addAppender name t (.pattern (some (p.take 999)))], none) := by
  have he : Ends (gap ++ p ++ rest) := by
    cases gap with
    | nil => exact absurd rfl hgne
    | cons c gap =>
      intro d hd
      obtain rfl : c = d := by simpa using hd
      exact hg c (by simp)
  have hpat : patternOf (some (gap ++ p ++ rest)) = (p.take 999, none) := by
    have hdrop : (gap ++ p ++ rest).dropWhile isSpace = p ++ rest := by
      obtain ⟨c, hc, hb⟩ := hp
      cases p with
      | nil => simp at hc
      | cons d p =>
        obtain rfl : d = c := by simpa using hc
        rw [List.append_assoc, drop_gap hg, List.cons_append, List.dropWhile_cons, if_neg (by rw [isSpace_iff]; exact hb)]
    have htake : (p ++ rest).takeWhile (fun c => decide (c ≠ '\n')) = p ++ rest.takeWhile (fun c => decide (c ≠ '\n')) := by
      rw [List.takeWhile_append_of_pos]
      intro c hc
      simp only [ne_eq, decide_not, Bool.not_eq_eq_eq_not, Bool.not_true, decide_eq_false_iff_not]
      rintro rfl
      exact hnl hc
    have hpne : p ++ rest ≠ [] := by
      intro hnil
      rw [(List.append_eq_nil_iff.mp hnil).1] at hlen
      simp at hlen
    have h9 : 999 < (p ++ rest.takeWhile (fun c => decide (c ≠ '\n'))).length := by
      simp only [List.length_append]
      omega
    have hcut : (p ++ rest.takeWhile (fun c => decide (c ≠ '\n'))).take 999 = p.take 999 := List.take_append_of_le_length (by omega)
    unfold patternOf
    simp only [hdrop, htake, if_neg hpne, if_pos h9, hcut]
    rw [takeWhile_none fun hm => h0 (List.mem_of_mem_take hm)]
  obtain ⟨f, h1, -⟩ := configure_pattern hn hk h hsp he hpat hv
  rw [h1, loop_none]
  simp

/-- Without a pattern behind the command, the next line that is not empty is the pattern, and not the command that it says. -/
theorem C104_no_pattern_refuted (s first gap line rest name : Text) (t : Target) (ws : List Text) (acts more : List Act) (hn : Name name) (hk : Kind t ws)
    (h : Commands Valid s acts (first ++ ('\n' :: gap ++ line ++ '\n' :: rest)))
    (hsp : Spaced (["appender".toList, nameWord name, "pattern".toList] ++ ws) first) (hg : Gap gap) (hl : Pattern Valid line)
    (hrest : Commands Valid rest more []) :
    configure (some s) = (acts ++ [.get name, .addAppender name t (.pattern (some line))] ++ more, none) := by
  have hg' : Gap ('\n' :: gap) := by
    intro c hc
    rcases List.mem_cons.mp hc with rfl | hc
    · exact .inr (.inr (.inl rfl))
    · exact hg c hc
  have he : Ends ('\n' :: gap ++ line ++ '\n' :: rest) := by
    intro d hd
    obtain rfl : '\n' = d := by simpa using hd
    exact hg' _ (by simp)
  have hpat := patternOf_eq hg' hl (.inr rfl : LineEnd ('\n' :: rest) rest)
  obtain ⟨f, h1, h2⟩ := configure_pattern hn hk h hsp he hpat hl.2.2.2.2
  obtain ⟨f', -, h3⟩ := loop_commands hrest f (by
    simp only [List.length_append, List.length_cons] at h2
    omega)
  rw [h1, h3]
  simp [loop, word]

/-- The same number is another facility for a remote system log than for a local one: 16, for local use, is 128 for the one, and 16, which is
a mail system, for the other. -/
theorem C104_remote_refuted :
    configure (some "appender a basic syslog n 16 appender a basic remotesyslog n h 16 514".toList) =
      ([.get ['a'], .addAppender ['a'] (.syslog ['n'] (16 * 8)) .basic,
        .get ['a'], .addAppender ['a'] (.remoteSyslog ['n'] ['h'] 16 514) .basic], none) := by
  decide +kernel

/-- A file with comments, a pattern and numbers satisfies the hypotheses. -/
example : ∃ acts, Commands Valid "# logging\n priority root INFO\nappender root pattern rolling a.log 1000 2 %p %m%n\ncategory a.b\n".toList acts ['\n'] ∧
    acts = [.get [], .setPriority [] 600, .get [], .addAppender [] (.rolling "a.log".toList 1000 2) (.pattern (some "%p %m%n".toList)), .get "a.b".toList] := by
  have hw : ∀ w : Text, w ≠ [] → (∀ c ∈ w, isSpace c = false) → Word w := fun w h1 h2 => ⟨h1, fun c hc => (not_isSpace_iff c).mp (h2 c hc)⟩
  have hsp : Gap [' '] := by intro c hc; left; simpa using hc
  have hnl : Gap ['\n'] := by intro c hc; right; right; left; simpa using hc
  have hgap0 : Gap [] := by intro c hc; simp at hc
  have hend : ∀ s, Ends (' ' :: s) := by intro s c hc; left; simpa using hc.symm
  have hend' : ∀ s, Ends ('\n' :: s) := by intro s c hc; right; right; left; simpa using hc.symm
  have hend0 : Ends [] := by intro c hc; simp at hc
  have c1 : Command ["priority".toList, nameWord [], "INFO".toList] [.get [], .setPriority [] 600] :=
    .priority [] "INFO".toList 600 (.inl rfl) (.name "INFO" 600 (by simp)) (fun _ => by decide)
  have c2 : Command ["category".toList, nameWord "a.b".toList] [.get "a.b".toList] :=
    .category _ (.inr ⟨hw _ (by decide) (by decide), by decide⟩)
  have k2 : Kind (.rolling "a.log".toList 1000 2) ["rolling".toList, "a.log".toList, Nat.toDigits 10 1000, Nat.toDigits 10 2] :=
    .rolling _ 1000 2 (by decide) (by decide)
  have d1 : Nat.toDigits 10 1000 = "1000".toList := by decide
  have d2 : Nat.toDigits 10 2 = "2".toList := by decide
  rw [d1, d2] at k2
  have s1 : Spaced ["priority".toList, nameWord [], "INFO".toList] " priority root INFO".toList :=
    .cons [' '] "priority".toList _ _ hsp (hw _ (by decide) (by decide)) (hend _)
      (.cons [' '] "root".toList _ _ hsp (hw _ (by decide) (by decide)) (hend _)
        (.cons [' '] "INFO".toList _ _ hsp (hw _ (by decide) (by decide)) hend0 .nil))
  have s2 : Spaced (["appender".toList, nameWord [], "pattern".toList] ++ ["rolling".toList, "a.log".toList, "1000".toList, "2".toList])
      "\nappender root pattern rolling a.log 1000 2".toList :=
    .cons ['\n'] "appender".toList _ _ hnl (hw _ (by decide) (by decide)) (hend _)
      (.cons [' '] "root".toList _ _ hsp (hw _ (by decide) (by decide)) (hend _)
        (.cons [' '] "pattern".toList _ _ hsp (hw _ (by decide) (by decide)) (hend _)
          (.cons [' '] "rolling".toList _ _ hsp (hw _ (by decide) (by decide)) (hend _)
            (.cons [' '] "a.log".toList _ _ hsp (hw _ (by decide) (by decide)) (hend _)
              (.cons [' '] "1000".toList _ _ hsp (hw _ (by decide) (by decide)) (hend _)
                (.cons [' '] "2".toList _ _ hsp (hw _ (by decide) (by decide)) hend0 .nil))))))
  have s3 : Spaced ["category".toList, nameWord "a.b".toList] "category a.b".toList :=
    .cons [] "category".toList _ _ hgap0 (hw _ (by decide) (by decide)) (hend _)
      (.cons [' '] "a.b".toList _ _ hsp (hw _ (by decide) (by decide)) hend0 .nil)
  have hpat : Pattern Valid "%p %m%n".toList :=
    ⟨⟨'%', by simp, by rw [← not_isSpace_iff]; rfl⟩, by decide, by decide, by decide, ⟨_, rfl⟩⟩
  have f3 := Commands.command (valid := Valid) _ _ ['\n'] _ _ _ c2 s3 (hend' _) (.nil _)
  have f2 := Commands.pattern (valid := Valid) [] _ _ _ [' '] _ _ _ _ _ (.inl rfl) k2 s2 (by simp) hsp hpat (.inr rfl) f3
  have f1 := Commands.command (valid := Valid) _ _ _ _ _ _ c1 s1 (hend' _) f2
  have f0 := Commands.comment (valid := Valid) [] " logging".toList _ _ _ _ hgap0 (by decide) (.inr rfl) f1
  exact ⟨_, f0, rfl⟩

end Ubitrack.SimpleConfigProps
