import Verif.Spec.XmlAttribute
import Mathlib.Data.List.TakeWhile
import Mathlib.Tactic.IntervalCases
import Mathlib.Tactic.Linarith
import Mathlib.Tactic.NormNum
import Mathlib.Tactic.Ring
import Mathlib.Tactic.FieldSimp
import Mathlib.Tactic.Positivity
import Mathlib.Tactic.Push

/-!
# C101: attributes of XML elements
-/

namespace Ubitrack.Props.XmlAttribute

open Ubitrack.XmlEdit Ubitrack.XmlAttribute
open Spec.Attributes (current names nameStep valueStep)

/-! ## Lists -/

lemma names_set (as : List (Text × Text)) (n v : Text) : (setAttribute as n v).map Prod.fst = if n ∈ as.map Prod.fst then as.map Prod.fst else as.map Prod.fst ++ [n] := by
  induction as with
  | nil => simp [setAttribute]
  | cons a as ih =>
    by_cases h : a.1 = n
    · simp [setAttribute, h]
    · have h' : n ≠ a.1 := Ne.symm h
      simp only [setAttribute, h, if_false, List.map_cons, ih, List.mem_cons, h', false_or]
      split_ifs <;> simp

lemma names_remove {as : List (Text × Text)} (hn : (as.map Prod.fst).Nodup) (n : Text) : (removeAttribute as n).map Prod.fst = (as.map Prod.fst).filter fun m => m ≠ n := by
  induction as with
  | nil => rfl
  | cons a as ih =>
    rw [List.map_cons, List.nodup_cons] at hn
    by_cases h : a.1 = n
    · subst h
      simp only [removeAttribute, if_true, List.map_cons, ne_eq, not_true_eq_false, decide_false, Bool.false_eq_true, not_false_eq_true, List.filter_cons_of_neg]
      rw [List.filter_eq_self.mpr]
      intro m hm
      simp only [decide_not, Bool.not_eq_eq_eq_not, Bool.not_true, decide_eq_false_iff_not]
      rintro rfl
      exact hn.1 hm
    · simp [removeAttribute, h, ih hn.2]

lemma attribute_set (as : List (Text × Text)) (n v m : Text) : attributeOf (setAttribute as n v) m = if n = m then some v else attributeOf as m := by
  induction as with
  | nil => by_cases h : n = m <;> simp [setAttribute, attributeOf, h]
  | cons a as ih =>
    unfold attributeOf at ih ⊢
    by_cases h : a.1 = n
    · by_cases hm : n = m
      · simp [setAttribute, h, hm]
      · have : a.1 ≠ m := by rw [h]; exact hm
        simp [setAttribute, h, hm]
    · by_cases hm : n = m
      · have : a.1 ≠ m := by rw [← hm]; exact h
        rw [if_pos hm] at ih ⊢
        simp only [setAttribute, h, if_false, List.find?_cons, this, decide_false, ih]
      · by_cases ham : a.1 = m
        · have hmn : m ≠ n := Ne.symm hm
          simp [setAttribute, ham, hmn, hm]
        · simp only [setAttribute, h, if_false, List.find?_cons, ham, decide_false, ih, hm]

lemma attribute_none {as : List (Text × Text)} {n : Text} (hn : n ∉ as.map Prod.fst) : attributeOf as n = none := by
  unfold attributeOf
  rw [Option.map_eq_none_iff, List.find?_eq_none]
  intro x hx
  simp only [decide_eq_true_eq]
  rintro rfl
  exact hn (List.mem_map_of_mem hx)

lemma attribute_remove {as : List (Text × Text)} (hn : (as.map Prod.fst).Nodup) (n m : Text) : attributeOf (removeAttribute as n) m = if n = m then none else attributeOf as m := by
  by_cases h : n = m
  · subst h
    rw [if_pos rfl, attribute_none]
    rw [names_remove hn]
    simp
  · rw [if_neg h]
    induction as with
    | nil => rfl
    | cons a as ih =>
      rw [List.map_cons, List.nodup_cons] at hn
      have ih' := ih hn.2
      unfold attributeOf at ih' ⊢
      by_cases ha : a.1 = n
      · have : a.1 ≠ m := by rw [ha]; exact h
        simp [removeAttribute, ha, h]
      · by_cases ham : a.1 = m
        · have hmn : m ≠ n := Ne.symm h
          simp [removeAttribute, ham, hmn]
        · simp only [removeAttribute, ha, if_false, List.find?_cons, ham, decide_false, ih']

/-- C101: after every history of setting and removing, each name occurs once, in the order in which the attributes came into being, and has the value set last. -/
theorem C101_history (ops : List Op) :
    (run ops).map Prod.fst = names ops ∧ ((run ops).map Prod.fst).Nodup ∧ ∀ n, attributeOf (run ops) n = current ops n := by
  induction ops using List.reverseRecOn with
  | nil => exact ⟨rfl, by simp [run], fun n => rfl⟩
  | append_singleton ops op ih =>
    obtain ⟨h1, h2, h3⟩ := ih
    have e1 : run (ops ++ [op]) = step (run ops) op := by simp [run]
    have e2 : names (ops ++ [op]) = nameStep (names ops) op := by
      unfold names
      rw [List.foldl_append]
      rfl
    have e3 : ∀ n, current (ops ++ [op]) n = valueStep n (current ops n) op := by
      intro n
      unfold current
      rw [List.foldl_append]
      rfl
    cases op with
    | set k v =>
      have hn : (run (ops ++ [.set k v])).map Prod.fst = names (ops ++ [.set k v]) := by
        rw [e1, e2, step, nameStep, names_set, h1]
      refine ⟨hn, ?_, ?_⟩
      · rw [e1, step, names_set]
        split_ifs with hk
        · exact h2
        · rw [List.nodup_append]
          refine ⟨h2, by simp, ?_⟩
          intro a ha b hb e
          simp only [List.mem_singleton] at hb
          subst hb e
          exact hk ha
      · intro n
        rw [e1, e3, step, valueStep, attribute_set, h3]
    | remove k =>
      have hn : (run (ops ++ [.remove k])).map Prod.fst = names (ops ++ [.remove k]) := by
        rw [e1, e2, step, nameStep, names_remove h2, h1]
      refine ⟨hn, ?_, ?_⟩
      · rw [e1, step, names_remove h2]
        exact h2.filter _
      · intro n
        rw [e1, e3, step, valueStep, attribute_remove h2, h3]

example : run [.set ['a'] ['1'], .set ['b'] ['2'], .set ['a'] ['3'], .remove ['b'], .set ['c'] []] = [(['a'], ['3']), (['c'], [])] := by decide

/-- C101: an attribute that is not the first and has no name and no value hides itself and those behind it from programs that go through the attributes, from copies and from the text
printed; all others are visited, in order. -/
theorem C101_visited (as : List (Text × Text)) : (∀ a ∈ as.tail, a ≠ ([], [])) ↔ visited as = as := by
  cases as with
  | nil => simp [visited]
  | cons a as =>
    simp only [visited, List.tail_cons, List.cons.injEq, true_and]
    induction as with
    | nil => simp
    | cons b as ih =>
      rw [List.takeWhile_cons]
      by_cases hb : b = ([], [])
      · subst hb
        simp
      · have : ¬ (b.2 = [] ∧ b.1 = []) := by
          rintro ⟨h1, h2⟩
          exact hb (Prod.ext h2 h1)
        simp only [List.mem_cons, forall_eq_or_imp, this, not_false_eq_true, decide_true, if_true, List.cons.injEq, true_and]
        rw [← ih]
        simp [hb]

/-- Three attributes are set, a program that goes through them sees one, and a copy has one. -/
theorem C101_visited_refuted : ∃ ops, (run ops).length = 3 ∧ (visited (run ops)).length = 1 ∧ (copyAttributes (run ops)).length = 1 :=
  ⟨[.set ['a'] ['1'], .set [] [], .set ['b'] ['2']], by decide⟩

/-- Elements are documented to have attributes with unique names; renaming one breaks this. -/
theorem C101_rename_refuted : ∃ ops, ¬ ((rename (run ops) ['b'] ['a']).map Prod.fst).Nodup :=
  ⟨[.set ['a'] ['1'], .set ['b'] ['2']], by decide⟩

/-! ## Numbers -/

lemma digits_all (n : ℕ) : ∀ c ∈ Nat.toDigits 10 n, c.isDigit = true := fun _ hc => Nat.isDigit_of_mem_toDigits (by norm_num) le_rfl hc

lemma takeWhile_digits (n : ℕ) : (Nat.toDigits 10 n).takeWhile Char.isDigit = Nat.toDigits 10 n := List.takeWhile_eq_self_iff.mpr (digits_all n)

lemma digit_first (n : ℕ) : ∃ c r, Nat.toDigits 10 n = c :: r ∧ c.isDigit = true := by
  cases h : Nat.toDigits 10 n with
  | nil => exact absurd h Nat.toDigits_ne_nil
  | cons c r => exact ⟨c, r, rfl, digits_all n c (by rw [h]; simp)⟩

lemma digit_not_white {c : Char} (hc : c.isDigit = true) : isWhite c = false ∧ c ≠ '-' ∧ c ≠ '+' := by
  have h1 : 48 ≤ c.toNat ∧ c.toNat ≤ 57 := by
    simp only [Char.isDigit, ge_iff_le, Bool.and_eq_true, decide_eq_true_eq] at hc
    exact ⟨hc.1, hc.2⟩
  refine ⟨?_, ?_, ?_⟩
  · unfold isWhite
    have : c ≠ ' ' := by
      rintro rfl
      revert h1
      decide
    simp only [this, decide_false, Bool.false_or, Bool.and_eq_false_iff, decide_eq_false_iff_not]
    omega
  · rintro rfl
    revert h1
    decide
  · rintro rfl
    revert h1
    decide

lemma sign_digit {c : Char} (hc : c.isDigit = true) (r : Text) : sign ((c :: r).dropWhile isWhite) = (false, c :: r) := by
  obtain ⟨h1, h2, h3⟩ := digit_not_white hc
  rw [List.dropWhile_cons, h1]
  simp only [Bool.false_eq_true, if_false]
  unfold sign
  split
  · rename_i e
    injection e with e _
    exact absurd e h2
  · rename_i e
    injection e with e _
    exact absurd e h3
  · rfl

lemma sign_minus (r : Text) : sign (('-' :: r).dropWhile isWhite) = (true, r) := by
  have : isWhite '-' = false := by decide
  rw [List.dropWhile_cons, this]
  rfl

lemma query_show (v : ℤ) : queryInt (showInt v) = if -2 ^ 31 ≤ v ∧ v < 2 ^ 31 then .success v else .undefined := by
  unfold showInt
  by_cases h : v < 0
  · rw [if_pos h]
    unfold queryInt
    simp only [sign_minus, takeWhile_digits, if_neg Nat.toDigits_ne_nil, Nat.ofDigitChars_ten_toDigits, if_true]
    have : (-(v.natAbs : ℤ)) = v := by omega
    rw [this]
  · rw [if_neg h]
    obtain ⟨c, r, e, hc⟩ := digit_first v.natAbs
    unfold queryInt
    have hs : sign ((Nat.toDigits 10 v.natAbs).dropWhile isWhite) = (false, Nat.toDigits 10 v.natAbs) := by
      rw [e]
      exact sign_digit hc r
    simp only [hs, takeWhile_digits, if_neg Nat.toDigits_ne_nil, Nat.ofDigitChars_ten_toDigits, Bool.false_eq_true, if_false]
    have : ((v.natAbs : ℤ)) = v := by omega
    rw [this]

/-- C101: every `int` set as an attribute is read back, and attributes of other names are not affected. -/
theorem C101_int (as : List (Text × Text)) (name : Text) (v : ℤ) (hv : -2 ^ 31 ≤ v ∧ v < 2 ^ 31) :
    queryIntAttribute (setInt as name v) name = .success v ∧ ∀ m ≠ name, queryIntAttribute (setInt as name v) m = queryIntAttribute as m := by
  constructor
  · unfold queryIntAttribute setInt
    rw [attribute_set, if_pos rfl]
    simp only
    rw [query_show, if_pos hv]
  · intro m hm
    unfold queryIntAttribute setInt
    rw [attribute_set, if_neg (Ne.symm hm)]

example : queryIntAttribute (setInt [] ['i'] (-2 ^ 31)) ['i'] = .success (-2 ^ 31) := (C101_int [] ['i'] (-2 ^ 31) (by norm_num)).1

/-- C101: an attribute that is not there is reported as such, and only it. -/
theorem C101_missing (as : List (Text × Text)) (name : Text) :
    (queryIntAttribute as name = .noAttribute ↔ name ∉ as.map Prod.fst) ∧ (queryDoubleAttribute as name = .noAttribute ↔ name ∉ as.map Prod.fst) := by
  have h : attributeOf as name = none ↔ name ∉ as.map Prod.fst := by
    refine ⟨fun h hn => ?_, attribute_none⟩
    obtain ⟨a, ha, rfl⟩ := List.mem_map.mp hn
    unfold attributeOf at h
    rw [Option.map_eq_none_iff, List.find?_eq_none] at h
    exact absurd (h a ha) (by simp)
  rw [← h]
  unfold queryIntAttribute queryDoubleAttribute
  constructor
  · cases attributeOf as name with
    | none => simp
    | some s =>
      simp only [reduceCtorEq, iff_false]
      unfold queryInt
      dsimp only
      split_ifs <;> simp
  · cases attributeOf as name with
    | none => simp
    | some s =>
      simp only [reduceCtorEq, iff_false]
      unfold queryDouble
      dsimp only
      split_ifs <;> simp

lemma number_eq (l : Text) : Spec.Attributes.number l = Nat.ofDigitChars 10 l 0 := rfl

lemma digit_iff (c : Char) : ('0' ≤ c ∧ c ≤ '9') ↔ c.isDigit = true := by
  simp [Char.isDigit, Char.le_def]

lemma white_iff (c : Char) : c ∈ [' ', '\t', '\n', '\x0b', '\x0c', '\r'] ↔ isWhite c = true := by
  simp only [List.mem_cons, List.not_mem_nil, or_false, isWhite, Bool.or_eq_true, decide_eq_true_eq, Bool.and_eq_true]
  constructor
  · rintro (rfl | rfl | rfl | rfl | rfl | rfl) <;> decide
  · rintro (h | ⟨h1, h2⟩)
    · exact Or.inl h
    · right
      have e : c = Char.ofNat c.toNat := (Char.ofNat_toNat c).symm
      generalize c.toNat = n at h1 h2 e
      subst e
      interval_cases n <;> decide

lemma sign_split (r : Text) : ∃ sg, r = sg ++ (sign r).2 ∧ sg ∈ (if (sign r).1 then [['-']] else [[], ['+']]) := by
  unfold sign
  split
  · exact ⟨['-'], rfl, by simp⟩
  · exact ⟨['+'], rfl, by simp⟩
  · exact ⟨[], rfl, by simp⟩

/-- C101: a text is taken for the integer it starts with. -/
theorem C101_starts {s digits : Text} {negative : Bool} (h : Spec.Attributes.Starts s negative digits) :
    queryInt s = (let v : ℤ := if negative then -Spec.Attributes.number digits else Spec.Attributes.number digits
      if -2 ^ 31 ≤ v ∧ v < 2 ^ 31 then .success v else .undefined) := by
  obtain ⟨⟨blanks, sg, rest, rfl, hb, hs, hr⟩, h1, h2⟩ := h
  have hd : ∀ c ∈ digits, c.isDigit = true := fun c hc => (digit_iff c).mp (h2 c hc)
  have e1 : sign ((blanks ++ sg ++ digits ++ rest).dropWhile isWhite) = (negative, digits ++ rest) := by
    rw [List.append_assoc, List.append_assoc, List.dropWhile_append_of_pos (fun c hc => (white_iff c).mp (hb c hc))]
    cases digits with
    | nil => exact absurd rfl h1
    | cons c r =>
      have hc := hd c (by simp)
      cases negative with
      | true =>
        simp only [if_true, List.mem_singleton] at hs
        subst hs
        exact sign_minus _
      | false =>
        simp only [Bool.false_eq_true, if_false, List.mem_cons, List.not_mem_nil, or_false] at hs
        rcases hs with rfl | rfl
        · exact sign_digit hc _
        · have : isWhite '+' = false := by decide
          show sign (('+' :: ((c :: r) ++ rest)).dropWhile isWhite) = _
          rw [List.dropWhile_cons, this]
          rfl
  have e2 : (digits ++ rest).takeWhile Char.isDigit = digits := by
    rw [List.takeWhile_append_of_pos hd]
    cases rest with
    | nil => simp
    | cons c r =>
      have := hr c (by simp)
      rw [digit_iff] at this
      simp [this]
  unfold queryInt
  simp only [e1, e2, if_neg h1, number_eq]
  congr

/-- C101: and only such texts are integers. -/
theorem C101_wrong_type (s : Text) : queryInt s = .wrongType ↔ ¬ ∃ negative digits, Spec.Attributes.Starts s negative digits := by
  constructor
  · rintro h ⟨negative, digits, hs⟩
    rw [C101_starts hs] at h
    dsimp only at h
    split_ifs at h
  · intro h
    by_contra hne
    apply h
    obtain ⟨sg, hsg, hm⟩ := sign_split (s.dropWhile isWhite)
    refine ⟨(sign (s.dropWhile isWhite)).1, (sign (s.dropWhile isWhite)).2.takeWhile Char.isDigit,
      ⟨s.takeWhile isWhite, sg, (sign (s.dropWhile isWhite)).2.dropWhile Char.isDigit, ?_, ?_, hm, ?_⟩, ?_, ?_⟩
    · rw [List.append_assoc, List.takeWhile_append_dropWhile, List.append_assoc, ← hsg, List.takeWhile_append_dropWhile]
    · intro c hc
      exact (white_iff c).mpr (List.mem_takeWhile_imp hc)
    · intro c hc
      rw [digit_iff]
      have := List.head?_dropWhile_not Char.isDigit (sign (s.dropWhile isWhite)).2
      rw [Option.mem_def] at hc
      rw [hc] at this
      simpa using this
    · intro e
      apply hne
      unfold queryInt
      dsimp only
      rw [if_pos e]
    · intro c hc
      exact (digit_iff c).mpr (List.mem_takeWhile_imp hc)

/-- Blanks, a sign, digits and more. -/
example : Spec.Attributes.Starts " -42px".toList true "42".toList :=
  ⟨⟨[' '], ['-'], "px".toList, by decide, by decide, by decide, by decide⟩, by decide, by decide⟩

/-- Texts that are not integers are documented to give `TIXML_WRONG_TYPE`; a text that starts with an integer succeeds. -/
theorem C101_wrong_type_refuted : queryIntAttribute [("size".toList, "12.7 pixels".toList)] "size".toList = .success 12 := by decide +kernel

/-! ## Decimal fractions -/

lemma round_error {q : ℚ} (hq : 0 ≤ q) : |(roundEven q : ℚ) - q| ≤ 1 / 2 := by
  have h1 := Nat.floor_le hq
  have h2 := Nat.lt_floor_add_one q
  unfold roundEven
  rw [abs_le]
  split_ifs <;> push_cast <;> constructor <;> linarith

lemma round_whole (n : ℕ) : roundEven (n : ℚ) = n := by
  unfold roundEven
  rw [Nat.floor_natCast]
  norm_num

lemma six_length {k : ℕ} (hk : k < 10 ^ 6) : (six k).length = 6 := by
  have := (Nat.length_toDigits_le_iff (b := 10) (n := k) (k := 6) (by norm_num) (by norm_num)).mpr hk
  simp [six]
  omega

lemma six_digits (k : ℕ) : ∀ c ∈ six k, c.isDigit = true := by
  intro c hc
  simp only [six, List.mem_append, List.mem_replicate] at hc
  rcases hc with ⟨-, rfl⟩ | hc
  · decide
  · exact digits_all k c hc

lemma ofDigitChars_six (a k : ℕ) (hk : k < 10 ^ 6) : Nat.ofDigitChars 10 (Nat.toDigits 10 a ++ six k) 0 = a * 10 ^ 6 + k := by
  have hl := (Nat.length_toDigits_le_iff (b := 10) (n := k) (k := 6) (by norm_num) (by norm_num)).mpr hk
  have gen : ∀ (l : Text) (i : ℕ), Nat.ofDigitChars 10 l i = i * 10 ^ l.length + Nat.ofDigitChars 10 l 0 := by
    intro l
    induction l with
    | nil => intro i; simp
    | cons c l ih =>
      intro i
      rw [Nat.ofDigitChars_cons, Nat.ofDigitChars_cons, ih, ih (10 * 0 + _), List.length_cons, pow_succ]
      ring
  rw [Nat.ofDigitChars_append, Nat.ofDigitChars_ten_toDigits, six, Nat.ofDigitChars_append, gen (Nat.toDigits 10 k), Nat.ofDigitChars_ten_toDigits, gen (List.replicate _ _),
    Nat.ofDigitChars_replicate_zero]
  simp only [List.length_replicate, Nat.mul_zero, Nat.add_zero]
  rw [Nat.mul_assoc, ← pow_add]
  congr 3
  omega

lemma query_fixed (neg : Bool) (a k : ℕ) (hk : k < 10 ^ 6) :
    queryDouble ((if neg then ['-'] else []) ++ (Nat.toDigits 10 a ++ '.' :: six k)) = .success (if neg then -((a * 10 ^ 6 + k : ℕ) / 10 ^ 6 : ℚ) else ((a * 10 ^ 6 + k : ℕ) / 10 ^ 6 : ℚ)) := by
  have hdot : Char.isDigit '.' = false := by decide
  have h1 : (Nat.toDigits 10 a ++ '.' :: six k).takeWhile Char.isDigit = Nat.toDigits 10 a := by
    rw [List.takeWhile_append_of_pos (digits_all a)]
    simp [hdot]
  have h2 : (Nat.toDigits 10 a ++ '.' :: six k).dropWhile Char.isDigit = '.' :: six k := by
    rw [List.dropWhile_append_of_pos (digits_all a)]
    simp [hdot]
  have h3 : (six k).takeWhile Char.isDigit = six k := List.takeWhile_eq_self_iff.mpr (six_digits k)
  have h4 : sign (((if neg then ['-'] else []) ++ (Nat.toDigits 10 a ++ '.' :: six k)).dropWhile isWhite) = (neg, Nat.toDigits 10 a ++ '.' :: six k) := by
    cases neg
    · obtain ⟨c, r, e, hc⟩ := digit_first a
      rw [e]
      exact sign_digit hc _
    · exact sign_minus _
  unfold queryDouble
  simp only [h4, h1, h2, h3, ofDigitChars_six a k hk, six_length hk]
  rw [if_neg (by simp [Nat.toDigits_ne_nil])]

lemma query_showFixed (q : ℚ) : queryDouble (showFixed q) = .success (if q < 0 then -((roundEven (|q| * 10 ^ 6) : ℚ) / 10 ^ 6) else (roundEven (|q| * 10 ^ 6) : ℚ) / 10 ^ 6) := by
  have := query_fixed (decide (q < 0)) (roundEven (|q| * 10 ^ 6) / 10 ^ 6) (roundEven (|q| * 10 ^ 6) % 10 ^ 6) (Nat.mod_lt _ (by norm_num))
  rw [Nat.div_add_mod'] at this
  unfold showFixed
  by_cases h : q < 0
  · simpa [h] using this
  · simpa [h] using this

lemma fixed_short {q : ℚ} (hq : |q| < 10 ^ 240) : (showFixed q).take 255 = showFixed q := by
  apply List.take_of_length_le
  have hk : roundEven (|q| * 10 ^ 6) ≤ 10 ^ 247 := by
    have h1 := (abs_le.mp (round_error (q := |q| * 10 ^ 6) (by positivity))).2
    have h2 : (roundEven (|q| * 10 ^ 6) : ℚ) ≤ (10 ^ 247 : ℕ) := by
      have : |q| * 10 ^ 6 < 10 ^ 240 * 10 ^ 6 := mul_lt_mul_of_pos_right hq (by norm_num)
      have h3 : (10 : ℚ) ^ 240 * 10 ^ 6 + 1 / 2 ≤ 10 ^ 247 := by norm_num
      rw [Nat.cast_pow, Nat.cast_ofNat]
      generalize (10 : ℚ) ^ 240 * 10 ^ 6 = a at *
      generalize (10 : ℚ) ^ 247 = b at *
      clear hq
      generalize |q| * 10 ^ 6 = c at *
      linarith
    exact_mod_cast h2
  have hd : (Nat.toDigits 10 (roundEven (|q| * 10 ^ 6) / 10 ^ 6)).length ≤ 242 := by
    rw [Nat.length_toDigits_le_iff (by norm_num) (by norm_num)]
    have := Nat.div_le_div_right (c := 10 ^ 6) hk
    refine lt_of_le_of_lt this ?_
    norm_num
  have hs := six_length (k := roundEven (|q| * 10 ^ 6) % 10 ^ 6) (Nat.mod_lt _ (by norm_num))
  unfold showFixed
  split_ifs <;> simp only [List.length_cons, List.length_append, hs] <;> omega

/-- C101: a `double` set as an attribute is read back up to half a millionth, if it is below 10^240. Missing: it is not read back exactly, see `C101_double_refuted`, and not at all if
it is larger, see `C101_double_large_refuted`. -/
theorem C101_double_partial (as : List (Text × Text)) (name : Text) (q : ℚ) (hq : |q| < 10 ^ 240) :
    ∃ v, queryDoubleAttribute (setDouble as name q) name = .success v ∧ |v - q| ≤ 1 / 2 / 10 ^ 6 := by
  refine ⟨if q < 0 then -((roundEven (|q| * 10 ^ 6) : ℚ) / 10 ^ 6) else (roundEven (|q| * 10 ^ 6) : ℚ) / 10 ^ 6, ?_, ?_⟩
  · unfold queryDoubleAttribute setDouble
    rw [attribute_set, if_pos rfl, fixed_short hq]
    exact query_showFixed q
  · have h := round_error (q := |q| * 10 ^ 6) (by positivity)
    have h' : abs ((roundEven (|q| * 10 ^ 6) : ℚ) / 10 ^ 6 - |q|) ≤ 1 / 2 / 10 ^ 6 := by
      have e : (roundEven (|q| * 10 ^ 6) : ℚ) / 10 ^ 6 - |q| = ((roundEven (|q| * 10 ^ 6) : ℚ) - |q| * 10 ^ 6) / 10 ^ 6 := by
        field_simp
      rw [e, abs_div, abs_of_pos (by norm_num : (0 : ℚ) < 10 ^ 6)]
      exact div_le_div_of_nonneg_right h (by norm_num)
    split_ifs with hn
    · rw [abs_of_neg hn] at h' ⊢
      rw [← abs_neg]
      have e : -(-((roundEven (-q * 10 ^ 6) : ℚ) / 10 ^ 6) - q) = (roundEven (-q * 10 ^ 6) : ℚ) / 10 ^ 6 - -q := by ring
      rwa [e]
    · rw [abs_of_nonneg (le_of_not_gt hn)] at h' ⊢
      exact h'

/-- C101: multiples of a millionth are read back exactly. -/
theorem C101_double_exact (as : List (Text × Text)) (name : Text) (z : ℤ) (hz : |z| < 10 ^ 246) :
    queryDoubleAttribute (setDouble as name (z / 10 ^ 6)) name = .success (z / 10 ^ 6 : ℚ) := by
  have hq : |(z / 10 ^ 6 : ℚ)| < 10 ^ 240 := by
    rw [abs_div, abs_of_pos (by norm_num : (0 : ℚ) < 10 ^ 6), div_lt_iff₀ (by norm_num)]
    have : ((|z| : ℤ) : ℚ) < ((10 ^ 246 : ℤ) : ℚ) := by exact_mod_cast hz
    rw [Int.cast_abs] at this
    push_cast at this
    refine lt_of_lt_of_le this ?_
    norm_num
  unfold queryDoubleAttribute setDouble
  rw [attribute_set, if_pos rfl, fixed_short hq]
  simp only
  rw [query_showFixed]
  have e : |(z / 10 ^ 6 : ℚ)| * 10 ^ 6 = (z.natAbs : ℚ) := by
    rw [abs_div, abs_of_pos (by norm_num : (0 : ℚ) < 10 ^ 6), div_mul_cancel₀ _ (by norm_num), Nat.cast_natAbs, Int.cast_abs]
  rw [e, round_whole, Nat.cast_natAbs, Int.cast_abs]
  congr 1
  by_cases hn : z < 0
  · have h1 : (z : ℚ) < 0 := by exact_mod_cast hn
    rw [if_pos (div_neg_of_neg_of_pos h1 (by norm_num)), abs_of_neg h1]
    ring
  · have h1 : (0 : ℚ) ≤ z := by exact_mod_cast not_lt.mp hn
    rw [if_neg (not_lt.mpr (div_nonneg h1 (by norm_num))), abs_of_nonneg h1]

/-- The `double` 2^-30 is read back as zero. -/
theorem C101_double_refuted : queryDoubleAttribute (setDouble [] ['x'] (1 / 2 ^ 30)) ['x'] = .success 0 := by decide +kernel

/-- The `double` 2^1000, larger than 10^300, is read back as less than 10^255. -/
theorem C101_double_large_refuted : ∃ v, queryDoubleAttribute (setDouble [] ['x'] (2 ^ 1000)) ['x'] = .success v ∧ v < 10 ^ 255 ∧ (10 : ℚ) ^ 300 < 2 ^ 1000 :=
  ⟨2 ^ 1000 / 10 ^ 47 - (2 ^ 1000 % 10 ^ 47 : ℕ) / 10 ^ 47, by decide +kernel, by decide +kernel, by decide +kernel⟩

end Ubitrack.Props.XmlAttribute
