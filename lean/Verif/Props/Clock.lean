import Verif.Spec.Clock
import Mathlib.Algebra.Order.BigOperators.Group.Finset
import Mathlib.Algebra.BigOperators.Ring.Finset
import Mathlib.Tactic.IntervalCases
import Mathlib.Tactic.Linarith
import Mathlib.Tactic.Ring
import Mathlib.Tactic.NormNum

/-!
# C86: clock and printed times
-/

namespace Ubitrack.Clock

open Spec

/-! ### Digits -/

theorem pad_length {w : ℕ} (c : Char) {n : ℕ} (hw : 0 < w) (hn : n < 10 ^ w) : (pad w c n).length = w := by
  unfold pad
  have := (Nat.length_toDigits_le_iff (b := 10) (n := n) (k := w) (by norm_num) hw).mpr hn
  simp only [List.length_append, List.length_replicate]
  omega

theorem pad_number (w n : ℕ) : number (pad w '0' n) = n := by
  unfold number pad
  rw [Nat.ofDigitChars_append, Nat.ofDigitChars_replicate_zero, Nat.mul_zero, Nat.ofDigitChars_ten_toDigits]

theorem pad_space_inj (w n m : ℕ) (h : pad w ' ' n = pad w ' ' m) : n = m := by
  have key : ∀ k, (pad w ' ' k).filter Char.isDigit = Nat.toDigits 10 k := by
    intro k
    unfold pad
    rw [List.filter_append, List.filter_eq_nil_iff.mpr, List.nil_append, List.filter_eq_self]
    · intro c hc
      exact Nat.isDigit_of_mem_toDigits (by norm_num) le_rfl hc
    · intro c hc
      rw [List.eq_of_mem_replicate hc]
      decide
  have := congrArg (fun l => number (l.filter Char.isDigit)) h
  simpa only [key, number, Nat.ofDigitChars_ten_toDigits] using this

theorem pad_succ (w n : ℕ) (hw : 0 < w) : pad (w + 1) '0' n = pad w '0' (n / 10) ++ [Nat.digitChar (n % 10)] := by
  unfold pad
  by_cases hn : n < 10
  · rw [Nat.toDigits_of_lt_base hn, Nat.div_eq_of_lt hn, Nat.toDigits_zero, Nat.mod_eq_of_lt hn]
    simp only [List.length_singleton, Nat.add_sub_cancel]
    congr 1
    obtain ⟨v, rfl⟩ : ∃ v, w = v + 1 := ⟨w - 1, by omega⟩
    rw [Nat.add_sub_cancel, List.replicate_succ']
  · rw [Nat.toDigits_of_base_le (by norm_num) (by omega)]
    simp only [List.length_append, List.length_singleton, ← List.append_assoc]
    congr 3
    omega

theorem lex_append {a b c d : List Char} (h : a.length = b.length) : a ++ c < b ++ d ↔ a < b ∨ (a = b ∧ c < d) := by
  induction a generalizing b with
  | nil =>
    obtain rfl : b = [] := by
      rw [← List.length_eq_zero_iff, ← h]; rfl
    simp
  | cons x a ih =>
    cases b with
    | nil => simp at h
    | cons y b =>
      simp only [List.cons_append, List.cons_lt_cons_iff, ih (by simpa using h), List.cons.injEq]
      clear h ih
      constructor
      · rintro (h | ⟨rfl, h | ⟨rfl, h⟩⟩)
        · exact Or.inl (Or.inl h)
        · exact Or.inl (Or.inr ⟨rfl, h⟩)
        · exact Or.inr ⟨⟨rfl, rfl⟩, h⟩
      · rintro ((h | ⟨rfl, h⟩) | ⟨⟨rfl, rfl⟩, h⟩)
        · exact Or.inl h
        · exact Or.inr ⟨rfl, Or.inl h⟩
        · exact Or.inr ⟨rfl, Or.inr ⟨rfl, h⟩⟩

theorem pad_eq_iff (w n m : ℕ) : pad w '0' n = pad w '0' m ↔ n = m := by
  constructor
  · intro h
    have := congrArg number h
    rwa [pad_number, pad_number] at this
  · rintro rfl
    rfl

theorem pad_lt_iff (w n m : ℕ) (hw : 0 < w) (hn : n < 10 ^ w) (hm : m < 10 ^ w) : pad w '0' n < pad w '0' m ↔ n < m := by
  have dig : ∀ n < 10, ∀ m < 10, [Nat.digitChar n] < [Nat.digitChar m] ↔ n < m := by decide
  induction w, hw using Nat.le_induction generalizing n m with
  | base =>
    have e : ∀ k < 10, pad 1 '0' k = [Nat.digitChar k] := by decide
    rw [e n (by simpa using hn), e m (by simpa using hm)]
    exact dig n (by simpa using hn) m (by simpa using hm)
  | succ w hw ih =>
    rw [pow_succ] at hn hm
    have h1 : n / 10 < 10 ^ w := by omega
    have h2 : m / 10 < 10 ^ w := by omega
    rw [pad_succ w n hw, pad_succ w m hw, lex_append (by rw [pad_length _ hw h1, pad_length _ hw h2]), pad_eq_iff,
      dig _ (Nat.mod_lt _ (by norm_num)) _ (Nat.mod_lt _ (by norm_num))]
    have key : pad w '0' (n / 10) < pad w '0' (m / 10) ↔ n / 10 < m / 10 := ih (n / 10) (m / 10) h1 h2
    rw [key]
    omega

/-! ### Time of day -/

/-- **C86** The short text has fifteen characters (so it fits into the buffer) and shows hours, minutes, seconds of the local time of day and
microseconds. -/
theorem C86_short (localtime : ℕ → Tm) (offset : ℕ → ℤ) (hl : ∀ s, IsTimeOfDay s (offset s) (localtime s)) (t : ℕ) :
    ∃ s, timestampToShortString localtime t = some s ∧ s.length = 15 ∧ number (s.take 2) < 24 ∧ number ((s.drop 3).take 2) < 60 ∧
      number ((s.drop 6).take 2) < 60 ∧ s[2]? = some ':' ∧ s[5]? = some ':' ∧ s[8]? = some '.' ∧
      ((t / 10 ^ 9 : ℕ) + offset (t / 10 ^ 9)) % 86400 = number (s.take 2) * 3600 + number ((s.drop 3).take 2) * 60 + number ((s.drop 6).take 2) ∧
      number (s.drop 9) = t / 1000 % 10 ^ 6 := by
  obtain ⟨h1, h2, h3, h4⟩ := hl (t / 1000000000)
  have l1 := pad_length '0' (w := 2) (n := (localtime (t / 1000000000)).hour) (by norm_num) (by omega)
  have l2 := pad_length '0' (w := 2) (n := (localtime (t / 1000000000)).min) (by norm_num) (by omega)
  have l3 := pad_length '0' (w := 2) (n := (localtime (t / 1000000000)).sec) (by norm_num) (by omega)
  have l4 := pad_length '0' (w := 6) (n := (t / 1000) % 1000000) (by norm_num) (Nat.mod_lt _ (by norm_num))
  have n1 := pad_number 2 (localtime (t / 1000000000)).hour
  have n2 := pad_number 2 (localtime (t / 1000000000)).min
  have n3 := pad_number 2 (localtime (t / 1000000000)).sec
  have n4 := pad_number 6 ((t / 1000) % 1000000)
  have e9 : t / 10 ^ 9 = t / 1000000000 := by norm_num
  rw [e9]
  unfold timestampToShortString
  simp only
  generalize localtime (t / 1000000000) = tm at *
  generalize pad 2 '0' tm.hour = A at *
  generalize pad 2 '0' tm.min = B at *
  generalize pad 2 '0' tm.sec = C at *
  generalize pad 6 '0' ((t / 1000) % 1000000) = D at *
  obtain ⟨a1, a2, rfl⟩ := List.length_eq_two.mp l1
  obtain ⟨b1, b2, rfl⟩ := List.length_eq_two.mp l2
  obtain ⟨c1, c2, rfl⟩ := List.length_eq_two.mp l3
  rw [if_pos (by simp [l4])]
  refine ⟨_, rfl, by simp [l4], ?_⟩
  simp only [List.cons_append, List.nil_append, List.take_succ_cons, List.take_zero, List.drop_succ_cons, List.drop_zero,
    List.getElem?_cons_succ, List.getElem?_cons_zero]
  rw [n1, n2, n3, n4]
  exact ⟨h1, h2, h3, trivial, trivial, trivial, h4, by norm_num⟩

/-- **C86** On one day of local time (with the same offset to universal time) short texts are in the same alphabetic order as the times in
microseconds; equal texts mean the same microsecond. -/
theorem C86_short_order (localtime : ℕ → Tm) (offset : ℕ → ℤ) (hl : ∀ s, IsTimeOfDay s (offset s) (localtime s)) (t t' : ℕ)
    (ho : offset (t / 10 ^ 9) = offset (t' / 10 ^ 9))
    (hd : ((t / 10 ^ 9 : ℕ) + offset (t / 10 ^ 9)) / 86400 = ((t' / 10 ^ 9 : ℕ) + offset (t' / 10 ^ 9)) / 86400) (s s' : List Char)
    (h : timestampToShortString localtime t = some s) (h' : timestampToShortString localtime t' = some s') :
    (s < s' ↔ t / 1000 < t' / 1000) ∧ (s = s' ↔ t / 1000 = t' / 1000) := by
  have e9 : ∀ t : ℕ, t / 10 ^ 9 = t / 1000000000 := fun t => by norm_num
  simp only [e9] at ho hd
  obtain ⟨h1, h2, h3, h4⟩ := hl (t / 1000000000)
  obtain ⟨h1', h2', h3', h4'⟩ := hl (t' / 1000000000)
  unfold timestampToShortString at h h'
  simp only [Option.ite_none_right_eq_some, Option.some.injEq] at h h'
  obtain ⟨-, rfl⟩ := h
  obtain ⟨-, rfl⟩ := h'
  rw [← ho] at hd h4'
  generalize offset (t / 1000000000) = o at *
  generalize localtime (t / 1000000000) = tm at *
  generalize localtime (t' / 1000000000) = tm' at *
  have q : ∀ n : ℕ, n < 60 → n < 10 ^ 2 := fun n hn => by omega
  have q6 : ∀ n : ℕ, n / 1000 % 1000000 < 10 ^ 6 := fun n => Nat.mod_lt _ (by norm_num)
  have len2 : ∀ n m : ℕ, n < 60 → m < 60 → (pad 2 '0' n).length = (pad 2 '0' m).length := fun n m hn hm => by
    rw [pad_length _ (by norm_num) (q n hn), pad_length _ (by norm_num) (q m hm)]
  have irr : ∀ c : Char, ¬ [c] < [c] := fun c => List.lt_irrefl _
  simp only [List.append_assoc]
  constructor
  · rw [lex_append (len2 _ _ (by omega) (by omega)), lex_append rfl, lex_append (len2 _ _ (by omega) (by omega)), lex_append rfl,
      lex_append (len2 _ _ (by omega) (by omega)), lex_append rfl, pad_lt_iff 2 _ _ (by norm_num) (q _ (by omega)) (q _ (by omega)),
      pad_lt_iff 2 _ _ (by norm_num) (q _ (by omega)) (q _ (by omega)), pad_lt_iff 2 _ _ (by norm_num) (q _ (by omega)) (q _ (by omega)),
      pad_lt_iff 6 _ _ (by norm_num) (q6 _) (q6 _), pad_eq_iff, pad_eq_iff, pad_eq_iff]
    simp only [irr, false_or, true_and]
    omega
  · constructor
    · intro he
      have a := List.append_inj he (len2 _ _ (by omega) (by omega))
      have b := List.append_inj (List.append_inj a.2 rfl).2 (len2 _ _ (by omega) (by omega))
      have c := List.append_inj (List.append_inj b.2 rfl).2 (len2 _ _ (by omega) (by omega))
      have d := (List.append_inj c.2 rfl).2
      have a := a.1
      have b := b.1
      have c := c.1
      rw [pad_eq_iff] at a b c d
      omega
    · intro he
      have : tm.hour = tm'.hour ∧ tm.min = tm'.min ∧ tm.sec = tm'.sec := by omega
      rw [this.1, this.2.1, this.2.2, he]

/-! ### Date -/

theorem dayNumber_ge (k mon mday : ℕ) : 365 * k ≤ dayNumber k mon mday := by
  unfold dayNumber
  have : ∑ i ∈ Finset.range k, 365 ≤ ∑ i ∈ Finset.range k, daysInYear (1970 + i) :=
    Finset.sum_le_sum fun i _ => by
      unfold daysInYear
      split <;> omega
  simp only [Finset.sum_const, Finset.card_range, nsmul_eq_mul, Nat.cast_id] at this
  omega

theorem daysInMonth_le (y m : ℕ) (hm : m < 12) : daysInMonth y m ≤ 31 := by
  unfold daysInMonth
  split <;> interval_cases m <;> simp

/-- The year of a 64 bit timestamp has four digits. -/
theorem year_bound {t : ℕ} (ht : t < 2 ^ 64) {tm : Tm} (h : IsDate (t / 10 ^ 9) tm) : 1970 ≤ 1900 + tm.year ∧ 1900 + tm.year ≤ 2554 := by
  have h1 := dayNumber_ge (tm.year - 70) tm.mon tm.mday
  have h2 := h.secs
  have h3 := h.year
  have h4 : t / 10 ^ 9 < 18446744074 := by omega
  omega

theorem year_length {n : ℕ} (h1 : 1000 ≤ n) (h2 : n < 10000) : (Nat.toDigits 10 n).length = 4 := by
  have a := (Nat.length_toDigits_le_iff (b := 10) (n := n) (k := 4) (by norm_num) (by norm_num)).mpr (by omega)
  have b : ¬ (Nat.toDigits 10 n).length ≤ 3 := by
    rw [Nat.length_toDigits_le_iff (by norm_num) (by norm_num)]
    omega
  omega

theorem dayName_length {n : ℕ} (h : n < 7) : (dayName n).length = 3 := by
  revert n
  decide

theorem monthName_length {n : ℕ} (h : n < 12) : (monthName n).length = 3 := by
  revert n
  decide

theorem monthName_inj {n m : ℕ} (hn : n < 12) (hm : m < 12) (h : monthName n = monthName m) : n = m := by
  have : ∀ n < 12, ∀ m < 12, monthName n = monthName m → n = m := by decide
  exact this n hn m hm h

theorem long_eq (gmtime : ℕ → Tm) (hg : ∀ s, IsDate s (gmtime s)) (t : ℕ) (ht : t < 2 ^ 64) :
    timestampToString gmtime t = some (dayName (gmtime (t / 10 ^ 9)).wday ++ ([' '] ++ (monthName (gmtime (t / 10 ^ 9)).mon ++
      (pad 3 ' ' (gmtime (t / 10 ^ 9)).mday ++ ([' '] ++ (pad 2 '0' (gmtime (t / 10 ^ 9)).hour ++ ([':'] ++ (pad 2 '0' (gmtime (t / 10 ^ 9)).min ++
      ([':'] ++ (pad 2 '0' (gmtime (t / 10 ^ 9)).sec ++ ([' '] ++ (Nat.toDigits 10 (1900 + (gmtime (t / 10 ^ 9)).year) ++ [' ', 'U', 'T', 'C'])))))))))))) := by
  have h := hg (t / 10 ^ 9)
  have hy := year_bound ht h
  have l1 := dayName_length (n := (gmtime (t / 10 ^ 9)).wday) (by rw [h.wday]; exact Nat.mod_lt _ (by norm_num))
  have l2 := monthName_length h.mon
  have l3 := pad_length ' ' (w := 3) (n := (gmtime (t / 10 ^ 9)).mday) (by norm_num) (by have := h.mday.2; have := daysInMonth_le (1900 + (gmtime (t / 10 ^ 9)).year) _ h.mon; omega)
  have l4 := pad_length '0' (w := 2) (n := (gmtime (t / 10 ^ 9)).hour) (by norm_num) (by have := h.hour; omega)
  have l5 := pad_length '0' (w := 2) (n := (gmtime (t / 10 ^ 9)).min) (by norm_num) (by have := h.min; omega)
  have l6 := pad_length '0' (w := 2) (n := (gmtime (t / 10 ^ 9)).sec) (by norm_num) (by have := h.sec; omega)
  have l7 := year_length (n := 1900 + (gmtime (t / 10 ^ 9)).year) (by omega) (by omega)
  have e9 : gmtime (t / 1000000000) = gmtime (t / 10 ^ 9) := congrArg gmtime (by norm_num)
  unfold timestampToString asctime
  simp only [e9]
  generalize gmtime (t / 10 ^ 9) = tm at *
  rw [if_pos (by simp [l1, l2, l3, l4, l5, l6, l7])]
  simp only [Option.bind_eq_bind, Option.bind_some, Option.pure_def, Option.some.injEq]
  rw [List.length_append, List.length_singleton, Nat.add_sub_cancel, List.take_left']
  · simp only [List.append_assoc]
  · rfl

/-- **C86** The long text exists for every 64 bit timestamp (no overrun of the buffer), has 28 characters and ends with the time zone. -/
theorem C86_long (gmtime : ℕ → Tm) (hg : ∀ s, IsDate s (gmtime s)) (t : ℕ) (ht : t < 2 ^ 64) :
    ∃ s, timestampToString gmtime t = some s ∧ s.length = 28 ∧ s.drop 24 = " UTC".toList := by
  have h := hg (t / 10 ^ 9)
  have hy := year_bound ht h
  have l1 := dayName_length (n := (gmtime (t / 10 ^ 9)).wday) (by rw [h.wday]; exact Nat.mod_lt _ (by norm_num))
  have l2 := monthName_length h.mon
  have l3 := pad_length ' ' (w := 3) (n := (gmtime (t / 10 ^ 9)).mday) (by norm_num) (by have := h.mday.2; have := daysInMonth_le (1900 + (gmtime (t / 10 ^ 9)).year) _ h.mon; omega)
  have l4 := pad_length '0' (w := 2) (n := (gmtime (t / 10 ^ 9)).hour) (by norm_num) (by have := h.hour; omega)
  have l5 := pad_length '0' (w := 2) (n := (gmtime (t / 10 ^ 9)).min) (by norm_num) (by have := h.min; omega)
  have l6 := pad_length '0' (w := 2) (n := (gmtime (t / 10 ^ 9)).sec) (by norm_num) (by have := h.sec; omega)
  have l7 := year_length (n := 1900 + (gmtime (t / 10 ^ 9)).year) (by omega) (by omega)
  rw [long_eq gmtime hg t ht]
  generalize gmtime (t / 10 ^ 9) = tm at *
  refine ⟨_, rfl, by simp [l1, l2, l3, l4, l5, l6, l7], ?_⟩
  simp only [← List.append_assoc]
  rw [List.drop_left']
  · rfl
  · simp [l1, l2, l3, l4, l5, l6, l7]

theorem dayName_eq {n : ℕ} (h : n < 7) : dayName n = (weekday n).toList := by
  revert n
  decide

theorem monthName_eq {n : ℕ} (h : n < 12) : monthName n = (month n).toList := by
  revert n
  decide

/-- **C86** The long text is the date in universal time, written as usual. -/
theorem C86_long_text (gmtime : ℕ → Tm) (hg : ∀ s, IsDate s (gmtime s)) (t : ℕ) (ht : t < 2 ^ 64) :
    ∃ tm, IsDate (t / 10 ^ 9) tm ∧ timestampToString gmtime t = some (dateText tm) := by
  have h := hg (t / 10 ^ 9)
  refine ⟨gmtime (t / 10 ^ 9), h, ?_⟩
  rw [long_eq gmtime hg t ht, dayName_eq (by rw [h.wday]; exact Nat.mod_lt _ (by norm_num)), monthName_eq h.mon]
  have hd : (Nat.toDigits 10 (gmtime (t / 10 ^ 9)).mday).length ≤ 2 := by
    have h1 := daysInMonth_le (1900 + (gmtime (t / 10 ^ 9)).year) _ h.mon
    have h2 := h.mday.2
    rw [Nat.length_toDigits_le_iff (by norm_num) (by norm_num)]
    omega
  have h3 : pad 3 ' ' (gmtime (t / 10 ^ 9)).mday = ' ' :: (Nat.toDigits 10 (gmtime (t / 10 ^ 9)).mday).leftpad 2 ' ' := by
    unfold pad List.leftpad
    rw [show 3 - (Nat.toDigits 10 (gmtime (t / 10 ^ 9)).mday).length = 2 - (Nat.toDigits 10 (gmtime (t / 10 ^ 9)).mday).length + 1 by omega,
      List.replicate_succ]
    rfl
  rw [h3]
  simp [dateText, pad, List.leftpad]

/-- **C86** The long text determines the second: two 64 bit timestamps have the same text exactly if they are in the same second. -/
theorem C86_long_injective (gmtime : ℕ → Tm) (hg : ∀ s, IsDate s (gmtime s)) (t t' : ℕ) (ht : t < 2 ^ 64) (ht' : t' < 2 ^ 64) :
    timestampToString gmtime t = timestampToString gmtime t' ↔ t / 10 ^ 9 = t' / 10 ^ 9 := by
  constructor
  · rw [long_eq gmtime hg t ht, long_eq gmtime hg t' ht', Option.some.injEq]
    intro he
    have h := hg (t / 10 ^ 9)
    have hy := year_bound ht h
    have h' := hg (t' / 10 ^ 9)
    have hy' := year_bound ht' h'
    generalize gmtime (t / 10 ^ 9) = tm at *
    generalize gmtime (t' / 10 ^ 9) = tm' at *
    have d1 := daysInMonth_le (1900 + tm.year) _ h.mon
    have d2 := daysInMonth_le (1900 + tm'.year) _ h'.mon
    have len2 : ∀ n m : ℕ, n < 60 → m < 60 → (pad 2 '0' n).length = (pad 2 '0' m).length := fun n m hn hm => by
      rw [pad_length _ (by norm_num) (by omega), pad_length _ (by norm_num) (by omega)]
    have a := List.append_inj he (by rw [dayName_length (by rw [h.wday]; exact Nat.mod_lt _ (by norm_num)), dayName_length (by rw [h'.wday]; exact Nat.mod_lt _ (by norm_num))])
    have b := List.append_inj (List.append_inj a.2 rfl).2 (by rw [monthName_length h.mon, monthName_length h'.mon])
    have c := List.append_inj b.2 (by
      rw [pad_length _ (by norm_num) (by have := h.mday.2; omega), pad_length _ (by norm_num) (by have := h'.mday.2; omega)])
    have d := List.append_inj (List.append_inj c.2 rfl).2 (len2 _ _ (by have := h.hour; omega) (by have := h'.hour; omega))
    have e := List.append_inj (List.append_inj d.2 rfl).2 (len2 _ _ h.min h'.min)
    have f := List.append_inj (List.append_inj e.2 rfl).2 (len2 _ _ h.sec h'.sec)
    have g := List.append_inj (List.append_inj f.2 rfl).2 (by rw [year_length (by omega) (by omega), year_length (by omega) (by omega)])
    have e1 := monthName_inj h.mon h'.mon b.1
    have e2 := pad_space_inj _ _ _ c.1
    have e3 := (pad_eq_iff _ _ _).mp d.1
    have e4 := (pad_eq_iff _ _ _).mp e.1
    have e5 := (pad_eq_iff _ _ _).mp f.1
    have e6 : 1900 + tm.year = 1900 + tm'.year := by
      have := congrArg (fun l => Nat.ofDigitChars 10 l 0) g.1
      simpa only [Nat.ofDigitChars_ten_toDigits] using this
    rw [h.secs, h'.secs, e1, e2, e3, e4, e5, show tm.year = tm'.year by omega]
  · intro h
    have e9 : ∀ t : ℕ, t / 10 ^ 9 = t / 1000000000 := fun t => by norm_num
    simp only [e9] at h
    unfold timestampToString
    rw [h]

/-! ### Reading the clock, sleeping -/

/-- **C86** From 1970 until the 64 bit number is full (in 2554), `now` is the time of the system clock in nanoseconds, and it is 1000 times the
counter that is used for time measurements, whose unit is a millionth of a second. -/
theorem C86_now (sec usec : ℤ) (h0 : 0 ≤ sec) (hu0 : 0 ≤ usec) (hu : usec < 1000000) (hmax : sec * 10 ^ 9 + usec * 1000 < 2 ^ 64) :
    (now sec usec : ℤ) = sec * 10 ^ 9 + usec * 1000 ∧
    ∃ c, getHighPerformanceCounter sec usec = some c ∧ (now sec usec : ℤ) * getHighPerformanceFrequency = c * 10 ^ 9 := by
  have e : (now sec usec : ℤ) = sec * 10 ^ 9 + usec * 1000 := by
    unfold now
    rw [Int.emod_eq_of_lt h0 (by omega), Int.emod_eq_of_lt hu0 (by omega), Int.emod_eq_of_lt (by omega) (by omega),
      Int.emod_eq_of_lt (by omega) (by omega)]
    omega
  refine ⟨e, sec * 1000000 + usec, ?_, ?_⟩
  · unfold getHighPerformanceCounter
    simp only
    rw [if_pos]
    omega
  · rw [e]
    unfold getHighPerformanceFrequency
    ring

/-- **C86** The clock is as monotone as the clock of the system. -/
theorem C86_now_monotone (sec usec sec' usec' : ℤ) (h0 : 0 ≤ sec) (hu0 : 0 ≤ usec) (hu : usec < 1000000) (hu0' : 0 ≤ usec') (hu' : usec' < 1000000)
    (hmax : sec' * 10 ^ 9 + usec' * 1000 < 2 ^ 64) (hle : sec < sec' ∨ (sec = sec' ∧ usec ≤ usec')) : now sec usec ≤ now sec' usec' := by
  have h1 := (C86_now sec usec h0 hu0 hu (by omega)).1
  have h2 := (C86_now sec' usec' (by omega) hu0' hu' hmax).1
  omega

/-- **C86** Sleeping takes the given milliseconds and nanoseconds, if the nanoseconds and the part of the milliseconds below one second are
together less than a second. -/
theorem C86_sleep_partial (ms ns : ℕ) (h : ms % 1000 * 1000000 + ns < 10 ^ 9) :
    nanosleep (sleepArgument ms ns).1 (sleepArgument ms ns).2 = ms * 1000000 + ns := by
  unfold nanosleep sleepArgument
  simp only
  rw [if_pos (by omega)]
  omega

/-- **C86** Refuted: sleeping takes the given milliseconds and nanoseconds. 999 milliseconds and 1000000 nanoseconds are no time at all, and
so is every other argument whose parts add up to a second or more (below the range of the numbers). -/
theorem C86_sleep_refuted (ms ns : ℕ) (h : 10 ^ 9 ≤ ms % 1000 * 1000000 + ns) (hr : ms % 1000 * 1000000 + ns < 2 ^ 32) :
    nanosleep (sleepArgument ms ns).1 (sleepArgument ms ns).2 = 0 := by
  unfold nanosleep sleepArgument
  simp only
  rw [if_neg (by omega)]

/-! ### The hypotheses are met -/

/-- Every number of days is in exactly one piece of a division of time into pieces. -/
theorem exists_piece (f : ℕ → ℕ) (hf : ∀ i, 0 < f i) (d : ℕ) : ∃ k, ∑ i ∈ Finset.range k, f i ≤ d ∧ d < ∑ i ∈ Finset.range (k + 1), f i := by
  induction d with
  | zero => exact ⟨0, by simp, by simpa using hf 0⟩
  | succ d ih =>
    obtain ⟨k, h1, h2⟩ := ih
    by_cases h : d + 1 < ∑ i ∈ Finset.range (k + 1), f i
    · exact ⟨k, by omega, h⟩
    · refine ⟨k + 1, by omega, ?_⟩
      rw [Finset.sum_range_succ]
      have := hf (k + 1)
      omega

theorem daysInMonth_pos (y m : ℕ) (hm : m < 12) : 0 < daysInMonth y m := by
  unfold daysInMonth
  split <;> interval_cases m <;> simp

theorem sum_daysInMonth (y : ℕ) : ∑ i ∈ Finset.range 12, daysInMonth y i = daysInYear y := by
  unfold daysInMonth daysInYear
  split <;> simp [Finset.sum_range_succ]

/-- There is a date for every number of seconds. -/
theorem exists_date (s : ℕ) : ∃ tm, IsDate s tm := by
  obtain ⟨k, hk1, hk2⟩ := exists_piece (fun i => daysInYear (1970 + i)) (fun i => by unfold daysInYear; split <;> omega) (s / 86400)
  rw [Finset.sum_range_succ] at hk2
  obtain ⟨r, hr⟩ : ∃ r, r = s / 86400 - ∑ i ∈ Finset.range k, daysInYear (1970 + i) := ⟨_, rfl⟩
  obtain ⟨m, hm1, hm2⟩ := exists_piece (fun i => if i < 12 then daysInMonth (1970 + k) i else 1)
    (fun i => by split; · exact daysInMonth_pos _ _ (by assumption)
                 · norm_num) r
  have cut : ∀ m ≤ 12, ∑ i ∈ Finset.range m, (if i < 12 then daysInMonth (1970 + k) i else 1) = ∑ i ∈ Finset.range m, daysInMonth (1970 + k) i :=
    fun m hm => Finset.sum_congr rfl fun i hi => if_pos (by have := Finset.mem_range.mp hi; omega)
  have hm : m < 12 := by
    by_contra hc
    have : ∑ i ∈ Finset.range 12, (if i < 12 then daysInMonth (1970 + k) i else 1) ≤ ∑ i ∈ Finset.range m, (if i < 12 then daysInMonth (1970 + k) i else 1) :=
      Finset.sum_le_sum_of_subset (Finset.range_mono (by omega))
    rw [cut 12 le_rfl, sum_daysInMonth] at this
    omega
  rw [cut m (by omega)] at hm1
  rw [cut (m + 1) (by omega), Finset.sum_range_succ] at hm2
  have hdn : dayNumber k m (r - ∑ i ∈ Finset.range m, daysInMonth (1970 + k) i + 1) = s / 86400 := by
    unfold dayNumber
    omega
  refine ⟨⟨s % 60, s / 60 % 60, s / 3600 % 24, r - ∑ i ∈ Finset.range m, daysInMonth (1970 + k) i + 1, m, 70 + k, (s / 86400 + 4) % 7⟩,
    ⟨?_, ?_, ?_, hm, ⟨?_, ?_⟩, ?_, ?_, ?_⟩⟩
  · exact Nat.mod_lt _ (by norm_num)
  · exact Nat.mod_lt _ (by norm_num)
  · exact Nat.mod_lt _ (by norm_num)
  · simp
  · simp only
    rw [show 1900 + (70 + k) = 1970 + k by omega]
    omega
  · simp
  · simp only [Nat.add_sub_cancel_left, hdn]
  · simp only [Nat.add_sub_cancel_left, hdn]
    omega

/-- There are functions with the contracts of `gmtime_r` and `localtime_r` (two hours ahead). -/
example : (∃ gmtime : ℕ → Tm, ∀ s, IsDate s (gmtime s)) ∧ ∃ localtime : ℕ → Tm, ∀ s, IsTimeOfDay s 7200 (localtime s) := by
  refine ⟨⟨_, fun s => (exists_date s).choose_spec⟩, fun s => ⟨(s + 7200) % 60, (s + 7200) / 60 % 60, (s + 7200) / 3600 % 24, 1, 0, 70, 0⟩, fun s => ⟨?_, ?_, ?_, ?_⟩⟩
  · exact Nat.mod_lt _ (by norm_num)
  · exact Nat.mod_lt _ (by norm_num)
  · exact Nat.mod_lt _ (by norm_num)
  · simp only
    omega

/-- The example of the header file: "Fri Mar 02 11:41:41 2007 UTC", except that POSIX prints the day with a space. -/
example : IsDate 1172835701 ⟨41, 41, 11, 2, 2, 107, 5⟩ ∧
    timestampToString (fun _ => ⟨41, 41, 11, 2, 2, 107, 5⟩) 1172835701521021000 = some "Fri Mar  2 11:41:41 2007 UTC".toList ∧
    timestampToShortString (fun _ => ⟨41, 41, 11, 2, 2, 107, 5⟩) 1172835701521021000 = some "11:41:41.521021".toList := by
  refine ⟨⟨by decide, by decide, by decide, by decide, by decide, by decide, by decide, by decide⟩, by decide, by decide⟩

end Ubitrack.Clock
