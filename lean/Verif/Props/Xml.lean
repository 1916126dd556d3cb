import Mathlib.Data.List.Infix
import Mathlib.Data.List.TakeWhile
import Mathlib.Tactic.Linarith
import Mathlib.Tactic.IntervalCases
import Mathlib.Tactic.NormNum
import Mathlib.Tactic.Ring
import Verif.Spec.Xml

/-!
# C92: characters, names, attributes and texts of XML files
-/

namespace Ubitrack.Xml

/-! ## Helper lemmas -/

theorem toNat_ofNat {n : ℕ} (h : n < 0xd800) : (Char.ofNat n).toNat = n := by
  have hv : n.isValidChar := Or.inl h
  simp [Char.ofNat, hv, Char.ofNatAux, Char.toNat]

theorem char_ext {c d : Char} (h : c.toNat = d.toNat) : c = d := by
  apply Char.ext
  exact UInt32.toNat_inj.mp h

theorem ofNat_toNat (c : Char) : Char.ofNat c.toNat = c := by
  exact Char.ofNat_toNat c

theorem encodeLoop_flatMap (f : ℕ) (s : Text) (hf : s.length ≤ f) (h : NoReference s) : encodeLoop f s = s.flatMap encodeChar := by
  induction s generalizing f with
  | nil => cases f <;> rfl
  | cons c s ih =>
    obtain ⟨f, rfl⟩ : ∃ g, f = g + 1 := ⟨f - 1, by simp at hf; omega⟩
    rw [encodeLoop, if_neg]
    · rw [ih f (by simpa using hf)]
      · rfl
      · intro h2; exact h (h2.trans (List.suffix_cons c s).isInfix)
    · rintro ⟨rfl, h2⟩
      apply h
      have h3 : ['#', 'x'] <+: s := List.isPrefixOf_iff_prefix.mp h2
      obtain ⟨t, rfl⟩ := h3
      exact ⟨[], t, rfl⟩

theorem encode_flatMap {s : Text} (h : NoReference s) : encode s = s.flatMap encodeChar := encodeLoop_flatMap _ s le_rfl h

theorem ne_of_toNat {c d : Char} (h : c.toNat ≠ d.toNat) : c ≠ d := fun h2 => h (by rw [h2])

theorem encodeChar_plain {c : Char} (h : 63 ≤ c.toNat) : encodeChar c = [c] := by
  unfold encodeChar
  rw [if_neg (ne_of_toNat (by have : ('&' : Char).toNat = 38 := rfl; omega)),
    if_neg (ne_of_toNat (by have : ('<' : Char).toNat = 60 := rfl; omega)),
    if_neg (ne_of_toNat (by have : ('>' : Char).toNat = 62 := rfl; omega)),
    if_neg (ne_of_toNat (by have : ('"' : Char).toNat = 34 := rfl; omega)),
    if_neg (ne_of_toNat (by have : ('\'' : Char).toNat = 39 := rfl; omega)), if_neg (by omega)]

/-- A text made of whole characters: single ones, and for UTF-8 first bytes with what follows. -/
inductive Chunks (e : Encoding) : Text → Prop
  | nil : Chunks e []
  | one (c : Char) (s : Text) : (e = .utf8 → byteCount c = 1) → Chunks e s → Chunks e (c :: s)
  | many (c : Char) (u s : Text) : e = .utf8 → 1 ≤ u.length → byteCount c = u.length + 1 → 128 ≤ c.toNat → (∀ d ∈ u, 128 ≤ d.toNat) →
      Chunks e s → Chunks e (c :: (u ++ s))

theorem chunks_utf8Bytes (c : Char) (s : Text) (hs : Chunks .utf8 s) : Chunks .utf8 (utf8Bytes c ++ s) := by
  have hc : c.val.toNat < 0x110000 := by
    have := c.valid
    rcases this with h | h
    · have h' : c.val.toNat < 0xd800 := h
      omega
    · exact h.2
  unfold utf8Bytes
  rw [String.utf8EncodeChar.eq_1]
  have hb : ∀ n, n < 256 → (Char.ofNat (UInt8.ofNat n).toNat).toNat = n := by
    intro n hn
    have : (UInt8.ofNat n).toNat = n := by simp; omega
    rw [this, toNat_ofNat (by omega)]
  generalize c.val.toNat = v at hc ⊢
  split_ifs with h1 h2 h3
  · refine Chunks.one _ _ (fun _ => ?_) hs
    unfold byteCount
    rw [hb v (by omega), if_neg (by omega), if_neg (by omega), if_neg (by omega)]
  · refine Chunks.many _ [_] s rfl (by simp) ?_ ?_ ?_ hs
    · unfold byteCount
      rw [hb _ (by omega), if_pos (by omega)]; rfl
    · rw [hb _ (by omega)]; omega
    · intro d hd
      simp only [List.mem_singleton] at hd
      rw [hd, hb _ (by omega)]; omega
  · refine Chunks.many _ [_, _] s rfl (by simp) ?_ ?_ ?_ hs
    · unfold byteCount
      rw [hb _ (by omega), if_neg (by omega), if_pos (by omega)]; rfl
    · rw [hb _ (by omega)]; omega
    · intro d hd
      simp only [List.mem_cons, List.not_mem_nil, or_false] at hd
      rcases hd with rfl | rfl <;> rw [hb _ (by omega)] <;> omega
  · refine Chunks.many _ [_, _, _] s rfl (by simp) ?_ ?_ ?_ hs
    · unfold byteCount
      rw [hb _ (by omega), if_neg (by omega), if_neg (by omega), if_pos (by omega)]; rfl
    · rw [hb _ (by omega)]; omega
    · intro d hd
      simp only [List.mem_cons, List.not_mem_nil, or_false] at hd
      rcases hd with rfl | rfl | rfl <;> rw [hb _ (by omega)] <;> omega

theorem chunks_of_wellEncoded {e : Encoding} {s : Text} (h : WellEncoded e s) : Chunks e s := by
  by_cases he : e = .utf8
  · subst he
    obtain ⟨cs, rfl⟩ := h rfl
    induction cs with
    | nil => exact Chunks.nil
    | cons c cs ih => exact chunks_utf8Bytes c _ (ih (fun _ => ⟨cs, rfl⟩))
  · clear h
    induction s with
    | nil => exact Chunks.nil
    | cons c s ih => exact Chunks.one c s (fun h => absurd h he) ih

theorem hexDigit_upperHex : ∀ n, n < 16 → hexDigit (upperHex n) = some n := by decide

theorem upperHex_ne : ∀ n, n < 16 → upperHex n ≠ ';' ∧ upperHex n ≠ 'x' := by decide

/-- The entity written for a control character is read as this character. -/
theorem getEntity_control (e : Encoding) (n : ℕ) (hn : n < 32) (r : Text) :
    getEntity e ('&' :: '#' :: 'x' :: upperHex (n / 16) :: upperHex (n % 16) :: ';' :: r) = ([Char.ofNat n], .inside r) := by
  have h1 := upperHex_ne (n / 16) (by omega)
  have h2 := upperHex_ne (n % 16) (by omega)
  have d1 := hexDigit_upperHex (n / 16) (by omega)
  have d2 := hexDigit_upperHex (n % 16) (by omega)
  have hv : 0 + 1 * (n % 16) % 2 ^ 32 + 1 * 16 % 2 ^ 32 * (n / 16) % 2 ^ 32 = n := by omega
  have hcode : fromCode e n = [Char.ofNat n] := by
    have h0 : toByte n = Char.ofNat n := by unfold toByte; rw [Nat.mod_eq_of_lt (by omega)]
    unfold fromCode convertUTF32ToUTF8
    rw [if_pos (show n < 0x80 by omega)]
    simp [h0]
  simp only [getEntity, reduceCtorEq, if_false, numericEntity]
  have e1 : (upperHex (n / 16) :: upperHex (n % 16) :: ';' :: r).dropWhile (· ≠ ';') = ';' :: r := by
    simp [h1.1, h2.1]
  have e2 : (upperHex (n / 16) :: upperHex (n % 16) :: ';' :: r).takeWhile (· ≠ ';') = [upperHex (n / 16), upperHex (n % 16)] := by
    simp [h1.1, h2.1]
  rw [e1, e2]
  simp only [List.reverse_cons, List.reverse_nil, List.nil_append, List.singleton_append, number, h1.2, h2.2, if_false, d1, d2]
  rw [hv, hcode]

theorem getEntity_amp (e : Encoding) (r : Text) : getEntity e ("&amp;".toList ++ r) = (['&'], .inside r) := by
  simp [getEntity, namedEntity, entities, List.find?, List.isPrefixOf]

theorem getEntity_lt (e : Encoding) (r : Text) : getEntity e ("&lt;".toList ++ r) = (['<'], .inside r) := by
  simp [getEntity, namedEntity, entities, List.find?, List.isPrefixOf]

theorem getEntity_gt (e : Encoding) (r : Text) : getEntity e ("&gt;".toList ++ r) = (['>'], .inside r) := by
  simp [getEntity, namedEntity, entities, List.find?, List.isPrefixOf]

theorem getEntity_quot (e : Encoding) (r : Text) : getEntity e ("&quot;".toList ++ r) = (['"'], .inside r) := by
  simp [getEntity, namedEntity, entities, List.find?, List.isPrefixOf]

theorem getEntity_apos (e : Encoding) (r : Text) : getEntity e ("&apos;".toList ++ r) = (['\''], .inside r) := by
  simp [getEntity, namedEntity, entities, List.find?, List.isPrefixOf]

theorem getChar_amp (e : Encoding) (s : Text) : getChar e '&' s = getEntity e ('&' :: s) := by
  unfold getChar
  rw [if_neg (fun h => h.2 (by decide)), if_pos rfl]

/-- What is written for one character: either a reference, which starts with '&' and is read as the character, or the character. -/
theorem encodeChar_cases (e : Encoding) (c : Char) (h1 : e = .utf8 → byteCount c = 1) :
    (∃ t, encodeChar c = '&' :: t ∧ ∀ r, getChar e '&' (t ++ r) = ([c], .inside r)) ∨
    (encodeChar c = [c] ∧ 32 ≤ c.toNat ∧ c ≠ '&' ∧ c ≠ '<' ∧ c ≠ '>' ∧ c ≠ '"' ∧ c ≠ '\'' ∧
      ∀ r, getChar e c r = ([c], .inside r)) := by
  unfold encodeChar
  split_ifs with a1 a2 a3 a4 a5 a6
  · subst a1; exact Or.inl ⟨_, rfl, fun r => by rw [getChar_amp]; exact getEntity_amp e r⟩
  · subst a2; exact Or.inl ⟨_, rfl, fun r => by rw [getChar_amp]; exact getEntity_lt e r⟩
  · subst a3; exact Or.inl ⟨_, rfl, fun r => by rw [getChar_amp]; exact getEntity_gt e r⟩
  · subst a4; exact Or.inl ⟨_, rfl, fun r => by rw [getChar_amp]; exact getEntity_quot e r⟩
  · subst a5; exact Or.inl ⟨_, rfl, fun r => by rw [getChar_amp]; exact getEntity_apos e r⟩
  · refine Or.inl ⟨_, rfl, fun r => ?_⟩
    rw [getChar_amp]
    have := getEntity_control e c.toNat a6 r
    rw [ofNat_toNat] at this
    exact this
  · refine Or.inr ⟨rfl, by omega, a1, a2, a3, a4, a5, fun r => ?_⟩
    unfold getChar
    rw [if_neg (fun h => h.2 (h1 h.1)), if_neg a1]

theorem flatMap_high {u : Text} (h : ∀ d ∈ u, 128 ≤ d.toNat) : u.flatMap encodeChar = u := by
  induction u with
  | nil => rfl
  | cons d u ih =>
    rw [List.flatMap_cons, ih (fun x hx => h x (List.mem_cons_of_mem d hx)), encodeChar_plain (by have := h d (by simp); omega)]
    rfl

theorem prefix_one {q c : Char} {s : Text} (h : c ≠ q) : [q].isPrefixOf (c :: s) = false := by
  simp [List.isPrefixOf, Ne.symm h]

theorem getChar_many {c : Char} {u : Text} (hc : byteCount c = u.length + 1) (hu : 1 ≤ u.length) (r : Text) :
    getChar .utf8 c (u ++ r) = (c :: u, .inside r) := by
  unfold getChar
  rw [if_pos ⟨rfl, by omega⟩, if_pos (by simp; omega), hc]
  simp

theorem readKeep_encode {e : Encoding} {v : Text} (hv : Chunks e v) (q : Char) (hq : q = '"' ∨ q = '\'') (f : ℕ) (text rest : Text)
    (hf : v.length < f) :
    readKeep e [q] f text (v.flatMap encodeChar ++ q :: rest) = .ok (text ++ v, .inside rest) := by
  induction hv generalizing f text with
  | nil =>
    obtain ⟨f, rfl⟩ : ∃ g, f = g + 1 := ⟨f - 1, by simp at hf; omega⟩
    simp [readKeep, List.isPrefixOf]
  | one c s h1 hs ih =>
    obtain ⟨f, rfl⟩ : ∃ g, f = g + 1 := ⟨f - 1, by simp at hf; omega⟩
    rcases encodeChar_cases e c h1 with ⟨t, ht, hr⟩ | ⟨ht, _, _, _, _, h5, h6, hr⟩
    · rw [List.flatMap_cons, ht, List.append_assoc, List.cons_append, readKeep,
        prefix_one (by rcases hq with rfl | rfl <;> decide)]
      rw [hr]
      simp only [Bool.false_eq_true, if_false]
      rw [ih _ _ (by simpa using hf)]
      simp
    · rw [List.flatMap_cons, ht, List.append_assoc, List.singleton_append, readKeep,
        prefix_one (by rcases hq with rfl | rfl <;> assumption)]
      rw [hr]
      simp only [Bool.false_eq_true, if_false]
      rw [ih _ _ (by simpa using hf)]
      simp
  | many c u s he hu hc hc1 hd hs ih =>
    obtain ⟨f, rfl⟩ : ∃ g, f = g + 1 := ⟨f - 1, by simp at hf; omega⟩
    subst he
    rw [List.flatMap_cons, encodeChar_plain (by omega), List.flatMap_append, flatMap_high hd, List.append_assoc, List.append_assoc,
      List.singleton_append, readKeep, prefix_one (ne_of_toNat (by
        have h1 : ('"' : Char).toNat = 34 := rfl
        have h2 : ('\'' : Char).toNat = 39 := rfl
        rcases hq with rfl | rfl <;> omega)), getChar_many hc hu]
    simp only [Bool.false_eq_true, if_false]
    rw [ih _ _ (by simp at hf; omega)]
    simp

theorem length_encodeChar (c : Char) : 1 ≤ (encodeChar c).length := by
  unfold encodeChar; split_ifs <;> simp

theorem length_flatMap_encodeChar (v : Text) : v.length ≤ (v.flatMap encodeChar).length := by
  induction v with
  | nil => simp
  | cons c v ih =>
    have := length_encodeChar c
    rw [List.flatMap_cons, List.length_append, List.length_cons]; omega

theorem readText_encode {e : Encoding} {v : Text} (hv : Chunks e v) (q : Char) (hq : q = '"' ∨ q = '\'') (rest : Text) :
    readText e [q] (v.flatMap encodeChar ++ q :: rest) = .ok (v, .inside rest) := by
  have h := readKeep_encode hv q hq ((v.flatMap encodeChar ++ q :: rest).length + 1) [] rest (by
    have := length_flatMap_encodeChar v
    simp only [List.length_append, List.length_cons]; omega)
  simpa [readText] using h

/-- Runs of blanks become one blank in front of the next character; `white`: there was one just before. -/
def condense : Bool → Text → Text
  | _, [] => []
  | white, c :: s => if c = ' ' then condense true s else (if white then [' '] else []) ++ c :: condense false s

theorem condense_high {u : Text} (h : ∀ d ∈ u, 128 ≤ d.toNat) (s : Text) : condense false (u ++ s) = u ++ condense false s := by
  induction u with
  | nil => rfl
  | cons d u ih =>
    have hd : d ≠ ' ' := ne_of_toNat (by have h1 : (' ' : Char).toNat = 32 := rfl; have := h d (by simp); omega)
    rw [List.cons_append, condense, if_neg hd, ih (fun x hx => h x (List.mem_cons_of_mem d hx))]
    simp

theorem isWhite_high {c : Char} (h : 33 ≤ c.toNat) : isWhite c = false := by
  have h1 : c ≠ ' ' := ne_of_toNat (by have : (' ' : Char).toNat = 32 := rfl; omega)
  have h2 : c ≠ '\n' := ne_of_toNat (by have : ('\n' : Char).toNat = 10 := rfl; omega)
  have h3 : c ≠ '\r' := ne_of_toNat (by have : ('\r' : Char).toNat = 13 := rfl; omega)
  have h4 : c ≠ '\t' := ne_of_toNat (by have : ('\t' : Char).toNat = 9 := rfl; omega)
  have h5 : c ≠ '\x0b' := ne_of_toNat (by have : ('\x0b' : Char).toNat = 11 := rfl; omega)
  have h6 : c ≠ '\x0c' := ne_of_toNat (by have : ('\x0c' : Char).toNat = 12 := rfl; omega)
  simp [isWhite, h1, h2, h3, h4, h5, h6]

theorem isWhite_printable {c : Char} (h : 32 ≤ c.toNat) (h2 : c ≠ ' ') : isWhite c = false := by
  apply isWhite_high
  rcases Nat.lt_or_ge 32 c.toNat with h3 | h3
  · exact h3
  · exact absurd (char_ext (by have : (' ' : Char).toNat = 32 := rfl; omega)) h2

theorem encodeChar_blank : encodeChar ' ' = [' '] := by decide

theorem readTrim_encode {e : Encoding} {v : Text} (hv : Chunks e v) (f : ℕ) (white : Bool) (text rest : Text)
    (hf : v.length < f) :
    readTrim e ['<'] f white text (v.flatMap encodeChar ++ '<' :: rest) = .ok (text ++ condense white v, .inside rest) := by
  induction hv generalizing f white text with
  | nil =>
    obtain ⟨f, rfl⟩ : ∃ g, f = g + 1 := ⟨f - 1, by simp at hf; omega⟩
    simp [readTrim, condense, List.isPrefixOf]
  | one c s h1 hs ih =>
    obtain ⟨f, rfl⟩ : ∃ g, f = g + 1 := ⟨f - 1, by simp at hf; omega⟩
    by_cases hc : c = ' '
    · subst hc
      rw [List.flatMap_cons, encodeChar_blank, List.append_assoc, List.singleton_append, readTrim, prefix_one (by decide)]
      have hw : isWhite ' ' = true := by decide
      simp only [Bool.false_eq_true, if_false, hw, if_true]
      rw [ih _ _ _ (by simpa using hf), condense, if_pos rfl]
    rcases encodeChar_cases e c h1 with ⟨t, ht, hr⟩ | ⟨ht, h32, _, h4, _, h5, h6, hr⟩
    · rw [List.flatMap_cons, ht, List.append_assoc, List.cons_append, readTrim, prefix_one (by decide)]
      have hw : isWhite '&' = false := by decide
      rw [hr]
      simp only [Bool.false_eq_true, if_false, hw]
      rw [ih _ _ _ (by simpa using hf), condense, if_neg hc]
      simp
    · rw [List.flatMap_cons, ht, List.append_assoc, List.singleton_append, readTrim, prefix_one h4]
      rw [hr]
      simp only [Bool.false_eq_true, if_false, isWhite_printable h32 hc]
      rw [ih _ _ _ (by simpa using hf), condense, if_neg hc]
      simp
  | many c u s he hu hc hc1 hd hs ih =>
    obtain ⟨f, rfl⟩ : ∃ g, f = g + 1 := ⟨f - 1, by simp at hf; omega⟩
    subst he
    have hb : c ≠ ' ' := ne_of_toNat (by have : (' ' : Char).toNat = 32 := rfl; omega)
    rw [List.flatMap_cons, encodeChar_plain (by omega), List.flatMap_append, flatMap_high hd, List.append_assoc, List.append_assoc,
      List.singleton_append, readTrim, prefix_one (ne_of_toNat (by
        have h1 : ('<' : Char).toNat = 60 := rfl
        omega)), getChar_many hc hu]
    simp only [Bool.false_eq_true, if_false, isWhite_high (show 33 ≤ c.toNat by omega)]
    rw [ih _ _ _ (by simp at hf; omega), condense, if_neg hb, condense_high hd]
    simp

theorem chunks_blank {e : Encoding} {s : Text} (h : Chunks e (' ' :: s)) : Chunks e s := by
  generalize hw : ' ' :: s = w at h
  cases h with
  | nil => cases hw
  | one c s' h1 hs => cases hw; exact hs
  | many c u s' he hu hc hc1 hd hs =>
    cases hw
    exact absurd hc1 (by decide)

theorem chunks_dropWhile {e : Encoding} {s : Text} (h : Chunks e s) : Chunks e (s.dropWhile (· = ' ')) := by
  induction s with
  | nil => exact h
  | cons c s ih =>
    by_cases hc : c = ' '
    · subst hc
      simpa using ih (chunks_blank h)
    · simpa [hc] using h

theorem skipUtf8_blank (s : Text) : skipUtf8 (' ' :: s) = skipUtf8 s := by
  have hw : isWhite ' ' = true := by decide
  match s with
  | [] => simp [skipUtf8, hw]
  | [b] => rw [skipUtf8]; simp [hw]
  | b :: c :: s =>
    have hm : isMark ' ' b c = false := by simp [isMark]
    rw [skipUtf8]; simp [hw, hm]

theorem skipUtf8_stop {a : Char} {s : Text} (hw : isWhite a = false) (hm : ∀ b c t, s = b :: c :: t → isMark a b c = false) :
    skipUtf8 (a :: s) = a :: s := by
  match s with
  | [] => simp [skipUtf8, hw]
  | [b] => simp [skipUtf8, hw]
  | b :: c :: s => simp [skipUtf8, hw, hm b c s rfl]

theorem marks_eq : marks = [[Char.ofNat 0xef, Char.ofNat 0xbb, Char.ofNat 0xbf], [Char.ofNat 0xef, Char.ofNat 0xbf, Char.ofNat 0xbe],
    [Char.ofNat 0xef, Char.ofNat 0xbf, Char.ofNat 0xbf]] := by decide

theorem isMark_iff (a b c : Char) : isMark a b c = true ↔ [a, b, c] ∈ marks := by
  have key : ∀ (x : Char) (n : ℕ), n < 256 → (x.toNat = n ↔ x = Char.ofNat n) := by
    intro x n hn
    constructor
    · intro h; exact char_ext (by rw [toNat_ofNat (by omega)]; exact h)
    · rintro rfl; exact toNat_ofNat (by omega)
  rw [marks_eq]
  simp only [isMark, Bool.and_eq_true, Bool.or_eq_true, beq_iff_eq, List.mem_cons, List.cons.injEq, List.not_mem_nil, or_false,
    and_true]
  rw [key a 0xef (by omega), key b 0xbb (by omega), key b 0xbf (by omega), key c 0xbf (by omega), key c 0xbe (by omega)]
  tauto

/-- The head of what is written for a text, if it is a high character, is the head of the text. -/
theorem head_high {w rest t : Text} {b : Char} (hb : 128 ≤ b.toNat) (h : w.flatMap encodeChar ++ '<' :: rest = b :: t) :
    ∃ w', w = b :: w' ∧ w'.flatMap encodeChar ++ '<' :: rest = t := by
  cases w with
  | nil =>
    simp only [List.flatMap_nil, List.nil_append, List.cons.injEq] at h
    rw [← h.1] at hb
    exact absurd hb (by decide)
  | cons c w =>
    rcases encodeChar_cases .legacy c (by simp) with ⟨u, hu, -⟩ | ⟨hu, -⟩
    · rw [List.flatMap_cons, hu] at h
      simp only [List.cons_append, List.cons.injEq] at h
      rw [← h.1] at hb
      exact absurd hb (by decide)
    · rw [List.flatMap_cons, hu] at h
      simp only [List.cons_append, List.nil_append, List.cons.injEq] at h
      exact ⟨w, by rw [h.1], h.2⟩

theorem skip_encode (e : Encoding) (v rest : Text) (hm : e = .utf8 → ∀ m ∈ marks, ¬ m <+: v.dropWhile (· = ' ')) :
    skip e (v.flatMap encodeChar ++ '<' :: rest) = (v.dropWhile (· = ' ')).flatMap encodeChar ++ '<' :: rest := by
  induction v with
  | nil =>
    unfold skip
    split_ifs
    · exact skipUtf8_stop (by decide) (fun b c t _ => by simp [isMark])
    · have : isWhite '<' = false := by decide
      simp [this]
  | cons c v ih =>
    by_cases hc : c = ' '
    · subst hc
      simp only [decide_true, List.dropWhile_cons_of_pos] at hm ⊢
      rw [← ih hm, List.flatMap_cons, encodeChar_blank]
      unfold skip
      split_ifs
      · exact skipUtf8_blank _
      · have : isWhite ' ' = true := by decide
        simp [this]
    · have hd : (c :: v).dropWhile (· = ' ') = c :: v := by simp [hc]
      rw [hd] at hm ⊢
      have hhead : ∃ x t, (c :: v).flatMap encodeChar ++ '<' :: rest = x :: t ∧ isWhite x = false := by
        rcases encodeChar_cases .legacy c (by simp) with ⟨u, hu, -⟩ | ⟨hu, h32, -⟩
        · exact ⟨'&', _, by rw [List.flatMap_cons, hu]; rfl, by decide⟩
        · exact ⟨c, _, by rw [List.flatMap_cons, hu]; rfl, isWhite_printable h32 hc⟩
      obtain ⟨x, t, hx, hw⟩ := hhead
      rw [hx]
      unfold skip
      split_ifs with he
      · apply skipUtf8_stop hw
        intro b d t' ht
        by_contra hmk
        have hmk : isMark x b d = true := by simpa using hmk
        have hmem := (isMark_iff x b d).mp hmk
        simp only [isMark, Bool.and_eq_true, Bool.or_eq_true, beq_iff_eq] at hmk
        have hx1 : 128 ≤ x.toNat := by omega
        have hb1 : 128 ≤ b.toNat := by omega
        have hd1 : 128 ≤ d.toNat := by omega
        obtain ⟨w1, e1, e1'⟩ := head_high hx1 hx
        rw [ht] at e1'
        obtain ⟨w2, e2, e2'⟩ := head_high hb1 e1'
        obtain ⟨w3, e3, -⟩ := head_high hd1 e2'
        exact hm he _ hmem ⟨w3, by rw [e1, e2, e3]; rfl⟩
      · simp [hw]

/-- The end of a condensed text. -/
def condensedTail (ws : List Text) : Text := if ws = [] then [] else ' ' :: [' '].intercalate ws

theorem intercalate_tail (p : Text) (ws : List Text) : [' '].intercalate (p :: ws) = p ++ condensedTail ws := by
  unfold condensedTail
  cases ws with
  | nil => simp [List.intercalate]
  | cons w ws => rw [List.intercalate_cons_cons]; simp

theorem condense_pieces (v : Text) : ∃ p ps, v.splitOn ' ' = p :: ps ∧
    condense false v = p ++ condensedTail (ps.filter (· ≠ [])) ∧ condense true v = condensedTail ((p :: ps).filter (· ≠ [])) := by
  induction v with
  | nil => exact ⟨[], [], by simp [List.splitOn], by simp [condense, condensedTail], by simp [condense, condensedTail]⟩
  | cons c v ih =>
    obtain ⟨p, ps, h1, h2, h3⟩ := ih
    rw [List.splitOn] at h1 ⊢
    by_cases hc : c = ' '
    · subst hc
      refine ⟨[], p :: ps, ?_, ?_, ?_⟩
      · rw [List.splitOnP_cons_eq_if_modifyHead, h1]; simp
      · rw [condense, if_pos rfl, h3]; simp
      · rw [condense, if_pos rfl, h3]; simp
    · refine ⟨c :: p, ps, ?_, ?_, ?_⟩
      · rw [List.splitOnP_cons_eq_if_modifyHead, h1]; simp [hc]
      · rw [condense, if_neg hc, h2]; simp
      · rw [condense, if_neg hc, h2]
        have : (c :: p) ≠ [] := by simp
        rw [List.filter_cons_of_pos (by simp)]
        have ht : condensedTail ((c :: p) :: ps.filter (· ≠ [])) = ' ' :: [' '].intercalate ((c :: p) :: ps.filter (· ≠ [])) := by
          rw [condensedTail, if_neg (by simp)]
        rw [ht, intercalate_tail]
        simp

theorem condense_condensed (v : Text) : condense false (v.dropWhile (· = ' ')) = condensed v := by
  induction v with
  | nil => simp [condense, condensed, List.splitOn, List.intercalate]
  | cons c v ih =>
    by_cases hc : c = ' '
    · subst hc
      simp only [decide_true, List.dropWhile_cons_of_pos]
      rw [ih]
      unfold condensed
      simp [List.splitOn, List.splitOnP_cons_eq_if_modifyHead]
    · have hd : (c :: v).dropWhile (· = ' ') = c :: v := by simp [hc]
      rw [hd]
      obtain ⟨p, ps, h1, h2, h3⟩ := condense_pieces v
      have hs : (c :: v).splitOn ' ' = (c :: p) :: ps := by
        rw [List.splitOn] at h1 ⊢
        rw [List.splitOnP_cons_eq_if_modifyHead, h1]; simp [hc]
      unfold condensed
      rw [hs, List.filter_cons_of_pos (by simp), intercalate_tail, condense, if_neg hc, h2]
      simp

theorem cString_encode (v : Text) : cString (v.flatMap encodeChar) = v.flatMap encodeChar := by
  unfold cString
  rw [List.takeWhile_eq_self_iff]
  intro x hx
  obtain ⟨c, -, hc⟩ := List.mem_flatMap.mp hx
  unfold encodeChar at hc
  split_ifs at hc with a1 a2 a3 a4 a5 a6
  · clear hx; revert x; decide
  · clear hx; revert x; decide
  · clear hx; revert x; decide
  · clear hx; revert x; decide
  · clear hx; revert x; decide
  · have key : ∀ n, n < 16 → upperHex n ≠ '\x00' := by decide
    have k1 := key (c.toNat / 16) (by omega)
    have k2 := key (c.toNat % 16) (by omega)
    simp only [List.mem_append, List.mem_cons, List.not_mem_nil, or_false] at hc
    rcases hc with hc | rfl | rfl | rfl
    · clear hx; revert x; decide
    · simpa using k1
    · simpa using k2
    · decide
  · simp only [List.mem_singleton] at hc
    subst hc
    simp only [ne_eq, decide_not, Bool.not_eq_eq_eq_not, Bool.not_true, decide_eq_false_iff_not]
    rintro rfl
    exact a6 (by decide)

theorem name_plain {n : Text} (h : IsName n) : (∀ d ∈ n, isNameChar d = true ∧ encodeChar d = [d] ∧ d ≠ '&') := by
  have alnum : ∀ d : Char, d.isAlphanum = true → d.toNat < 127 ∧ encodeChar d = [d] ∧ d ≠ '&' := by
    intro d hd
    have hb : (65 ≤ d.toNat ∧ d.toNat ≤ 90) ∨ (97 ≤ d.toNat ∧ d.toNat ≤ 122) ∨ (48 ≤ d.toNat ∧ d.toNat ≤ 57) := by
      simp only [Char.isAlphanum, Char.isAlpha, Char.isUpper, Char.isLower, Char.isDigit, Bool.or_eq_true, decide_eq_true_eq,
        Bool.and_eq_true, ge_iff_le, UInt32.le_iff_toNat_le] at hd
      simp at hd
      omega
    have hne : d ≠ '&' := ne_of_toNat (by have : ('&' : Char).toNat = 38 := rfl; omega)
    refine ⟨by omega, ?_, hne⟩
    unfold encodeChar
    rw [if_neg hne,
      if_neg (ne_of_toNat (by have : ('<' : Char).toNat = 60 := rfl; omega)),
      if_neg (ne_of_toNat (by have : ('>' : Char).toNat = 62 := rfl; omega)),
      if_neg (ne_of_toNat (by have : ('"' : Char).toNat = 34 := rfl; omega)),
      if_neg (ne_of_toNat (by have : ('\'' : Char).toNat = 39 := rfl; omega)), if_neg (by omega)]
  have word : ∀ d : Char, d ∈ ['_', '-', '.', ':'] → isNameChar d = true ∧ encodeChar d = [d] ∧ d ≠ '&' := by decide
  have an : ∀ d : Char, d.isAlphanum = true → isNameChar d = true ∧ encodeChar d = [d] ∧ d ≠ '&' := by
    intro d hd
    obtain ⟨h1, h2, h3⟩ := alnum d hd
    exact ⟨by simp [isNameChar, isAlphaNum, h1, hd], h2, h3⟩
  obtain ⟨c, s, rfl, hc, hs⟩ := h
  intro d hd
  rcases List.mem_cons.mp hd with rfl | hd
  · rcases hc with hc | rfl
    · exact an d (by simp [Char.isAlphanum, hc])
    · exact word _ (by simp)
  · rcases hs d hd with h | h | h
    · exact an d h
    · exact word d h
    · refine ⟨?_, encodeChar_plain (by omega), ne_of_toNat (by have : ('&' : Char).toNat = 38 := rfl; omega)⟩
      have : ¬ d.toNat < 127 := by omega
      simp [isNameChar, isAlphaNum, this]

theorem encode_name {n : Text} (h : IsName n) : encode n = n := by
  have hp := name_plain h
  rw [encode_flatMap]
  · clear h
    induction n with
    | nil => rfl
    | cons c n ih =>
      rw [List.flatMap_cons, ih (fun d hd => hp d (List.mem_cons_of_mem c hd)), (hp c (by simp)).2.1]; rfl
  · intro hi
    exact (hp '&' (hi.subset (by simp))).2.2 rfl

theorem name_first {c : Char} (hc : c.isAlpha = true ∨ c = '_') :
    isAlpha c = true ∨ c = '_' := by
  rcases hc with h | h
  · left
    unfold isAlpha
    split_ifs
    · exact h
    · rfl
  · exact Or.inr h

theorem name_first_range {c : Char} (hc : c.isAlpha = true ∨ c = '_') : 65 ≤ c.toNat ∧ c.toNat ≤ 122 := by
  rcases hc with hd | rfl
  · simp only [Char.isAlpha, Char.isUpper, Char.isLower, Bool.or_eq_true, decide_eq_true_eq,
      Bool.and_eq_true, ge_iff_le, UInt32.le_iff_toNat_le] at hd
    simp at hd
    omega
  · decide

theorem skip_stop (e : Encoding) {c : Char} (h1 : 33 ≤ c.toNat) (h2 : c.toNat < 128) (s : Text) : skip e (c :: s) = c :: s := by
  have hw := isWhite_high h1
  unfold skip
  split_ifs
  · apply skipUtf8_stop hw
    intro b d t _
    have : c.toNat ≠ 0xef := by omega
    simp [isMark, this]
  · simp [hw]

theorem takeWhile_name {n : Text} (h : IsName n) {d : Char} (hd : isNameChar d = false) (r : Text) :
    (n ++ d :: r).takeWhile isNameChar = n ∧ (n ++ d :: r).dropWhile isNameChar = d :: r := by
  have hp : ∀ x ∈ n, isNameChar x = true := fun x hx => (name_plain h x hx).1
  clear h
  induction n with
  | nil => simp [hd]
  | cons c n ih =>
    have := ih (fun x hx => hp x (List.mem_cons_of_mem c hx))
    simp [hp c (by simp), this]

theorem readName_name {n : Text} (h : IsName n) {d : Char} (hd : isNameChar d = false) (r : Text) :
    readName (n ++ d :: r) = some (n, d :: r) := by
  have ht := takeWhile_name h hd r
  obtain ⟨c, s, rfl, hc, hs⟩ := h
  rw [List.cons_append] at ht ⊢
  have h1 : (isAlpha c || c == '_') = true := by
    rcases name_first hc with h | h <;> simp [h]
  rw [readName, if_pos h1, ht.1, ht.2]

theorem printAttribute_parse (e : Encoding) (name value rest : Text) (hn : IsName name) (hr : NoReference value)
    (hw : WellEncoded e value) :
    parseAttribute e (printAttribute name value ++ rest) = .ok ⟨name, value, .inside rest, false⟩ := by
  have hv := chunks_of_wellEncoded hw
  have hnn : cString name = name := by
    have := cString_encode name
    rwa [← encode_flatMap (by
      intro hi
      exact (name_plain hn '&' (hi.subset (by simp))).2.2 rfl), encode_name hn] at this
  have key : ∀ q : Char, (q = '"' ∨ q = '\'') →
      parseAttribute e (name ++ '=' :: q :: (value.flatMap encodeChar ++ q :: rest)) = .ok ⟨name, value, .inside rest, false⟩ := by
    intro q hq
    have hname := readName_name hn (show isNameChar '=' = false by decide) (q :: (value.flatMap encodeChar ++ q :: rest))
    have hrest : readAttributeRest e name ('=' :: q :: (value.flatMap encodeChar ++ q :: rest)) =
        .ok ⟨name, value, .inside rest, false⟩ := by
      have hq1 : 33 ≤ q.toNat ∧ q.toNat < 128 := by rcases hq with rfl | rfl <;> decide
      unfold readAttributeRest
      rw [skipWhiteSpace, skip_stop e (by decide) (by decide)]
      simp only
      rw [skipWhiteSpace, skip_stop e hq1.1 hq1.2]
      simp only
      unfold readAttributeValue
      rcases hq with rfl | rfl
      · rw [if_neg (by decide), if_pos rfl, readText_encode hv '"' (by simp)]
      · rw [if_pos rfl, readText_encode hv '\'' (by simp)]
    obtain ⟨c, s, rfl, hc, hs⟩ := hn
    have hc1 := name_first_range hc
    rw [List.cons_append] at hname ⊢
    unfold parseAttribute
    rw [skipWhiteSpace, skip_stop e (by omega) (by omega)]
    simp only [hname]
    exact hrest
  unfold printAttribute
  rw [encode_name hn, encode_flatMap hr, cString_encode, hnn]
  split_ifs
  · have := key '\'' (by simp)
    simpa using this
  · have := key '"' (by simp)
    simpa using this

theorem parseText_encode (e : Encoding) (v rest : Text) (hr : NoReference v) (hw : WellEncoded e v)
    (hm : e = .utf8 → ∀ m ∈ marks, ¬ m <+: v.dropWhile (· = ' ')) :
    parseText e (cString (encode v) ++ '<' :: rest) = .ok (condensed v, .inside ('<' :: rest)) := by
  rw [encode_flatMap hr, cString_encode]
  have hv := chunks_dropWhile (chunks_of_wellEncoded hw)
  have h : readTextTrimmed e ['<'] (v.flatMap encodeChar ++ '<' :: rest) = .ok (condensed v, .inside rest) := by
    have hne : ∃ c s, v.flatMap encodeChar ++ '<' :: rest = c :: s := by
      cases hx : v.flatMap encodeChar ++ '<' :: rest with
      | nil => simp at hx
      | cons c s => exact ⟨c, s, rfl⟩
    obtain ⟨c, s, hcs⟩ := hne
    rw [hcs, readTextTrimmed, ← hcs, skip_encode e v rest hm, readTrim_encode hv]
    · simp [condense_condensed]
    · have := length_flatMap_encodeChar (v.dropWhile (· = ' '))
      simp only [List.length_append, List.length_cons]; omega
  unfold parseText
  rw [h]

theorem condense_self {v : Text} (h1 : v.getLast? ≠ some ' ') (h2 : ¬ [' ', ' '] <:+: v) :
    (v.head? ≠ some ' ' → condense false v = v) ∧
    (∀ w, v = ' ' :: w → w.head? ≠ some ' ' ∧ w ≠ [] ∧ condense true w = ' ' :: w) := by
  induction v with
  | nil => simp [condense]
  | cons c v ih =>
    by_cases hv : v = []
    · subst hv
      simp only [List.getLast?_singleton, ne_eq, Option.some.injEq] at h1
      constructor
      · intro _; simp [condense, h1]
      · intro w hw; simp only [List.cons.injEq] at hw; exact absurd hw.1 h1
    · have i1 : v.getLast? ≠ some ' ' := by
        obtain ⟨d, w, rfl⟩ := List.exists_cons_of_ne_nil hv
        simpa using h1
      obtain ⟨ih1, ih2⟩ := ih i1 (fun hi => h2 (hi.trans (List.suffix_cons c v).isInfix))
      constructor
      · intro hh
        have hc : c ≠ ' ' := by simpa using hh
        rw [condense, if_neg hc]
        obtain ⟨d, w, rfl⟩ := List.exists_cons_of_ne_nil hv
        by_cases hd : d = ' '
        · subst hd
          obtain ⟨-, -, h⟩ := ih2 w rfl
          rw [condense, if_pos rfl, h]; simp
        · rw [ih1 (by simpa using hd)]; simp
      · intro w hw
        simp only [List.cons.injEq] at hw
        obtain ⟨rfl, rfl⟩ := hw
        obtain ⟨d, w, rfl⟩ := List.exists_cons_of_ne_nil hv
        have hd : d ≠ ' ' := by
          rintro rfl
          exact h2 ⟨[], w, rfl⟩
        refine ⟨by simpa using hd, by simp, ?_⟩
        have := ih1 (by simpa using hd)
        rw [condense, if_neg hd] at this ⊢
        simp only [Bool.false_eq_true, if_false, List.nil_append, List.cons.injEq, true_and] at this
        rw [this]; simp

theorem follow_arith (n : ℕ) : followByte n = Char.ofNat (n % 64 + 128) := by
  have key : ∀ r, r < 256 → (r ||| 0x80) &&& 0xBF = r % 64 + 128 := by decide +kernel
  have h1 : (n ||| 0x80) &&& 0xBF = (n % 256 ||| 0x80) &&& 0xBF := by
    have hle : (n ||| 0x80) &&& 0xBF < 2 ^ 8 := lt_of_le_of_lt Nat.and_le_right (by norm_num)
    have := Nat.and_mod_two_pow (a := n ||| 0x80) (b := 0xBF) (n := 8)
    rw [Nat.mod_eq_of_lt hle, Nat.or_mod_two_pow] at this
    simpa using this
  unfold followByte toByte
  rw [h1, key _ (Nat.mod_lt _ (by norm_num))]
  congr 1
  omega

theorem convert_utf8 (c : Char) : convertUTF32ToUTF8 c.toNat = utf8Bytes c := by
  have hc : c.val.toNat < 0x110000 := by
    rcases c.valid with h | h
    · have h' : c.val.toNat < 0xd800 := h
      omega
    · exact h.2
  unfold utf8Bytes
  rw [String.utf8EncodeChar.eq_1]
  have hb : ∀ n, n < 256 → Char.ofNat (UInt8.ofNat n).toNat = Char.ofNat n := by
    intro n hn
    congr 1
    simp; omega
  have k2 : ∀ x, x < 32 → x ||| 0xC0 = x + 192 := by decide
  have k3 : ∀ x, x < 16 → x ||| 0xE0 = x + 224 := by decide
  have k4 : ∀ x, x < 8 → x ||| 0xF0 = x + 240 := by decide
  have hsh : ∀ n : ℕ, n >>> 6 = n / 64 := fun n => by rw [Nat.shiftRight_eq_div_pow]
  have htb : ∀ n, n < 256 → toByte n = Char.ofNat n := by
    intro n hn; unfold toByte; rw [Nat.mod_eq_of_lt hn]
  change convertUTF32ToUTF8 c.val.toNat = _
  generalize c.val.toNat = v at hc ⊢
  unfold convertUTF32ToUTF8
  simp only [follow_arith, hsh]
  split_ifs with h1 h1' h2 h2' h3 h3' h4 <;> first | omega | skip
  · simp only [List.map_cons, List.map_nil, Nat.or_zero]
    rw [htb v (by omega), hb v (by omega)]
  · simp only [List.map_cons, List.map_nil]
    rw [k2 _ (by omega), htb _ (by omega), hb _ (by omega), hb _ (by omega)]
    congr 2; omega
  · simp only [List.map_cons, List.map_nil]
    rw [k3 _ (by omega), htb _ (by omega), hb _ (by omega), hb _ (by omega), hb _ (by omega)]
    congr 2; omega
  · simp only [List.map_cons, List.map_nil]
    rw [k4 _ (by omega), htb _ (by omega), hb _ (by omega), hb _ (by omega), hb _ (by omega), hb _ (by omega)]
    congr 2
    · omega
    · congr 2; omega

/-- The value of the digits from the last one on. -/
def backValue (base : ℕ) : Text → ℕ
  | [] => 0
  | c :: cs => digitValue c + base * backValue base cs

theorem numeralValue_back (base : ℕ) (ds : Text) : numeralValue base ds = backValue base ds.reverse := by
  have key : ∀ (r : Text) (n : ℕ), (r.reverse).foldl (fun n c => n * base + digitValue c) n =
      n * base ^ r.length + backValue base r := by
    intro r
    induction r with
    | nil => intro n; simp [backValue]
    | cons c r ih =>
      intro n
      rw [List.reverse_cons, List.foldl_append, ih]
      simp only [List.foldl_cons, List.foldl_nil, backValue, List.length_cons]
      ring
  have := key ds.reverse 0
  rw [List.reverse_reverse] at this
  simpa [numeralValue] using this

theorem number_back (base : ℕ) (hb : 0 < base) (digit : Char → Option ℕ) (stop : Char) (r : Text) (ucs mult big : ℕ)
    (hr : ∀ c ∈ r, digit c = some (digitValue c) ∧ c ≠ stop) (hm : mult = big % 2 ^ 32) (hbig : big * backValue base r < 2 ^ 32) :
    number base digit stop r ucs mult = some (ucs + big * backValue base r) := by
  induction r generalizing ucs mult big with
  | nil => simp [number, backValue]
  | cons c r ih =>
    obtain ⟨h1, h2⟩ := hr c (by simp)
    rw [backValue] at hbig ⊢
    have hd : mult * digitValue c % 2 ^ 32 = big * digitValue c := by
      rw [hm, Nat.mod_mul_mod]
      apply Nat.mod_eq_of_lt
      nlinarith [Nat.zero_le (big * (base * backValue base r))]
    rw [number, if_neg h2, h1]
    simp only
    rw [ih _ _ (big * base) (fun x hx => hr x (List.mem_cons_of_mem c hx)) (by rw [hm, Nat.mod_mul_mod]) (by nlinarith), hd]
    congr 1; ring

theorem readKeep_reference (e : Encoding) (q : Char) (hq : q = '"' ∨ q = '\'') (t v rest : Text)
    (h : getEntity e ('&' :: (t ++ q :: rest)) = (v, .inside (q :: rest))) :
    readText e [q] ('&' :: (t ++ q :: rest)) = .ok (v, .inside rest) := by
  unfold readText
  have hl : ('&' :: (t ++ q :: rest)).length + 1 = (t ++ rest).length + 1 + 1 + 1 := by simp; omega
  rw [hl, readKeep, prefix_one (by rcases hq with rfl | rfl <;> decide), getChar_amp, h]
  simp [readKeep, List.isPrefixOf]

theorem numericEntity_back (e : Encoding) (base : ℕ) (hb : 0 < base) (digit : Char → Option ℕ) (stop : Char) (ds rest : Text)
    (hd : ∀ c ∈ ds, digit c = some (digitValue c) ∧ c ≠ stop ∧ c ≠ ';') (hv : numeralValue base ds < 2 ^ 32) :
    numericEntity e base digit stop (ds ++ ';' :: rest) = (fromCode e (numeralValue base ds), .inside rest) := by
  have h0 : ∀ c ∈ ds, decide (c ≠ ';') = true := fun c hc => by simpa using (hd c hc).2.2
  have e1 : (ds ++ ';' :: rest).dropWhile (· ≠ ';') = ';' :: rest := by
    rw [List.dropWhile_append_of_pos h0]; simp
  have e2 : (ds ++ ';' :: rest).takeWhile (· ≠ ';') = ds := by
    rw [List.takeWhile_append_of_pos h0]; simp
  rw [numeralValue_back] at hv ⊢
  have hn := number_back base hb digit stop ds.reverse 0 1 1 (fun c hc => by
    have := hd c (by simpa using hc); exact ⟨this.1, this.2.1⟩) (by norm_num) (by simpa using hv)
  unfold numericEntity
  rw [e1]
  simp only
  rw [e2, hn]
  simp

/-! ## Theorems -/

/-- **C92 (attributes).** What is written for an attribute is read back as the same name and value, and reading goes on right
behind it: for all names, and all values without the characters "&#x", in UTF-8 for all values that are UTF-8. -/
theorem C92_attribute (e : Encoding) (name value rest : Text) (hn : IsName name) (hr : NoReference value)
    (hw : WellEncoded e value) :
    parseAttribute e (printAttribute name value ++ rest) = .ok ⟨name, value, .inside rest, false⟩ :=
  printAttribute_parse e name value rest hn hr hw

/-- A case of `C92_attribute`: both kinds of quotes, a line break, a null character and a character of two bytes. -/
example : IsName "a-1".toList ∧ NoReference ['"', '\'', '\n', '\x00', '&', '<', Char.ofNat 0xc3, Char.ofNat 0xa4] ∧
    WellEncoded .utf8 ['"', '\'', '\n', '\x00', '&', '<', Char.ofNat 0xc3, Char.ofNat 0xa4] ∧
    printAttribute "a-1".toList ['"', '\'', '\n', '\x00', '&', '<', Char.ofNat 0xc3, Char.ofNat 0xa4] =
      "a-1='&quot;&apos;&#x0A;&#x00;&amp;&lt;".toList ++ [Char.ofNat 0xc3, Char.ofNat 0xa4, '\''] := by
  refine ⟨⟨'a', ['-', '1'], rfl, by decide, by decide⟩, by unfold NoReference; decide, fun _ => ⟨['"', '\'', '\n', '\x00', '&', '<', 'ä'], ?_⟩, ?_⟩
  · decide
  · decide

/-- **C92 (texts).** What is written for a text is read back as its words separated by single blanks. Line breaks and tabulators
inside of the text count as parts of words, for they are written as references. -/
theorem C92_text (e : Encoding) (v rest : Text) (hr : NoReference v) (hw : WellEncoded e v)
    (hm : e = .utf8 → ∀ m ∈ marks, ¬ m <+: v.dropWhile (· = ' ')) :
    parseText e (cString (encode v) ++ '<' :: rest) = .ok (condensed v, .inside ('<' :: rest)) :=
  parseText_encode e v rest hr hw hm

/-- **C92 (texts kept).** A text without blanks at its ends and without two blanks in a row is read back unchanged. -/
theorem C92_text_kept (e : Encoding) (v rest : Text) (hr : NoReference v) (hw : WellEncoded e v)
    (hm : e = .utf8 → ∀ m ∈ marks, ¬ m <+: v) (h1 : v.head? ≠ some ' ') (h2 : v.getLast? ≠ some ' ') (h3 : ¬ [' ', ' '] <:+: v) :
    parseText e (cString (encode v) ++ '<' :: rest) = .ok (v, .inside ('<' :: rest)) := by
  have hd : v.dropWhile (· = ' ') = v := by
    cases v with
    | nil => rfl
    | cons c v => simp only [List.head?_cons, ne_eq, Option.some.injEq] at h1; simp [h1]
  rw [C92_text e v rest hr hw (by rw [hd]; exact hm), ← condense_condensed, hd, (condense_self h2 h3).1 h1]

/-- Cases of `C92_text` and `C92_text_kept`. -/
example : condensed "  two   words ".toList = "two words".toList ∧
    parseText .unknown (cString (encode "  two   words ".toList) ++ "</a>".toList) = .ok ("two words".toList, .inside "</a>".toList) ∧
    parseText .legacy (cString (encode "x < 1\n& y".toList) ++ "</a>".toList) = .ok ("x < 1\n& y".toList, .inside "</a>".toList) := by
  refine ⟨by decide +kernel, by decide +kernel, by decide +kernel⟩

/-- **C92 (no markup inside).** Nothing in what is written for a value can be taken for markup: no angle brackets, no quotes and no
control characters; every '&' belongs to a reference. -/
theorem C92_safe (v : Text) (hr : NoReference v) :
    (∀ c ∈ encode v, c ∉ ['<', '>', '"', '\''] ∧ 32 ≤ c.toNat) ∧
    encode v = v.flatMap (fun c => if c ∈ ['&', '<', '>', '"', '\''] ∨ c.toNat < 32 then encodeChar c else [c]) ∧
    ∀ c, (c ∈ ['&', '<', '>', '"', '\''] ∨ c.toNat < 32) → ∃ t, encodeChar c = '&' :: t ++ [';'] ∧ '&' ∉ t := by
  have href : ∀ c : Char, (c ∈ ['&', '<', '>', '"', '\''] ∨ c.toNat < 32) →
      (∃ t, encodeChar c = '&' :: t ++ [';'] ∧ '&' ∉ t) ∧ ∀ x ∈ encodeChar c, x ∉ ['<', '>', '"', '\''] ∧ 32 ≤ x.toNat := by
    intro c hc
    unfold encodeChar
    split_ifs with a1 a2 a3 a4 a5 a6
    · exact ⟨⟨"amp".toList, by decide, by decide⟩, by decide⟩
    · exact ⟨⟨"lt".toList, by decide, by decide⟩, by decide⟩
    · exact ⟨⟨"gt".toList, by decide, by decide⟩, by decide⟩
    · exact ⟨⟨"quot".toList, by decide, by decide⟩, by decide⟩
    · exact ⟨⟨"apos".toList, by decide, by decide⟩, by decide⟩
    · have key : ∀ n, n < 16 → upperHex n ≠ '&' ∧ upperHex n ∉ ['<', '>', '"', '\''] ∧ 32 ≤ (upperHex n).toNat := by decide
      have k1 := key (c.toNat / 16) (by omega)
      have k2 := key (c.toNat % 16) (by omega)
      refine ⟨⟨['#', 'x', upperHex (c.toNat / 16), upperHex (c.toNat % 16)], by simp, ?_⟩, ?_⟩
      · simp only [List.mem_cons, List.not_mem_nil, or_false, not_or]
        exact ⟨by decide, by decide, Ne.symm k1.1, Ne.symm k2.1⟩
      · intro x hx
        simp only [List.mem_append, List.mem_cons, List.not_mem_nil, or_false] at hx
        rcases hx with hx | rfl | rfl | rfl
        · revert x; decide
        · exact k1.2
        · exact k2.2
        · decide
    · simp only [List.mem_cons, List.not_mem_nil, or_false] at hc
      tauto
  have hplain : ∀ c : Char, ¬ (c ∈ ['&', '<', '>', '"', '\''] ∨ c.toNat < 32) → encodeChar c = [c] := by
    intro c hc
    simp only [List.mem_cons, List.not_mem_nil, or_false, not_or] at hc
    unfold encodeChar
    simp [hc.1.1, hc.1.2.1, hc.1.2.2.1, hc.1.2.2.2.1, hc.1.2.2.2.2, Nat.not_lt.mp hc.2]
  rw [encode_flatMap hr]
  refine ⟨?_, ?_, fun c hc => (href c hc).1⟩
  · intro x hx
    obtain ⟨c, -, hc⟩ := List.mem_flatMap.mp hx
    by_cases h : c ∈ ['&', '<', '>', '"', '\''] ∨ c.toNat < 32
    · exact (href c h).2 x hc
    · rw [hplain c h, List.mem_singleton] at hc
      subst hc
      simp only [List.mem_cons, List.not_mem_nil, or_false, not_or] at h ⊢
      exact ⟨⟨h.1.2.1, h.1.2.2.1, h.1.2.2.2.1, h.1.2.2.2.2⟩, by omega⟩
  · congr 1
    funext c
    split_ifs with h
    · rfl
    · exact hplain c h

/-- A case of `C92_safe`. -/
example : NoReference "a<b & 'c'\t".toList ∧ encode "a<b & 'c'\t".toList = "a&lt;b &amp; &apos;c&apos;&#x09;".toList := by
  refine ⟨by unfold NoReference; decide, by decide⟩

theorem hexDigit_value : ∀ c ∈ "0123456789abcdefABCDEF".toList, hexDigit c = some (digitValue c) ∧ c ≠ 'x' ∧ c ≠ ';' := by decide

theorem decDigit_value : ∀ c ∈ "0123456789".toList, decDigit c = some (digitValue c) ∧ c ≠ '#' ∧ c ≠ ';' := by decide

theorem char_lt (c : Char) : c.toNat < 0x110000 := by
  rcases c.valid with h | h
  · have h' : c.toNat < 0xd800 := h
    omega
  · exact h.2

/-- **C92 (references to characters).** In UTF-8, a reference with the hexadecimal number of a Unicode character, in any notation, is
read as the UTF-8 form of this character. -/
theorem C92_hexadecimal (c : Char) (ds rest : Text) (hd : ∀ d ∈ ds, d ∈ "0123456789abcdefABCDEF".toList)
    (hv : numeralValue 16 ds = c.toNat) (q : Char) (hq : q = '"' ∨ q = '\'') :
    readText .utf8 [q] ("&#x".toList ++ ds ++ ";".toList ++ q :: rest) = .ok (utf8Bytes c, .inside rest) := by
  have h := numericEntity_back .utf8 16 (by norm_num) hexDigit 'x' ds (q :: rest) (fun d hx => hexDigit_value d (hd d hx))
    (by rw [hv]; have := char_lt c; omega)
  have h2 := readKeep_reference .utf8 q hq ('#' :: 'x' :: (ds ++ [';'])) (utf8Bytes c) rest (by
    rw [hv] at h
    simp only [List.cons_append, List.append_assoc, List.singleton_append, getEntity]
    rw [if_neg (by simp), List.nil_append, h, fromCode, if_pos rfl, convert_utf8])
  simpa using h2

/-- **C92 (references to characters).** The same for decimal numbers. -/
theorem C92_decimal (c : Char) (ds rest : Text) (hne : ds ≠ []) (hd : ∀ d ∈ ds, d ∈ "0123456789".toList)
    (hv : numeralValue 10 ds = c.toNat) (q : Char) (hq : q = '"' ∨ q = '\'') :
    readText .utf8 [q] ("&#".toList ++ ds ++ ";".toList ++ q :: rest) = .ok (utf8Bytes c, .inside rest) := by
  have h := numericEntity_back .utf8 10 (by norm_num) decDigit '#' ds (q :: rest) (fun d hx => decDigit_value d (hd d hx))
    (by rw [hv]; have := char_lt c; omega)
  have h2 := readKeep_reference .utf8 q hq ('#' :: (ds ++ [';'])) (utf8Bytes c) rest (by
    rw [hv] at h
    obtain ⟨d, ds, rfl⟩ := List.exists_cons_of_ne_nil hne
    have hx : d ≠ 'x' := by
      rintro rfl
      exact absurd (hd 'x' (by simp)) (by decide)
    simp only [List.cons_append, List.append_assoc, List.singleton_append, List.nil_append] at h ⊢
    rw [getEntity]
    · rw [h, fromCode, if_pos rfl, convert_utf8]
    · intro h3
      exact hx h3)
  simpa using h2

/-- Cases of `C92_hexadecimal` and `C92_decimal`: the euro sign. -/
example : numeralValue 16 "020aC".toList = '€'.toNat ∧ numeralValue 10 "8364".toList = '€'.toNat ∧
    utf8Bytes '€' = [Char.ofNat 0xe2, Char.ofNat 0x82, Char.ofNat 0xac] := by decide

/-- **C92 (refuted: values with "&#x").** A value that contains a hexadecimal reference is not read back: what is written is the
reference itself. -/
theorem C92_reference_refuted : ∃ v : Text, WellEncoded .utf8 v ∧
    parseAttribute .utf8 (printAttribute ['a'] v ++ ['>']) = .ok ⟨['a'], ['A'], .inside ['>'], false⟩ ∧ v ≠ ['A'] :=
  ⟨"&#x41;".toList, fun _ => ⟨"&#x41;".toList, by decide⟩, by decide, by decide⟩

/-- **C92 (refuted: escaping).** After the characters "&#x" nothing is escaped up to the next semicolon: markup gets into the file,
and what is written for such a value cannot be read. -/
theorem C92_escape_refuted : ∃ v : Text, WellEncoded .unknown v ∧
    printAttribute ['a'] v = "a=\"&#x<b>;\"".toList ∧
    parseAttribute .unknown (printAttribute ['a'] v ++ ['>']) = .ok ⟨['a'], [], .null, false⟩ :=
  ⟨"&#x<b>;".toList, fun h => (by cases h), by decide, by decide⟩

/-- **C92 (refuted: large numbers).** Hexadecimal digits beyond the eighth from the end do not count: a number that is no character is
read as another one. -/
theorem C92_wrap_refuted : numeralValue 16 "100000041".toList = 2 ^ 32 + 65 ∧
    readText .utf8 ['"'] "&#x100000041;\"".toList = .ok (['A'], .inside []) := by decide

theorem number_stop (base : ℕ) (digit : Char → Option ℕ) (stop : Char) (r junk : Text) (ucs mult : ℕ) (hr : stop ∉ r) (v : ℕ)
    (hv : number base digit stop r ucs mult = some v) : number base digit stop (r ++ stop :: junk) ucs mult = some v := by
  induction r generalizing ucs mult with
  | nil =>
    rw [number] at hv
    rw [List.nil_append, number, if_pos rfl]
    exact hv
  | cons c r ih =>
    have hc : c ≠ stop := fun h => hr (h ▸ List.mem_cons_self)
    rw [List.cons_append, number, if_neg hc]
    rw [number, if_neg hc] at hv
    cases hd : digit c with
    | none => rw [hd] at hv; exact absurd hv (by simp)
    | some d =>
      rw [hd] at hv
      exact ih _ _ (fun h => hr (List.mem_cons_of_mem _ h)) hv

/-- **C92 (refuted: malformed references).** Anything may stand between the `x` of a reference and another `x` before the digits: it is ignored
without an error. -/
theorem C92_malformed_refuted (c : Char) (junk ds rest : Text) (hj : ';' ∉ junk) (hd : ∀ d ∈ ds, d ∈ "0123456789abcdefABCDEF".toList)
    (hv : numeralValue 16 ds = c.toNat) (q : Char) (hq : q = '"' ∨ q = '\'') :
    readText .utf8 [q] ("&#x".toList ++ junk ++ "x".toList ++ ds ++ ";".toList ++ q :: rest) = .ok (utf8Bytes c, .inside rest) := by
  have hds : ∀ x ∈ ds, hexDigit x = some (digitValue x) ∧ x ≠ 'x' ∧ x ≠ ';' := fun x hx => hexDigit_value x (hd x hx)
  have hvlt : numeralValue 16 ds < 2 ^ 32 := by rw [hv]; have := char_lt c; omega
  have hback := hvlt
  rw [numeralValue_back] at hback
  have hn := number_back 16 (by norm_num) hexDigit 'x' ds.reverse 0 1 1 (fun x hx => by
    have := hds x (by simpa using hx); exact ⟨this.1, this.2.1⟩) (by norm_num) (by simpa using hback)
  have hn' := number_stop 16 hexDigit 'x' ds.reverse junk.reverse 0 1 (fun h => (hds 'x' (by simpa using h)).2.1 rfl) _ hn
  have h0 : ∀ x ∈ junk ++ 'x' :: ds, decide (x ≠ ';') = true := by
    intro x hx
    rcases List.mem_append.mp hx with h | h
    · simpa using fun e : x = ';' => hj (e ▸ h)
    · rcases List.mem_cons.mp h with rfl | h
      · decide
      · simpa using (hds x h).2.2
  have h : numericEntity .utf8 16 hexDigit 'x' (junk ++ 'x' :: ds ++ ';' :: (q :: rest)) = (utf8Bytes c, .inside (q :: rest)) := by
    have e1 : (junk ++ 'x' :: ds ++ ';' :: (q :: rest)).dropWhile (· ≠ ';') = ';' :: (q :: rest) := by
      rw [List.dropWhile_append_of_pos h0]; simp
    have e2 : (junk ++ 'x' :: ds ++ ';' :: (q :: rest)).takeWhile (· ≠ ';') = junk ++ 'x' :: ds := by
      rw [List.takeWhile_append_of_pos h0]; simp
    unfold numericEntity
    rw [e1]
    simp only
    have e3 : (junk ++ 'x' :: ds).reverse = ds.reverse ++ 'x' :: junk.reverse := by simp
    rw [e2, e3, hn']
    simp only [Nat.zero_add, one_mul]
    rw [← numeralValue_back, hv, fromCode, if_pos rfl, convert_utf8]
  have h2 := readKeep_reference .utf8 q hq ('#' :: 'x' :: (junk ++ 'x' :: ds ++ [';'])) (utf8Bytes c) rest (by
    simp only [List.cons_append, List.append_assoc, List.singleton_append, getEntity] at h ⊢
    rw [if_neg (by simp), List.nil_append, h])
  simpa using h2

/-- A case of `C92_malformed_refuted`. -/
example : ';' ∉ "no number, ".toList ∧ numeralValue 16 "41".toList = 'A'.toNat := by decide

/-- **C92 (refuted: other uses of '&').** An '&' that starts no known reference disappears without an error. -/
theorem C92_ampersand_refuted : parseAttribute .unknown "a=\"b & c &nbsp;\"".toList =
    .ok ⟨['a'], "b  c nbsp;".toList, .inside [], false⟩ := by decide

/-- **C92 (refuted: incomplete characters).** In UTF-8, an incomplete character at the end of a value takes the quote that follows
with it: the next attribute becomes part of the value, or memory behind the end of the text is read. -/
theorem C92_incomplete_refuted :
    parseAttribute .utf8 (printAttribute ['a'] [Char.ofNat 0xc3] ++ " b=\"c\">".toList) =
      .ok ⟨['a'], [Char.ofNat 0xc3, '"', ' ', 'b', '='], .inside "c\">".toList, false⟩ ∧
    parseAttribute .utf8 (printAttribute ['a'] [Char.ofNat 0xe2]) = .error .outside := by decide

end Ubitrack.Xml
