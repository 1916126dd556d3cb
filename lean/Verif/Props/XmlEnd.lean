import Verif.Props.XmlTree

/-!
# Reading an XML file ends: the bound on the number of steps in the model is never reached
-/

namespace Ubitrack.Xml

theorem skipUtf8_suffix (s : Text) : skipUtf8 s <:+ s := by
  induction s using skipUtf8.induct with
  | case1 a b c rest h ih => rw [skipUtf8, if_pos h]; exact ih.trans ⟨[a, b, c], rfl⟩
  | case2 a b c rest h h2 ih => rw [skipUtf8, if_neg h, if_pos h2]; exact ih.trans ⟨[a], rfl⟩
  | case3 a b c rest h h2 => rw [skipUtf8, if_neg h, if_neg h2]
  | case4 a b h ih => rw [skipUtf8, if_pos h]; exact ih.trans ⟨[a], rfl⟩
  | case5 a b h => rw [skipUtf8, if_neg h]
  | case6 a h => rw [skipUtf8, if_pos h]; exact List.nil_suffix
  | case7 a h => rw [skipUtf8, if_neg h]
  | case8 => simp [skipUtf8]

theorem skip_suffix (e : Encoding) (s : Text) : skip e s <:+ s := by
  unfold skip
  split_ifs
  · exact skipUtf8_suffix s
  · exact List.dropWhile_suffix isWhite

theorem skipUtf8_length (s : Text) : (skipUtf8 s).length ≤ s.length := (skipUtf8_suffix s).length_le

theorem skip_length (e : Encoding) (s : Text) : (skip e s).length ≤ s.length := (skip_suffix e s).length_le

/-- White space in front makes the rest shorter. -/
theorem skip_white_length (e : Encoding) {c : Char} (h : isWhite c = true) (s : Text) : (skip e (c :: s)).length ≤ s.length := by
  unfold skip
  split_ifs
  · match s with
    | [] => rw [skipUtf8, if_pos h]
    | [b] => rw [skipUtf8, if_pos h]; exact skipUtf8_length [b]
    | b :: d :: s =>
      rw [skipUtf8]
      split_ifs
      · have := skipUtf8_length s; simp only [List.length_cons]; omega
      · exact skipUtf8_length _
  · rw [List.dropWhile_cons_of_pos h]
    exact (List.dropWhile_suffix isWhite).length_le

/-- The number of characters that can still be read. -/
def Ptr.left : Ptr → ℕ
  | .inside s => s.length
  | _ => 0

theorem skipWhiteSpace_left (e : Encoding) (p q : Ptr) (h : skipWhiteSpace e p = .ok q) : q.left ≤ p.left := by
  match p with
  | .null => cases h; simp
  | .past _ => cases h
  | .inside [] => cases h; simp [Ptr.left]
  | .inside (c :: s) => cases h; exact skip_length e _

theorem skipWhiteSpace_fuel (e : Encoding) (p : Ptr) : skipWhiteSpace e p ≠ .error .fuel := by
  match p with
  | .null => simp [skipWhiteSpace]
  | .past _ => simp [skipWhiteSpace]
  | .inside [] => simp [skipWhiteSpace]
  | .inside (c :: s) => simp [skipWhiteSpace]

theorem numericEntity_left (e : Encoding) (base : ℕ) (digit : Char → Option ℕ) (stop : Char) (body : Text) :
    (numericEntity e base digit stop body).2.left ≤ body.length := by
  have hl := (List.dropWhile_suffix (p := fun x => decide (x ≠ ';')) (l := body)).length_le
  unfold numericEntity
  split
  · simp [Ptr.left]
  · rename_i x rest hx
    rw [hx] at hl
    split
    · simp [Ptr.left]
    · simp only [Ptr.left]; simp only [List.length_cons] at hl; omega

theorem namedEntity_left (s : Text) : (namedEntity s).2.left ≤ s.length - 1 := by
  unfold namedEntity
  split
  · rename_i n hn
    have hm := List.mem_of_find?_eq_some hn
    have : 1 ≤ n.1.length := by
      revert n
      simp only [entities, List.mem_cons, List.not_mem_nil, or_false]
      rintro n - (rfl | rfl | rfl | rfl | rfl) <;> decide
    simp only [Ptr.left, List.length_drop]; omega
  · simp [Ptr.left]

theorem getEntity_left (e : Encoding) (s : Text) : (getEntity e s).2.left ≤ s.length - 1 := by
  unfold getEntity
  split
  · rename_i c body
    split_ifs
    · simp [Ptr.left]
    · have := numericEntity_left e 16 hexDigit 'x' body
      simp only [List.length_cons]; omega
  · rename_i a c body _
    have := numericEntity_left e 10 decDigit '#' (c :: body)
    simp only [List.length_cons] at this ⊢; omega
  · exact namedEntity_left _

theorem getChar_left (e : Encoding) (c : Char) (s : Text) : (getChar e c s).2.left ≤ s.length := by
  unfold getChar
  split_ifs with h1 h2 h3
  · have : byteCount c ≠ 0 := by unfold byteCount; split_ifs <;> omega
    simp only [Ptr.left, List.length_drop, List.length_cons]; omega
  · simp [Ptr.left]
  · have := getEntity_left e (c :: s)
    simpa using this
  · simp [Ptr.left]

theorem readKeep_end (e : Encoding) (endTag : Text) (h0 : endTag ≠ []) : ∀ (f : ℕ) (text s : Text), s.length < f →
    readKeep e endTag f text s ≠ .error .fuel ∧ ∀ v p, readKeep e endTag f text s = .ok (v, p) → p.left ≤ s.length - 1 := by
  intro f
  induction f with
  | zero => intro text s h; omega
  | succ f ih =>
    intro text s h
    have hl : 1 ≤ endTag.length := by
      cases endTag with
      | nil => exact absurd rfl h0
      | cons a b => simp
    cases s with
    | nil =>
      rw [readKeep]
      refine ⟨by simp, ?_⟩
      intro v p hp
      cases hp
      simp [Ptr.left]
    | cons c s =>
      have hg := getChar_left e c s
      rw [readKeep]
      split_ifs with h1
      · refine ⟨by simp, ?_⟩
        intro v p hp
        cases hp
        simp only [Ptr.left, List.length_drop, List.length_cons]; omega
      · cases hq : getChar e c s with
        | mk v q =>
          rw [hq] at hg
          cases q with
          | null =>
            refine ⟨by simp, ?_⟩
            intro v p hp
            cases hp
            simp [Ptr.left]
          | past k => exact ⟨by simp, fun v p hp => by cases hp⟩
          | inside rest =>
            simp only [Ptr.left] at hg
            simp only [List.length_cons] at h
            obtain ⟨i1, i2⟩ := ih (text ++ v) rest (by omega)
            refine ⟨i1, ?_⟩
            intro v p hp
            have := i2 v p hp
            simp only [List.length_cons]; omega

theorem readTrim_end (e : Encoding) : ∀ (f : ℕ) (white : Bool) (text s : Text), s.length < f →
    readTrim e ['<'] f white text s ≠ .error .fuel ∧ ∀ v r, readTrim e ['<'] f white text s = .ok (v, .inside r) →
      r.length + 1 ≤ s.length ∧ (∀ c, s.head? = some c → c ≠ '<' → r.length + 2 ≤ s.length) := by
  intro f
  induction f with
  | zero => intro white text s h; omega
  | succ f ih =>
    intro white text s h
    cases s with
    | nil =>
      rw [readTrim]
      exact ⟨by simp, fun v p hp => by cases hp⟩
    | cons c s =>
      have hg := getChar_left e c s
      simp only [List.length_cons] at h
      rw [readTrim]
      by_cases h1 : ['<'].isPrefixOf (c :: s) = true
      · rw [if_pos h1]
        refine ⟨by simp, ?_⟩
        intro v p hp
        cases hp
        refine ⟨by simp, ?_⟩
        intro d hd hne
        simp only [List.head?_cons, Option.some.injEq] at hd
        subst hd
        rw [prefix_one hne] at h1
        cases h1
      rw [if_neg h1]
      by_cases h2 : isWhite c = true
      · rw [if_pos h2]
        obtain ⟨i1, i2⟩ := ih true text s (by omega)
        refine ⟨i1, ?_⟩
        intro v p hp
        have := (i2 v p hp).1
        simp only [List.length_cons]
        exact ⟨by omega, fun _ _ _ => by omega⟩
      · rw [if_neg h2]
        cases hq : getChar e c s with
        | mk v q =>
          rw [hq] at hg
          cases q with
          | null => exact ⟨by simp, fun v p hp => by cases hp⟩
          | past k => exact ⟨by simp, fun v p hp => by cases hp⟩
          | inside rest =>
            simp only [Ptr.left] at hg
            obtain ⟨i1, i2⟩ := ih false (text ++ (if white then [' '] else []) ++ v) rest (by omega)
            refine ⟨i1, ?_⟩
            intro v p hp
            have := (i2 v p hp).1
            simp only [List.length_cons]
            exact ⟨by omega, fun _ _ _ => by omega⟩

theorem readText_end (e : Encoding) (q : Char) (s : Text) : readText e [q] s ≠ .error .fuel ∧
    ∀ v p, readText e [q] s = .ok (v, p) → p.left ≤ s.length - 1 :=
  readKeep_end e [q] (by simp) _ [] s (by omega)

theorem parseText_end (e : Encoding) (c : Char) (hc : c ≠ '<') (s : Text) : parseText e (c :: s) ≠ .error .fuel ∧
    ∀ v p, parseText e (c :: s) = .ok (v, p) → p.left ≤ s.length := by
  have hl := skip_length e (c :: s)
  obtain ⟨i1, i2⟩ := readTrim_end e ((skip e (c :: s)).length + 1) false [] (skip e (c :: s)) (by omega)
  unfold parseText
  rw [readTextTrimmed]
  cases hr : readTrim e ['<'] ((skip e (c :: s)).length + 1) false [] (skip e (c :: s)) with
  | error x =>
    refine ⟨?_, fun v p hp => by cases hp⟩
    rintro hx
    cases hx
    exact i1 hr
  | ok vp =>
    obtain ⟨v, p⟩ := vp
    cases p with
    | null =>
      refine ⟨by simp, ?_⟩
      intro v p hp
      cases hp
      simp [Ptr.left]
    | past k =>
      refine ⟨by simp, ?_⟩
      intro v p hp
      cases hp
      simp [Ptr.left]
    | inside rest =>
      obtain ⟨j1, j2⟩ := i2 v rest hr
      refine ⟨by simp, ?_⟩
      intro v p hp
      cases hp
      simp only [Ptr.left, List.length_cons] at hl ⊢
      by_cases hs : (skip e (c :: s)).length = s.length + 1
      · have hsk : skip e (c :: s) = c :: s := (skip_suffix e (c :: s)).eq_of_length (by simpa using hs)
        have := j2 c (by rw [hsk]; rfl) hc
        omega
      · omega

theorem readUnquoted_left (value s : Text) : (readUnquoted value s).2.2.length ≤ s.length := by
  induction s generalizing value with
  | nil => simp [readUnquoted]
  | cons c s ih =>
    rw [readUnquoted]
    split_ifs
    · simp
    · simp
    · have := ih (value ++ [c])
      simp only [List.length_cons]; omega

theorem readAttributeValue_end (e : Encoding) (name : Text) (c : Char) (s : Text) :
    readAttributeValue e name c s ≠ .error .fuel ∧ ∀ a, readAttributeValue e name c s = .ok a → a.ptr.left ≤ s.length + 1 := by
  unfold readAttributeValue
  split_ifs with h1 h2
  · obtain ⟨i1, i2⟩ := readText_end e '\'' s
    cases hr : readText e ['\''] s with
    | error x => exact ⟨fun hx => by cases hx; exact i1 hr, fun a ha => by cases ha⟩
    | ok vp =>
      obtain ⟨v, p⟩ := vp
      refine ⟨by simp, ?_⟩
      intro a ha
      cases ha
      have := i2 v p hr
      simp only; omega
  · obtain ⟨i1, i2⟩ := readText_end e '"' s
    cases hr : readText e ['"'] s with
    | error x => exact ⟨fun hx => by cases hx; exact i1 hr, fun a ha => by cases ha⟩
    | ok vp =>
      obtain ⟨v, p⟩ := vp
      refine ⟨by simp, ?_⟩
      intro a ha
      cases ha
      have := i2 v p hr
      simp only; omega
  · have hu := readUnquoted_left [] (c :: s)
    rcases hr : readUnquoted [] (c :: s) with ⟨o, v, rest⟩
    rw [hr] at hu
    cases o with
    | none =>
      refine ⟨by simp, ?_⟩
      intro a ha
      cases ha
      simp [Ptr.left]
    | some w =>
      refine ⟨by simp, ?_⟩
      intro a ha
      cases ha
      simpa [Ptr.left] using hu

theorem readAttributeRest_end (e : Encoding) (name : Text) (s : Text) :
    readAttributeRest e name s ≠ .error .fuel ∧ ∀ a, readAttributeRest e name s = .ok a → a.ptr.left ≤ s.length := by
  have hw := skipWhiteSpace_fuel e (.inside s)
  unfold readAttributeRest
  split
  · rename_i f hf
    exact ⟨fun hx => by cases hx; exact hw hf, fun a ha => by cases ha⟩
  · rename_i t ht
    have h1 := skipWhiteSpace_left e _ _ ht
    have hw2 := skipWhiteSpace_fuel e (.inside t)
    split
    · rename_i f hf
      exact ⟨fun hx => by cases hx; exact hw2 hf, fun a ha => by cases ha⟩
    · rename_i c u hu
      have h2 := skipWhiteSpace_left e _ _ hu
      obtain ⟨i1, i2⟩ := readAttributeValue_end e name c u
      refine ⟨i1, ?_⟩
      intro a ha
      have := i2 a ha
      simp only [Ptr.left, List.length_cons] at h1 h2
      omega
    · refine ⟨by simp, ?_⟩
      intro a ha
      cases ha
      simp [Ptr.left]
  · refine ⟨by simp, ?_⟩
    intro a ha
    cases ha
    simp [Ptr.left]

theorem readName_left {c : Char} {s name rest : Text} (h : readName (c :: s) = some (name, rest)) : rest.length ≤ s.length := by
  rw [readName] at h
  split_ifs at h with hc
  cases h
  have : isNameChar c = true := by
    unfold isNameChar isAlphaNum
    unfold isAlpha at hc
    split_ifs at hc ⊢
    · have : c.isAlphanum = (c.isAlpha || c.isDigit) := rfl
      rw [this]
      revert hc
      cases c.isAlpha <;> cases c == '_' <;> simp
    · rfl
  rw [List.dropWhile_cons_of_pos this]
  exact (List.dropWhile_suffix isNameChar).length_le

theorem parseAttribute_end (e : Encoding) (s : Text) :
    parseAttribute e s ≠ .error .fuel ∧ ∀ a, parseAttribute e s = .ok a → a.ptr.left ≤ s.length - 1 := by
  have hw := skipWhiteSpace_fuel e (.inside s)
  unfold parseAttribute
  split
  · rename_i f hf
    exact ⟨fun hx => by cases hx; exact hw hf, fun a ha => by cases ha⟩
  · rename_i c t ht
    have h1 := skipWhiteSpace_left e _ _ ht
    simp only [Ptr.left, List.length_cons] at h1
    split
    · refine ⟨by simp, ?_⟩
      intro a ha
      cases ha
      simp [Ptr.left]
    · refine ⟨by simp, ?_⟩
      intro a ha
      cases ha
      simp [Ptr.left]
    · rename_i name d rest hn
      have h2 := readName_left hn
      obtain ⟨i1, i2⟩ := readAttributeRest_end e name (d :: rest)
      refine ⟨i1, ?_⟩
      intro a ha
      have := i2 a ha
      omega
  · refine ⟨by simp, ?_⟩
    intro a ha
    cases ha
    simp [Ptr.left]

theorem readRaw_left (endTag s : Text) : (readRaw endTag s).2.left ≤ s.length := by
  induction s with
  | nil => simp [readRaw, Ptr.left]
  | cons c s ih =>
    rw [readRaw]
    split_ifs
    · simp [Ptr.left]
    · simp only [List.length_cons]; omega

theorem parseDeclared_end (e : Encoding) : ∀ (f : ℕ) (v en st : Text) (p : Ptr), p.left < f →
    parseDeclared e f v en st p ≠ .error .fuel ∧ ∀ n q, parseDeclared e f v en st p = .ok (n, q) → q.left ≤ p.left := by
  intro f
  induction f with
  | zero => intro v en st p h; omega
  | succ f ih =>
    intro v en st p h
    match p, h with
    | .null, _ =>
      rw [parseDeclared]
      refine ⟨by simp, ?_⟩
      intro n q hq; cases hq; simp
    | .past k, _ =>
      rw [parseDeclared]
      exact ⟨by simp, fun n q hq => by cases hq⟩
    | .inside [], _ =>
      rw [parseDeclared]
      refine ⟨by simp, ?_⟩
      intro n q hq; cases hq; simp [Ptr.left]
    | .inside (c :: s), h =>
      simp only [Ptr.left, List.length_cons] at h
      have hsk := skip_length e (c :: s)
      simp only [List.length_cons] at hsk
      obtain ⟨a1, a2⟩ := parseAttribute_end e (skip e (c :: s))
      have step : ∀ (g : AttributeRead → Text × Text × Text),
          (match parseAttribute e (skip e (c :: s)) with
            | .error x => Except.error x
            | .ok a => parseDeclared e f (g a).1 (g a).2.1 (g a).2.2 a.ptr) ≠ .error .fuel ∧
          ∀ n q, (match parseAttribute e (skip e (c :: s)) with
            | .error x => Except.error x
            | .ok a => parseDeclared e f (g a).1 (g a).2.1 (g a).2.2 a.ptr) = .ok (n, q) → q.left ≤ (Ptr.inside (c :: s)).left := by
        intro g
        cases ha : parseAttribute e (skip e (c :: s)) with
        | error x => exact ⟨fun hx => by cases hx; exact a1 ha, fun n q hq => by cases hq⟩
        | ok a =>
          have hl := a2 a ha
          obtain ⟨i1, i2⟩ := ih (g a).1 (g a).2.1 (g a).2.2 a.ptr (by omega)
          refine ⟨i1, ?_⟩
          intro n q hq
          have := i2 n q hq
          have hl' : (Ptr.inside (c :: s)).left = s.length + 1 := rfl
          omega
      rw [parseDeclared]
      split_ifs with h1 h2 h3 h4
      · refine ⟨by simp, ?_⟩
        intro n q hq; cases hq; simp [Ptr.left]
      · exact step (fun a => (a.value, en, st))
      · exact step (fun a => (v, a.value, st))
      · exact step (fun a => (v, en, a.value))
      · have hd : ((skip e (c :: s)).dropWhile (fun d => d ≠ '>' && !isWhite d)).length ≤ s.length := by
          have hsuf := (List.dropWhile_suffix (p := fun d => decide (d ≠ '>') && !isWhite d) (l := skip e (c :: s))).length_le
          by_cases hs : (skip e (c :: s)).length = s.length + 1
          · have hsk : skip e (c :: s) = c :: s := (skip_suffix e (c :: s)).eq_of_length (by simpa using hs)
            have hw : isWhite c = false := by
              by_contra hw
              have := skip_white_length e (by simpa using hw : isWhite c = true) s
              omega
            rw [hsk, List.dropWhile_cons_of_pos (by simp [h1, hw])]
            exact (List.dropWhile_suffix _).length_le
          · omega
        obtain ⟨i1, i2⟩ := ih v en st (.inside ((skip e (c :: s)).dropWhile (fun d => d ≠ '>' && !isWhite d))) (by
          simp only [Ptr.left]; omega)
        refine ⟨i1, ?_⟩
        intro n q hq
        have := i2 n q hq
        simp only [Ptr.left, List.length_cons] at this ⊢
        omega

/-- All three mutually recursive functions come to an end within the bound, and go forward. -/
theorem parse_end : ∀ f : ℕ,
    (∀ (e : Encoding) (c : Char) (s : Text), 2 * s.length + 3 ≤ f → parseNode f e (c :: s) ≠ .error .fuel ∧
      ∀ n q errs, parseNode f e (c :: s) = .ok (n, q, errs) → q.left ≤ s.length) ∧
    (∀ (e : Encoding) (name : Text) (as : List (Text × Text)) (s : Text), 2 * s.length + 2 ≤ f →
      parseAttributes f e name as s ≠ .error .fuel ∧
      ∀ n q errs, parseAttributes f e name as s = .ok (n, q, errs) → q.left ≤ s.length) ∧
    (∀ (e : Encoding) (cs : List Node) (p : Ptr), 2 * p.left + 2 ≤ f → readValue f e cs p ≠ .error .fuel ∧
      ∀ n q errs, readValue f e cs p = .ok (n, q, errs) → q.left ≤ p.left) := by
  intro f
  induction f with
  | zero => exact ⟨fun e c s h => by omega, fun e name as s h => by omega, fun e cs p h => by omega⟩
  | succ f ih =>
    obtain ⟨ihN, ihA, ihV⟩ := ih
    refine ⟨?_, ?_, ?_⟩
    · intro e c s h
      rw [parseNode]
      split
      · obtain ⟨i1, i2⟩ := parseDeclared_end e ((c :: s).length + 1) [] [] [] (.inside ((c :: s).drop 5)) (by
          simp only [Ptr.left, List.length_drop, List.length_cons]; omega)
        split
        · rename_i x hx
          exact ⟨fun hy => by cases hy; exact i1 hx, fun n q errs hq => by cases hq⟩
        · rename_i n p hx
          refine ⟨by simp, ?_⟩
          intro n q errs hq
          cases hq
          have := i2 _ _ hx
          simp only [Ptr.left, List.length_drop, List.length_cons] at this ⊢; omega
      · refine ⟨by simp, ?_⟩
        intro n q errs hq
        have := readRaw_left "-->".toList ((c :: s).drop 4)
        cases hq
        simp only [List.length_drop, List.length_cons] at this; omega
      · refine ⟨by simp, ?_⟩
        intro n q errs hq
        have := readRaw_left "]]>".toList ((c :: s).drop 9)
        cases hq
        simp only [List.length_drop, List.length_cons] at this; omega
      · refine ⟨by simp, ?_⟩
        intro n q errs hq
        cases hq
        have := (List.dropWhile_suffix (p := fun x => decide (x ≠ '>')) (l := s)).length_le
        simp only [parseUnknown, Ptr.left, List.drop_succ_cons, List.drop_zero, List.length_drop]
        omega
      · have hw := skipWhiteSpace_fuel e (.inside ((c :: s).drop 1))
        split
        · rename_i x hx
          exact ⟨fun hy => by cases hy; exact hw hx, fun n q errs hq => by cases hq⟩
        · rename_i d t hx
          have hl := skipWhiteSpace_left e _ _ hx
          simp only [Ptr.left, List.drop_succ_cons, List.drop_zero, List.length_cons] at hl
          split
          · refine ⟨by simp, ?_⟩
            intro n q errs hq
            cases hq
            simp [Ptr.left]
          · refine ⟨by simp, ?_⟩
            intro n q errs hq
            cases hq
            simp [Ptr.left]
          · rename_i name d' rest hn
            have hl2 := readName_left hn
            obtain ⟨i1, i2⟩ := ihA e name [] (d' :: rest) (by omega)
            refine ⟨i1, ?_⟩
            intro n q errs hq
            have := i2 n q errs hq
            omega
        · refine ⟨by simp, ?_⟩
          intro n q errs hq
          cases hq
          simp [Ptr.left]
    · intro e name as s h
      have hl := skip_length e s
      rw [parseAttributes]
      split
      · refine ⟨by simp, ?_⟩
        intro n q errs hq
        cases hq
        simp [Ptr.left]
      · rename_i rest hx
        rw [hx] at hl
        refine ⟨by simp, ?_⟩
        intro n q errs hq
        cases hq
        simp only [Ptr.left, List.length_cons] at hl ⊢; omega
      · refine ⟨by simp, ?_⟩
        intro n q errs hq
        cases hq
        simp [Ptr.left]
      · rename_i t hx
        rw [hx] at hl
        simp only [List.length_cons] at hl
        obtain ⟨i1, i2⟩ := ihV e [] (.inside t) (by simp only [Ptr.left]; omega)
        split
        · rename_i x hy
          exact ⟨fun hz => by cases hz; exact i1 hy, fun n q errs hq => by cases hq⟩
        · exact ⟨by simp, fun n q errs hq => by cases hq⟩
        · refine ⟨by simp, ?_⟩
          intro n q errs hq
          cases hq
          simp [Ptr.left]
        · rename_i children u errs' hy
          have := i2 _ _ _ hy
          simp only [Ptr.left] at this
          split_ifs
          · refine ⟨by simp, ?_⟩
            intro n q errs hq
            cases hq
            simp only [Ptr.left, List.length_drop]; omega
          · refine ⟨by simp, ?_⟩
            intro n q errs hq
            cases hq
            simp [Ptr.left]
      · rename_i c t _ _ _ hx
        rw [hx] at hl
        simp only [List.length_cons] at hl
        obtain ⟨a1, a2⟩ := parseAttribute_end e (c :: t)
        split
        · rename_i x hy
          exact ⟨fun hz => by cases hz; exact a1 hy, fun n q errs hq => by cases hq⟩
        · rename_i a ha
          have hla := a2 a ha
          split
          · exact ⟨by simp, fun n q errs hq => by cases hq⟩
          · rename_i d rest hp
            rw [hp] at hla
            simp only [Ptr.left, List.length_cons] at hla
            split_ifs
            · refine ⟨by simp, ?_⟩
              intro n q errs hq
              cases hq
              simp [Ptr.left]
            · refine ⟨by simp, ?_⟩
              intro n q errs hq
              cases hq
              simp [Ptr.left]
            · obtain ⟨i1, i2⟩ := ihA e name (as ++ [(a.name, a.value)]) (d :: rest) (by simp only [List.length_cons]; omega)
              refine ⟨i1, ?_⟩
              intro n q errs hq
              have := i2 n q errs hq
              simp only [List.length_cons] at this
              omega
          · refine ⟨by simp, ?_⟩
            intro n q errs hq
            cases hq
            simp [Ptr.left]
    · intro e cs p h
      have hw := skipWhiteSpace_fuel e p
      rw [readValue]
      split
      · rename_i x hx
        exact ⟨fun hy => by cases hy; exact hw hx, fun n q errs hq => by cases hq⟩
      · exact ⟨by simp, fun n q errs hq => by cases hq⟩
      · refine ⟨by simp, ?_⟩
        intro n q errs hq
        cases hq
        simp [Ptr.left]
      · refine ⟨by simp, ?_⟩
        intro n q errs hq
        cases hq
        simp [Ptr.left]
      · rename_i c s hx
        have hl := skipWhiteSpace_left e _ _ hx
        have hl' : (Ptr.inside (c :: s)).left = s.length + 1 := rfl
        split_ifs with h1 h2
        · obtain ⟨t1, t2⟩ := parseText_end e c h1 s
          split
          · rename_i x hy
            exact ⟨fun hz => by cases hz; exact t1 hy, fun n q errs hq => by cases hq⟩
          · rename_i v p' hy
            have hp := t2 v p' hy
            obtain ⟨i1, i2⟩ := ihV e (if blank v then cs else cs ++ [.text false v]) p' (by omega)
            refine ⟨i1, ?_⟩
            intro n q errs hq
            have := i2 n q errs hq
            omega
        · refine ⟨by simp, ?_⟩
          intro n q errs hq
          cases hq
          exact hl
        · obtain ⟨n1, n2⟩ := ihN e c s (by omega)
          split
          · rename_i x hy
            exact ⟨fun hz => by cases hz; exact n1 hy, fun n q errs hq => by cases hq⟩
          · rename_i n p' errs' hy
            have hp := n2 _ _ _ hy
            obtain ⟨i1, i2⟩ := ihV e (cs ++ [n]) p' (by omega)
            split
            · rename_i x hz
              exact ⟨fun hz' => by cases hz'; exact i1 hz, fun n q errs hq => by cases hq⟩
            · rename_i children q' errs2 hz
              refine ⟨by simp, ?_⟩
              intro n q errs hq
              have := i2 _ _ _ hz
              cases hq
              omega

theorem parseNodes_end : ∀ (f : ℕ) (e : Encoding) (ns : List Node) (p : Ptr), 2 * p.left + 2 ≤ f →
    parseNodes f e ns p ≠ .error .fuel := by
  intro f
  induction f with
  | zero => intro e ns p h; omega
  | succ f ih =>
    intro e ns p h
    match p, h with
    | .null, _ => simp [parseNodes]
    | .past k, _ => simp [parseNodes]
    | .inside [], _ => simp [parseNodes]
    | .inside (c :: s), h =>
      have hl' : (Ptr.inside (c :: s)).left = s.length + 1 := rfl
      obtain ⟨n1, n2⟩ := (parse_end f).1 e c s (by omega)
      rw [parseNodes]
      split_ifs
      · simp
      · split
        · rename_i x hy
          exact fun hz => by cases hz; exact n1 hy
        · rename_i n p' errs hy
          have hp := n2 _ _ _ hy
          have hw := skipWhiteSpace_fuel (nextEncoding e n) p'
          split
          · rename_i x hz
            exact fun hz' => by cases hz'; exact hw hz
          · rename_i q hz
            have hq := skipWhiteSpace_left _ _ _ hz
            have := ih (nextEncoding e n) (ns ++ [n]) q (by omega)
            split
            · rename_i x hu
              exact fun hz' => by cases hz'; exact this hu
            · simp

/-- The bound on the number of steps is never reached. -/
theorem loadFile_end (contents : Text) : loadFile contents ≠ .error .fuel := by
  unfold loadFile
  split_ifs with h
  · simp
  · generalize normalize contents = s
    unfold parse
    split_ifs with h2
    · simp
    · simp only
      generalize (if byteOrderMark.isPrefixOf s = true then Encoding.utf8 else Encoding.unknown) = e
      have hw := skipWhiteSpace_fuel e (.inside s)
      split
      · rename_i x hx
        exact fun hz => by cases hz; exact hw hx
      · simp
      · rename_i p _ hx
        have hl := skipWhiteSpace_left e _ _ hx
        have hl' : (Ptr.inside s).left = s.length := rfl
        have hp := parseNodes_end (2 * s.length + 3) e [] p (by omega)
        revert hp
        generalize parseNodes (2 * s.length + 3) e [] p = r
        intro hp
        match r, hp with
        | .error x, hp => exact fun hz => by cases hz; exact hp rfl
        | .ok ([], errs), _ => simp [finishDocument]
        | .ok (n :: ns, errs), _ => simp [finishDocument]

end Ubitrack.Xml
