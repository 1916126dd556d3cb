import Verif.Spec.XmlStream
import Verif.Props.XmlPrinter

/-!
# C103: reading an XML document from a stream
-/

namespace Ubitrack.Xml

/-! ## Characters -/

theorem streamTo_stop (x : Char) (y : Text) : ∀ (tag s : Text), x ∉ y → '\x00' ∉ y →
    streamTo x tag (y ++ x :: s) = (tag ++ y, ⟨x :: s, true⟩, true) := by
  induction y with
  | nil => intro tag s _ _; simp [streamTo]
  | cons c y ih =>
    intro tag s h1 h2
    simp only [List.mem_cons, not_or] at h1 h2
    rw [List.cons_append, streamTo, if_neg (Ne.symm h1.1), if_neg (Ne.symm h2.1), ih _ _ h1.2 h2.2]
    simp

theorem streamWhiteSpace_stop (y : Text) : ∀ (tag : Text) (c : Char) (s : Text), Blanks y → isWhite c = false →
    streamWhiteSpace tag (y ++ c :: s) = (tag ++ y, ⟨c :: s, true⟩) := by
  induction y with
  | nil => intro tag c s _ h; simp [streamWhiteSpace, h]
  | cons d y ih =>
    intro tag c s h1 h2
    rw [List.cons_append, streamWhiteSpace, if_pos (h1 d (by simp)), ih _ _ _ (fun x hx => h1 x (List.mem_cons_of_mem d hx)) h2]
    simp

theorem throughGreater_stop (y : Text) : ∀ (tag s : Text), '>' ∉ y → '\x00' ∉ y →
    throughGreater tag (y ++ '>' :: s) = (tag ++ y ++ ['>'], ⟨s, true⟩, true) := by
  induction y with
  | nil => intro tag s _ _; simp [throughGreater]
  | cons c y ih =>
    intro tag s h1 h2
    simp only [List.mem_cons, not_or] at h1 h2
    rw [List.cons_append, throughGreater, if_neg (Ne.symm h2.1), if_neg (Ne.symm h1.1), ih _ _ h1.2 h2.2]
    simp

theorem readTag_stop (y : Text) : ∀ (tag s : Text), '>' ∉ y → '\x00' ∉ y →
    readTag tag (y ++ '>' :: s) = (tag ++ y, ⟨'>' :: s, true⟩) := by
  induction y with
  | nil => intro tag s _ _; simp [readTag]
  | cons c y ih =>
    intro tag s h1 h2
    simp only [List.mem_cons, not_or] at h1 h2
    rw [List.cons_append, readTag, if_neg (Ne.symm h1.1), if_neg (Ne.symm h2.1), ih _ _ h1.2 h2.2]
    simp

theorem streamText_plain (y : Text) : ∀ (tag s : Text), '<' ∉ y → '\x00' ∉ y →
    streamText false tag (y ++ '<' :: s) = (tag ++ y, ⟨'<' :: s, true⟩) := by
  induction y with
  | nil => intro tag s _ _; simp [streamText]
  | cons c y ih =>
    intro tag s h1 h2
    simp only [List.mem_cons, not_or] at h1 h2
    have : (!false && c == '<') = false := by simpa using Ne.symm h1.1
    rw [List.cons_append, streamText, this, if_neg (by decide), if_neg (Ne.symm h2.1), if_neg (by simp), ih _ _ h1.2 h2.2]
    simp

/-- The first place where the three characters end is the last. -/
theorem stop_unique {a b : Char} (hab : a ≠ b) (v : Text) : ∀ z : Text, ¬ [a, a, b] <:+: v → z ++ [a, a, b] <+: v ++ [a, a, b] → z = v := by
  induction v with
  | nil =>
    intro z _ h
    have := h.length_le
    simp only [List.length_append, List.length_cons, List.length_nil] at this
    exact List.length_eq_zero_iff.mp (by omega)
  | cons c v ih =>
    intro z hv h
    cases z with
    | nil =>
      exfalso
      rw [List.nil_append, List.cons_append] at h
      match v, hv with
      | [], _ =>
        simp only [List.nil_append, List.cons_prefix_cons, true_and] at h
        exact hab h.2.1.symm
      | [d], _ =>
        simp only [List.nil_append, List.cons_append, List.cons_prefix_cons] at h
        exact hab h.2.2.1.symm
      | d :: d' :: v, hv =>
        simp only [List.cons_append, List.cons_prefix_cons] at h
        obtain ⟨rfl, rfl, rfl, -⟩ := h
        exact hv ⟨[], v, rfl⟩
    | cons d z =>
      rw [List.cons_append, List.cons_append, List.cons_prefix_cons] at h
      rw [h.1, ih z (fun hi => hv (hi.trans (List.suffix_cons c v).isInfix)) h.2]

/-- A loop that ends where the tag ends with the mark. -/
theorem streamComment_stop (y : Text) : ∀ (tag s : Text), '\x00' ∉ y → y ≠ [] → "-->".toList <:+ tag ++ y →
    (∀ z, z <+: y → z ≠ [] → "-->".toList <:+ tag ++ z → z = y) → streamComment tag (y ++ s) = (tag ++ y, ⟨s, true⟩) := by
  induction y with
  | nil => intro tag s _ h; exact absurd rfl h
  | cons c y ih =>
    intro tag s h0 _ h1 h2
    simp only [List.mem_cons, not_or] at h0
    rw [List.cons_append, streamComment, if_neg (Ne.symm h0.1)]
    by_cases hy : y = []
    · subst hy
      rw [if_pos (by rw [List.isSuffixOf_iff_suffix]; exact h1)]
      rfl
    · rw [if_neg, ih (tag ++ [c]) s h0.2 hy (by simpa using h1)]
      · simp
      · intro z hz hne hs
        have := h2 (c :: z) (by rw [List.cons_prefix_cons]; exact ⟨rfl, hz⟩) (by simp) (by simpa using hs)
        injection this
      · rw [List.isSuffixOf_iff_suffix]
        intro hs
        have := h2 [c] (by simp) (by simp) hs
        injection this with _ h
        exact hy h.symm

theorem streamCData_stop (y : Text) : ∀ (tag s : Text), '\x00' ∉ y → y ≠ [] → "]]>".toList <:+ tag ++ y →
    (∀ z, z <+: y → z ≠ [] → "]]>".toList <:+ tag ++ z → z = y) → streamText true tag (y ++ s) = (tag ++ y, ⟨s, true⟩) := by
  induction y with
  | nil => intro tag s _ h; exact absurd rfl h
  | cons c y ih =>
    intro tag s h0 _ h1 h2
    simp only [List.mem_cons, not_or] at h0
    rw [List.cons_append, streamText, if_neg (by simp), if_neg (Ne.symm h0.1)]
    by_cases hy : y = []
    · subst hy
      rw [if_pos (by rw [Bool.true_and, List.isSuffixOf_iff_suffix]; exact h1)]
      rfl
    · rw [if_neg, ih (tag ++ [c]) s h0.2 hy (by simpa using h1)]
      · simp
      · intro z hz hne hs
        have := h2 (c :: z) (by rw [List.cons_prefix_cons]; exact ⟨rfl, hz⟩) (by simp) (by simpa using hs)
        injection this
      · rw [Bool.true_and, List.isSuffixOf_iff_suffix]
        intro hs
        have := h2 [c] (by simp) (by simp) hs
        injection this with _ h
        exact hy h.symm

/-! ## Tags -/

/-- Where a tag is cut: before its '>', or behind the beginning of CDATA. -/
def Cut (x z : Text) : Prop := '>' ∉ x ∧ (∃ t, x = '<' :: t) ∧ (z.head? = some '>' ∨ "<![CDATA[".toList <:+ x)

/-- The beginning of CDATA does not extend over a '<'. -/
theorem cdata_inside {tag x : Text} (h : "<![CDATA[".toList <:+ tag ++ '<' :: x) : "<![CDATA[".toList <:+ '<' :: x := by
  rcases List.suffix_or_suffix_of_suffix h (List.suffix_append tag ('<' :: x)) with h1 | h1
  · exact h1
  · obtain ⟨p, hp⟩ := h1
    cases p with
    | nil => rw [List.nil_append] at hp; rw [hp]
    | cons c p =>
      exfalso
      have : '<' ∈ "![CDATA[".toList := by
        have h2 : p ++ '<' :: x = "![CDATA[".toList := by injection hp
        rw [← h2]; simp
      exact absurd this (by decide)

theorem preRead_cut (tag s : Text) : ∀ (y x : Text) (first : Bool), '>' ∉ y → '\x00' ∉ y → (∃ t, x ++ y = '<' :: t) → '>' ∉ x →
    (first = true ∨ (y.dropWhile (fun c => c ∈ '<' :: whiteSpace)).head? ≠ some '/') →
    ∃ u v, y = u ++ v ∧ preRead (tag ++ x) false first (y ++ '>' :: s) = .found (tag ++ (x ++ u)) (v ++ '>' :: s) false ∧
      Cut (x ++ u) (v ++ '>' :: s) := by
  intro y
  induction y with
  | nil =>
    intro x first _ _ hx hx2 _
    refine ⟨[], [], rfl, by simp [preRead], ?_, ?_, Or.inl rfl⟩
    · simpa using hx2
    · simpa using hx
  | cons c y ih =>
    intro x first h1 h2 hx hx2 hf
    simp only [List.mem_cons, not_or] at h1 h2
    obtain ⟨t, ht⟩ := hx
    have hx' : ∃ k, x ++ [c] = '<' :: k := by
      cases x with
      | nil =>
        rw [List.nil_append] at ht
        injection ht with ht
        exact ⟨[], by rw [ht]; rfl⟩
      | cons d x =>
        rw [List.cons_append] at ht
        injection ht with ht
        exact ⟨x ++ [c], by rw [ht]; rfl⟩
    have hx2' : '>' ∉ x ++ [c] := by
      simp only [List.mem_append, List.mem_singleton, not_or]; exact ⟨hx2, h1.1⟩
    rw [List.cons_append, preRead, if_neg (Ne.symm h2.1), if_neg (Ne.symm h1.1)]
    by_cases hcd : (c == '[' && "<![CDATA[".toList.isSuffixOf (tag ++ x ++ [c])) = true
    · rw [if_pos hcd, if_neg (by decide)]
      refine ⟨[c], y, rfl, by simp, hx2', hx', Or.inr ?_⟩
      simp only [Bool.and_eq_true] at hcd
      have h3 := hcd.2
      rw [List.isSuffixOf_iff_suffix, List.append_assoc] at h3
      obtain ⟨k, hk⟩ := hx'
      rw [hk] at h3 ⊢
      exact cdata_inside h3
    · rw [if_neg hcd]
      have key : ∀ first' : Bool, (first' = true ∨ (y.dropWhile (fun c => c ∈ '<' :: whiteSpace)).head? ≠ some '/') →
          ∃ u v, c :: y = u ++ v ∧ preRead (tag ++ x ++ [c]) false first' (y ++ '>' :: s) = .found (tag ++ (x ++ u)) (v ++ '>' :: s) false ∧
            Cut (x ++ u) (v ++ '>' :: s) := by
        intro first' hf'
        obtain ⟨u, v, g1, g2, g3⟩ := ih (x ++ [c]) first' h1.2 h2.2 ⟨t, by simpa using ht⟩ hx2' hf'
        refine ⟨c :: u, v, by rw [g1]; rfl, ?_, ?_⟩
        · rw [List.append_assoc tag x [c], g2]; simp
        · simpa using g3
      by_cases hv : (!first && c ≠ '<' && !isWhite c) = true
      · rw [if_pos hv]
        simp only [Bool.and_eq_true, Bool.not_eq_true', decide_eq_true_eq, ne_eq] at hv
        have hne : c ≠ '/' := by
          rintro rfl
          rcases hf with hf | hf
          · rw [hv.1.1] at hf; cases hf
          · apply hf
            rw [List.dropWhile_cons_of_neg (by decide)]
            rfl
        have : (c == '/') = false := by simpa using hne
        rw [this]
        exact key true (Or.inl rfl)
      · rw [if_neg hv]
        apply key
        rcases hf with hf | hf
        · exact Or.inl hf
        · by_cases hfirst : first = true
          · exact Or.inl hfirst
          · right
            have hfirst : first = false := by simpa using hfirst
            rw [hfirst] at hv
            have hw : c ∈ '<' :: whiteSpace := by
              by_contra hw
              simp only [List.mem_cons, not_or] at hw
              apply hv
              have : isWhite c = false := by
                rw [Bool.eq_false_iff, ne_eq, isWhite_iff]
                simpa only [List.mem_cons] using hw.2
              simp [hw.1, this]
            rwa [List.dropWhile_cons_of_pos (by simpa using hw)] at hf

theorem preRead_closing (y : Text) : ∀ (tag s : Text), '>' ∉ y → '\x00' ∉ y → '[' ∉ y →
    preRead tag true true (y ++ '>' :: s) = .found (tag ++ y) ('>' :: s) true := by
  induction y with
  | nil => intro tag s _ _ _; simp [preRead]
  | cons c y ih =>
    intro tag s h1 h2 h3
    simp only [List.mem_cons, not_or] at h1 h2 h3
    have : (c == '[') = false := by simpa using Ne.symm h3.1
    rw [List.cons_append, preRead, if_neg (Ne.symm h2.1), if_neg (Ne.symm h1.1), this, if_neg (by simp), if_neg (by simp),
      ih _ _ h1.2 h2.2 h3.2]
    simp

/-- A tag is cut behind a beginning that has neither '>' nor '['. -/
theorem cut_prefix {x z p r : Text} (h : Cut x z) (hu : x ++ z = p ++ r) (hp : '>' ∉ p) (hb : '[' ∉ p) : ∃ q, x = p ++ q := by
  rcases List.prefix_or_prefix_of_prefix (List.prefix_append x z) (hu ▸ List.prefix_append p r) with h1 | h1
  · obtain ⟨q, hq⟩ := h1
    rcases h.2.2 with h2 | h2
    · cases q with
      | nil => exact ⟨[], by rw [← hq]; simp⟩
      | cons c q =>
        exfalso
        rw [← hq, List.append_assoc, List.append_cancel_left_eq] at hu
        rw [hu] at h2
        simp only [List.cons_append, List.head?_cons, Option.some.injEq] at h2
        apply hp
        rw [← hq, ← h2]; simp
    · exfalso
      apply hb
      rw [← hq, List.mem_append]
      exact Or.inl (h2.subset (by decide))
  · obtain ⟨q, hq⟩ := h1
    exact ⟨q, hq.symm⟩

/-- A tag is cut before the first '>'. -/
theorem cut_before {x z p r : Text} (h : Cut x z) (hu : x ++ z = p ++ '>' :: r) : ∃ q, p = x ++ q ∧ z = q ++ '>' :: r := by
  rcases List.prefix_or_prefix_of_prefix (List.prefix_append x z) (hu ▸ List.prefix_append p ('>' :: r)) with h1 | h1
  · obtain ⟨q, hq⟩ := h1
    refine ⟨q, hq.symm, ?_⟩
    rw [← hq, List.append_assoc, List.append_cancel_left_eq] at hu
    exact hu
  · obtain ⟨q, hq⟩ := h1
    cases q with
    | nil => 
      rw [List.append_nil] at hq
      refine ⟨[], by rw [hq]; simp, ?_⟩
      rw [← hq, List.append_cancel_left_eq] at hu
      exact hu
    | cons c q =>
      exfalso
      rw [← hq, List.append_assoc, List.append_cancel_left_eq, List.cons_append] at hu
      injection hu with hu
      apply h.1
      rw [← hq, hu]; simp

/-- The node is taken from the stream to its end, wherever its tag is cut. -/
def Streams (n : Node) (u : Text) : Prop :=
  ∀ x z, u = x ++ z → Cut x z → ∀ (tag rest : Text) (f : ℕ), u.length ≤ f →
    streamNode f (identify x) (tag ++ x) (z ++ rest) = .ok (tag ++ u, ⟨rest, true⟩) ∧ (identify x = .element ↔ n.IsElement)

theorem suffix_of_suffix_append {m p q : Text} (h : m <:+ p ++ q) (hl : m.length ≤ q.length) : m <:+ q := by
  rcases List.suffix_or_suffix_of_suffix h (List.suffix_append p q) with h1 | h1
  · exact h1
  · rw [h1.eq_of_length (le_antisymm h1.length_le hl)]

theorem stop_at {a b : Char} (hab : a ≠ b) {v x z : Text} (hv : ¬ [a, a, b] <:+: v) (hb : b ∉ x) (h : v ++ [a, a, b] = x ++ z) :
    z ≠ [] ∧ (∀ tag : Text, [a, a, b] <:+ tag ++ x ++ z) ∧
    (∀ tag w : Text, w <+: z → w ≠ [] → 3 ≤ x.length → [a, a, b] <:+ tag ++ x ++ w → w = z) := by
  refine ⟨?_, ?_, ?_⟩
  · rintro rfl
    rw [List.append_nil] at h
    apply hb
    rw [← h]; simp
  · intro tag
    rw [List.append_assoc, ← h]
    exact ⟨tag ++ v, by simp⟩
  · intro tag w hw _ hx hs
    rw [List.append_assoc] at hs
    obtain ⟨k, hk⟩ := suffix_of_suffix_append hs (by simp only [List.length_append, List.length_cons, List.length_nil]; omega)
    have h1 : k ++ [a, a, b] <+: v ++ [a, a, b] := by
      rw [hk, h, List.prefix_append_right_inj]
      exact hw
    have h2 := stop_unique hab v k hv h1
    rw [h2, h, List.append_cancel_left_eq] at hk
    exact hk.symm

theorem comment_streams (v : Text) (h : NoReturn v ∧ ¬ "-->".toList <:+: v) (hs : ¬ ['>'] <+: v ∧ ¬ ['-', '>'] <+: v) :
    Streams (.comment v) ("<!--".toList ++ v ++ "-->".toList) := by
  intro x z hu hc tag rest f hf
  obtain ⟨f, rfl⟩ : ∃ g, f = g + 1 := ⟨f - 1, by simp at hf; omega⟩
  obtain ⟨q, rfl⟩ := cut_prefix (p := "<!--".toList) (r := v ++ "-->".toList) hc (by rw [← hu]; simp) (by decide) (by decide)
  have hi : identify ("<!--".toList ++ q) = .comment := by rfl
  have hv : ¬ ['-', '-', '>'] <:+: "<!--".toList ++ v := by
    rintro ⟨a, b, hab⟩
    match a with
    | [] => simp at hab
    | [c] => simp at hab
    | [c, d] =>
      simp at hab
      exact hs.1 ⟨b, by rw [← hab.2.2]; rfl⟩
    | [c, d, e] =>
      simp at hab
      exact hs.2 ⟨b, by rw [← hab.2.2.2]; rfl⟩
    | c :: d :: e :: g :: a =>
      simp at hab
      exact h.2 ⟨a, b, by rw [← hab.2.2.2.2]; simp⟩
  obtain ⟨h1, h2, h3⟩ := stop_at (by decide) hv hc.1 hu
  rw [hi, streamNode, streamComment_stop z (tag ++ ("<!--".toList ++ q)) rest ?_ h1 (h2 tag) ?_, hu]
  · simp [Node.IsElement]
  · intro h0
    have : '\x00' ∈ "<!--".toList ++ v ++ "-->".toList := by rw [hu, List.mem_append]; exact Or.inr h0
    simp only [List.mem_append] at this
    rcases this with (h4 | h4) | h4
    · exact absurd h4 (by decide)
    · exact h.1.2 h4
    · exact absurd h4 (by decide)
  · intro w hw hne hs
    exact h3 tag w hw hne (by simp) hs

theorem cdata_streams (v : Text) (h : NoReturn v ∧ ¬ "]]>".toList <:+: v) :
    Streams (.text true v) ("<![CDATA[".toList ++ v ++ "]]>".toList) := by
  intro x z hu hc tag rest f hf
  obtain ⟨f, rfl⟩ : ∃ g, f = g + 1 := ⟨f - 1, by simp at hf; omega⟩
  have hx : ∃ q, x = "<![CDATA[".toList ++ q := by
    have hpre : "<![CDATA[".toList <+: x ++ z := by
      rw [← hu, List.append_assoc]; exact List.prefix_append _ _
    rcases List.prefix_or_prefix_of_prefix (List.prefix_append x z) hpre with h1 | h1
    · obtain ⟨q, hq⟩ := h1
      rcases hc.2.2 with h2 | h2
      · cases q with
        | nil => exact ⟨[], by rw [← hq]; simp⟩
        | cons c q =>
          exfalso
          rw [← hq, List.append_assoc, List.append_assoc, List.append_cancel_left_eq] at hu
          rw [← hu] at h2
          simp only [List.cons_append, List.head?_cons, Option.some.injEq] at h2
          have : '>' ∈ "<![CDATA[".toList := by rw [← hq, ← h2]; simp
          exact absurd this (by decide)
      · have h3 := h2.length_le
        have h4 := congrArg List.length hq
        simp only [List.length_append] at h4
        have h5 : q = [] := List.length_eq_zero_iff.mp (by omega)
        exact ⟨[], by rw [← hq, h5]; simp⟩
    · obtain ⟨q, hq⟩ := h1
      exact ⟨q, hq.symm⟩
  obtain ⟨q, rfl⟩ := hx
  have hi : identify ("<![CDATA[".toList ++ q) = .cdata := by rfl
  have hv : ¬ [']', ']', '>'] <:+: "<![CDATA[".toList ++ v := by
    rintro ⟨a, b, hab⟩
    match a with
    | [] => simp at hab
    | [_] => simp at hab
    | [_, _] => simp at hab
    | [_, _, _] => simp at hab
    | [_, _, _, _] => simp at hab
    | [_, _, _, _, _] => simp at hab
    | [_, _, _, _, _, _] => simp at hab
    | [_, _, _, _, _, _, _] => simp at hab
    | [_, _, _, _, _, _, _, _] => simp at hab
    | _ :: _ :: _ :: _ :: _ :: _ :: _ :: _ :: _ :: a =>
      simp at hab
      exact h.2 ⟨a, b, by rw [← hab.2.2.2.2.2.2.2.2.2]; simp⟩
  obtain ⟨h1, h2, h3⟩ := stop_at (by decide) hv hc.1 hu
  rw [hi, streamNode, streamCData_stop z (tag ++ ("<![CDATA[".toList ++ q)) rest ?_ h1 (h2 tag) ?_, hu]
  · simp [Node.IsElement]
  · intro h0
    have : '\x00' ∈ "<![CDATA[".toList ++ v ++ "]]>".toList := by rw [hu, List.mem_append]; exact Or.inr h0
    simp only [List.mem_append] at this
    rcases this with (h4 | h4) | h4
    · exact absurd h4 (by decide)
    · exact h.1.2 h4
    · exact absurd h4 (by decide)
  · intro w hw hne hs
    exact h3 tag w hw hne (by simp) hs

theorem identify_other' {v : Text} (h : IsOther v) : identify ('<' :: v) = .unknown := by
  obtain ⟨-, -, hh, h1, h2, h3⟩ := h
  have e1 : startsWithIgnoringCase "<?xml".toList ('<' :: v) = false := by
    rw [Bool.eq_false_iff]
    intro hp
    rw [startsWithIgnoringCase, List.isPrefixOf_iff_prefix] at hp
    have hp' : '<' :: "?xml".toList <+: '<' :: v.map Char.toLower := hp
    rw [List.cons_prefix_cons] at hp'
    exact h1 hp'.2
  have e2 : "<!--".toList.isPrefixOf ('<' :: v) = false := by
    rw [Bool.eq_false_iff]
    intro hp
    rw [List.isPrefixOf_iff_prefix] at hp
    have hp' : '<' :: "!--".toList <+: '<' :: v := hp
    rw [List.cons_prefix_cons] at hp'
    exact h2 hp'.2
  have e3 : "<![CDATA[".toList.isPrefixOf ('<' :: v) = false := by
    rw [Bool.eq_false_iff]
    intro hp
    rw [List.isPrefixOf_iff_prefix] at hp
    have hp' : '<' :: "![CDATA[".toList <+: '<' :: v := hp
    rw [List.cons_prefix_cons] at hp'
    exact h3 hp'.2
  unfold identify
  rw [e1, e2, e3]
  cases v with
  | nil => simp
  | cons c v =>
    obtain ⟨-, h4, h5, h6⟩ := hh c rfl
    have : (isAlpha c || c == '_') = false := by
      simp [isAlpha, h4, h5, h6]
    simp [this]

theorem isOther_prefix {p q : Text} (h : IsOther (p ++ q)) : IsOther p := by
  obtain ⟨h1, h2, h3, h4, h5, h6⟩ := h
  refine ⟨fun hm => h1 (List.mem_append_left q hm), ⟨fun hm => h2.1 (List.mem_append_left q hm), fun hm => h2.2 (List.mem_append_left q hm)⟩,
    ?_, ?_, fun hp => h5 (hp.trans (List.prefix_append p q)), fun hp => h6 (hp.trans (List.prefix_append p q))⟩
  · intro c hc
    apply h3
    cases p with
    | nil => simp at hc
    | cons d p => simpa using hc
  · intro hp
    apply h4
    rw [List.map_append]
    exact hp.trans (List.prefix_append _ _)

theorem unknown_streams (v : Text) (h : IsOther v) : Streams (.unknown v) (['<'] ++ v ++ ['>']) := by
  intro x z hu hc tag rest f hf
  obtain ⟨f, rfl⟩ : ∃ g, f = g + 1 := ⟨f - 1, by simp at hf; omega⟩
  obtain ⟨q, h1, rfl⟩ := cut_before (p := '<' :: v) (r := []) hc (by rw [← hu]; simp)
  obtain ⟨p, rfl⟩ := hc.2.1
  rw [List.cons_append] at h1
  injection h1 with _ h1
  subst h1
  have h2 := h.1
  have h3 := h.2.1.2
  simp only [List.mem_append, not_or] at h2 h3
  rw [identify_other' (isOther_prefix h), streamNode, List.append_assoc, List.cons_append, List.nil_append, throughGreater_stop q _ _ h2.2 h3.2]
  simp [Node.IsElement]

theorem declaration_streams (v en st : Text) (h1 : IsDeclared v) (h2 : IsDeclared en) (h3 : IsDeclared st)
    (h : '>' ∉ v ∧ '>' ∉ en ∧ '>' ∉ st) : Streams (.declaration v en st) (printDeclaration v en st) := by
  intro x z hu hc tag rest f hf
  have hpr : printDeclaration v en st = ("<?xml ".toList ++ printDeclared "version".toList v ++ printDeclared "encoding".toList en ++
      printDeclared "standalone".toList st ++ ['?']) ++ '>' :: [] := by
    unfold printDeclaration
    rw [show "?>".toList = ['?'] ++ ['>'] from rfl, ← List.append_assoc]
  obtain ⟨f, rfl⟩ : ∃ g, f = g + 1 := ⟨f - 1, by rw [hpr] at hf; simp at hf; omega⟩
  obtain ⟨q, hq⟩ := cut_prefix (p := "<?xml".toList) (r := ' ' :: (printDeclared "version".toList v ++ printDeclared "encoding".toList en ++
      printDeclared "standalone".toList st ++ "?>".toList)) hc (by
    rw [← hu]; unfold printDeclaration; simp) (by decide) (by decide)
  have hi : identify x = .declaration := by rw [hq]; rfl
  obtain ⟨k, hk1, hk2⟩ := cut_before (p := "<?xml ".toList ++ printDeclared "version".toList v ++ printDeclared "encoding".toList en ++
      printDeclared "standalone".toList st ++ ['?']) (r := []) hc (by rw [← hu, hpr])
  have hd : ∀ {n w : Text}, '>' ∉ n → '\x00' ∉ n → IsDeclared w → '>' ∉ w → '>' ∉ printDeclared n w ∧ '\x00' ∉ printDeclared n w := by
    intro n w g1 g2 g3 g4
    have g5 : '\x00' ∉ w := fun hm => absurd (g3 _ hm).1 (by decide)
    have g6 : ∀ c, c ∈ cString w → c ∈ w := fun c hc => (List.takeWhile_prefix _).subset hc
    unfold printDeclared
    split_ifs
    · simp
    · simp only [List.mem_append, not_or]
      exact ⟨⟨⟨⟨g1, by decide⟩, fun hm => g4 (g6 _ hm)⟩, by decide⟩, ⟨⟨⟨g2, by decide⟩, fun hm => g5 (g6 _ hm)⟩, by decide⟩⟩
  have d1 := hd (n := "version".toList) (by decide) (by decide) h1 h.1
  have d2 := hd (n := "encoding".toList) (by decide) (by decide) h2 h.2.1
  have d3 := hd (n := "standalone".toList) (by decide) (by decide) h3 h.2.2
  have hk : '>' ∉ k ∧ '\x00' ∉ k := by
    have hsub : ∀ c, c ∈ k → c ∈ "<?xml ".toList ++ printDeclared "version".toList v ++ printDeclared "encoding".toList en ++
      printDeclared "standalone".toList st ++ ['?'] := fun c hc => by rw [hk1, List.mem_append]; exact Or.inr hc
    constructor
    · intro hm
      have := hsub _ hm
      simp only [List.mem_append] at this
      rcases this with (((g | g) | g) | g) | g
      · exact absurd g (by decide)
      · exact d1.1 g
      · exact d2.1 g
      · exact d3.1 g
      · exact absurd g (by decide)
    · intro hm
      have := hsub _ hm
      simp only [List.mem_append] at this
      rcases this with (((g | g) | g) | g) | g
      · exact absurd g (by decide)
      · exact d1.2 g
      · exact d2.2 g
      · exact d3.2 g
      · exact absurd g (by decide)
  rw [hi, streamNode, hk2, List.append_assoc, List.cons_append, List.nil_append, throughGreater_stop k _ _ hk.1 hk.2, hpr, hk1]
  simp [Node.IsElement]

/-! ## No null characters -/

theorem noNull_white {w : Text} (h : IsWhite w) : '\x00' ∉ w ∧ '>' ∉ w ∧ '<' ∉ w ∧ '/' ∉ w := by
  refine ⟨?_, ?_, ?_, ?_⟩ <;> intro hm <;> exact absurd (h _ hm) (by decide)

theorem noNull_encode {v : Text} (h : NoReference v) : '\x00' ∉ encode v ∧ '>' ∉ encode v ∧ '<' ∉ encode v := by
  refine ⟨(noReturn_encoded h).2, ?_, ?_⟩
  · intro hm
    exact absurd ((C92_safe v h).1 _ hm).1 (by decide)
  · intro hm
    exact absurd ((C92_safe v h).1 _ hm).1 (by decide)

theorem noNull_name {n : Text} (h : IsName n) : '\x00' ∉ n ∧ '>' ∉ n ∧ '<' ∉ n ∧ '/' ∉ n ∧ '[' ∉ n := by
  refine ⟨?_, ?_, ?_, ?_, ?_⟩ <;> intro hm <;> exact absurd (name_plain h _ hm).1 (by decide)

theorem noNull_attribute {a : Text × Text} (h1 : IsName a.1) (h2 : NoReference a.2) {t : Text} (ht : AttributeText a t) :
    '\x00' ∉ t ∧ '>' ∉ t := by
  obtain ⟨v, w, q, g1, g2, hq, rfl⟩ := ht
  have n1 := noNull_name h1
  have n2 := noNull_encode h2
  have n3 := noNull_white g1
  have n4 := noNull_white g2
  simp only [List.mem_append, List.mem_singleton, not_or]
  rcases hq with rfl | rfl
  · exact ⟨⟨⟨⟨⟨⟨⟨n1.1, n3.1⟩, by decide⟩, n4.1⟩, by decide⟩, n2.1⟩, by decide⟩,
      ⟨⟨⟨⟨⟨⟨n1.2.1, n3.2.1⟩, by decide⟩, n4.2.1⟩, by decide⟩, n2.2.1⟩, by decide⟩⟩
  · exact ⟨⟨⟨⟨⟨⟨⟨n1.1, n3.1⟩, by decide⟩, n4.1⟩, by decide⟩, n2.1⟩, by decide⟩,
      ⟨⟨⟨⟨⟨⟨n1.2.1, n3.2.1⟩, by decide⟩, n4.2.1⟩, by decide⟩, n2.2.1⟩, by decide⟩⟩

theorem noNull_attributes {e : Encoding} : ∀ {as : List (Text × Text)} {t : Text},
    (∀ a ∈ as, IsName a.1 ∧ NoReference a.2 ∧ WellEncoded e a.2) → AttributesText as t → '\x00' ∉ t ∧ '>' ∉ t := by
  intro as
  induction as with
  | nil =>
    intro t _ ht
    have : t = [] := ht
    subst this
    simp
  | cons a as ih =>
    rintro t ha ⟨w, u, s, h1, -, h3, h4, rfl⟩
    obtain ⟨g1, g2, -⟩ := ha a (by simp)
    have n1 := noNull_white h1
    have n2 := noNull_attribute g1 g2 h3
    have n3 := ih (fun b hb => ha b (List.mem_cons_of_mem a hb)) h4
    simp only [List.mem_append, not_or]
    exact ⟨⟨⟨n1.1, n2.1⟩, n3.1⟩, ⟨n1.2.1, n2.2⟩, n3.2⟩

theorem attributes_end : ∀ {as : List (Text × Text)} {t : Text}, AttributesText as t → t = [] ∨ ∃ k q, t = k ++ [q] ∧ q ≠ '/' := by
  intro as
  induction as with
  | nil => intro t ht; exact Or.inl ht
  | cons a as ih =>
    rintro t ⟨w, u, s, -, -, ⟨v, w', q, -, -, hq, rfl⟩, h4, rfl⟩
    right
    rcases ih h4 with rfl | ⟨k, q', rfl, hq'⟩
    · exact ⟨_, q, by rw [List.append_nil, ← List.append_assoc], by rcases hq with rfl | rfl <;> decide⟩
    · exact ⟨_, q', by rw [← List.append_assoc], hq'⟩

/-- The start tag of an element with content does not end with '/'. -/
theorem start_end {name a w : Text} {as : List (Text × Text)} (hn : IsName name) (ha : AttributesText as a) (hw : IsWhite w) :
    ¬ "/>".toList <:+ ('<' :: (name ++ a ++ w)) ++ ['>'] := by
  intro h
  have key : ∃ k q, '<' :: (name ++ a ++ w) = k ++ [q] ∧ q ≠ '/' := by
    rcases List.eq_nil_or_concat w with rfl | ⟨w, q, rfl⟩
    · rcases attributes_end ha with rfl | ⟨k, q, rfl, hq⟩
      · have h1 := (noNull_name hn).2.2.2.1
        obtain ⟨c, s, rfl, -⟩ := hn
        rcases List.eq_nil_or_concat (c :: s) with h2 | ⟨k, q, h2⟩
        · cases h2
        · rw [h2] at h1 ⊢
          refine ⟨'<' :: k, q, by simp, ?_⟩
          rintro rfl
          simp at h1
      · exact ⟨'<' :: (name ++ k), q, by simp, hq⟩
    · refine ⟨'<' :: (name ++ a ++ w), q, by simp, ?_⟩
      rintro rfl
      exact (noNull_white hw).2.2.2 (by simp)
  obtain ⟨k, q, hk, hq⟩ := key
  obtain ⟨p, hp⟩ := h
  rw [hk] at hp
  have hp' : p ++ ['/'] ++ ['>'] = k ++ [q] ++ ['>'] := by rw [← hp]; simp
  have h1 := (List.append_inj' hp' rfl).1
  have h2 := (List.append_inj' h1 rfl).2
  injection h2 with h2
  exact hq h2.symm

mutual
theorem noNull_node (e : Encoding) : ∀ (n : Node) (t : Text), WellFormed e n → NodeText n t → '\x00' ∉ t
  | .comment v, t, h, ht => by
    have h : NoReturn v ∧ ¬ "-->".toList <:+: v := by simpa only [WellFormed] using h
    rw [NodeText] at ht
    rw [ht]
    simp only [List.mem_append, not_or]
    exact ⟨⟨by decide, h.1.2⟩, by decide⟩
  | .unknown v, t, h, ht => by
    have h : IsOther v := by simpa only [WellFormed] using h
    rw [NodeText] at ht
    rw [ht]
    simp only [List.mem_append, not_or]
    exact ⟨⟨by decide, h.2.1.2⟩, by decide⟩
  | .text true v, t, h, ht => by
    have h : NoReturn v ∧ ¬ "]]>".toList <:+: v := by simpa only [WellFormed] using h
    rw [NodeText] at ht
    rw [ht]
    simp only [List.mem_append, not_or]
    exact ⟨⟨by decide, h.1.2⟩, by decide⟩
  | .text false v, t, h, ht => by
    have h : IsPlainText e v := by simpa only [WellFormed] using h
    rw [NodeText] at ht
    rw [ht]
    exact (noNull_encode h.1).1
  | .declaration _ _ _, _, h, _ => by simp [WellFormed] at h
  | .element name attributes children, t, h, ht => by
    rw [WellFormed] at h
    obtain ⟨h1, h2, h3, h4, h5⟩ := h
    rw [NodeText] at ht
    obtain ⟨a, w, ha, hw, ⟨hc, rfl⟩ | ⟨b, hb, rfl⟩⟩ := ht
    · simp only [List.mem_append, not_or]
      exact ⟨⟨⟨⟨by decide, (noNull_name h1).1⟩, (noNull_attributes h2 ha).1⟩, (noNull_white hw).1⟩, by decide⟩
    · have := noNull_nodes e children b h4 hb
      simp only [List.mem_append, not_or]
      exact ⟨⟨⟨⟨⟨⟨⟨⟨by decide, (noNull_name h1).1⟩, (noNull_attributes h2 ha).1⟩, (noNull_white hw).1⟩, by decide⟩, this⟩, by decide⟩,
        (noNull_name h1).1⟩, by decide⟩
theorem noNull_nodes (e : Encoding) : ∀ (ns : List Node) (t : Text), WellFormedAll e ns → NodesText ns t → '\x00' ∉ t
  | [], t, _, ht => by
    rw [NodesText] at ht
    exact (noNull_white ht).1
  | n :: ns, t, h, ht => by
    rw [WellFormedAll] at h
    rw [NodesText] at ht
    obtain ⟨w, u, s, hw, hu, hs, rfl⟩ := ht
    have k1 := noNull_node e n u h.1 hu
    have k2 := noNull_nodes e ns s h.2 hs
    simp only [List.mem_append, not_or]
    exact ⟨⟨(noNull_white hw).1, k1⟩, k2⟩
end

/-! ## Elements -/

/-- Up to the first '>', the text of a node does not look like an end tag. -/
theorem node_tag (e : Encoding) {n : Node} {u : Text} (h : WellFormed e n) (hs : Streamable n) (hp : ¬ n.IsPlain) (hu : NodeText n u) :
    ∃ y r, u = y ++ '>' :: r ∧ '>' ∉ y ∧ '\x00' ∉ y ∧ (∃ t, y = '<' :: t) ∧
      (y.dropWhile (fun c => c ∈ '<' :: whiteSpace)).head? ≠ some '/' := by
  have h0 := noNull_node e n u h hu
  have key : ∀ (c : Char) (k : Text), u = '<' :: c :: k → c ∉ '/' :: '>' :: '<' :: whiteSpace → '>' ∈ u →
      ∃ y r, u = y ++ '>' :: r ∧ '>' ∉ y ∧ '\x00' ∉ y ∧ (∃ t, y = '<' :: t) ∧
        (y.dropWhile (fun c => c ∈ '<' :: whiteSpace)).head? ≠ some '/' := by
    intro c k hk hc hm
    obtain ⟨y, r, h1, h2⟩ := List.eq_append_cons_of_mem hm
    refine ⟨y, r, h1, h2, fun h3 => h0 (by rw [h1, List.mem_append]; exact Or.inl h3), ?_⟩
    rw [hk] at h1
    match y, h1, h2 with
    | [], h1, _ => simp at h1
    | [d], h1, _ =>
      simp only [List.cons_append, List.nil_append, List.cons.injEq] at h1
      exact absurd (by rw [h1.2.1]; decide) hc
    | d :: d' :: y, h1, _ =>
      simp only [List.cons_append, List.cons.injEq] at h1
      obtain ⟨rfl, rfl, -⟩ := h1
      refine ⟨⟨_, rfl⟩, ?_⟩
      have hc1 : c ∉ '<' :: whiteSpace := fun hx => hc (List.mem_cons_of_mem _ (List.mem_cons_of_mem _ hx))
      have hc2 : c ≠ '/' := by rintro rfl; exact hc (by simp)
      rw [List.dropWhile_cons_of_pos (by decide), List.dropWhile_cons_of_neg (by simpa using hc1)]
      simpa using hc2
  cases n with
  | element name as cs =>
    rw [WellFormed] at h
    rw [NodeText] at hu
    obtain ⟨c, s, hname, hc, -⟩ := h.1
    have hr := name_first_range hc
    have hc' : c ∉ '/' :: '>' :: '<' :: whiteSpace := by
      intro hm
      have : c.toNat < 65 := by
        have key : ∀ d ∈ '/' :: '>' :: '<' :: whiteSpace, d.toNat < 65 := by decide
        exact key c hm
      omega
    obtain ⟨a, w, ha, hw, ⟨-, rfl⟩ | ⟨b, hb, rfl⟩⟩ := hu
    · exact key c (s ++ a ++ w ++ "/>".toList) (by rw [hname]; simp) hc' (by simp)
    · exact key c (s ++ a ++ w ++ ['>'] ++ b ++ "</".toList ++ name ++ ['>']) (by rw [hname]; simp) hc' (by simp)
  | text b v =>
    cases b with
    | false => exact absurd trivial hp
    | true =>
      rw [NodeText] at hu
      exact key '!' ("[CDATA[".toList ++ v ++ "]]>".toList) (by rw [hu]; rfl) (by decide) (by rw [hu]; simp)
  | comment v =>
    rw [NodeText] at hu
    exact key '!' ("--".toList ++ v ++ "-->".toList) (by rw [hu]; rfl) (by decide) (by rw [hu]; simp)
  | unknown v =>
    have h : IsOther v := by simpa only [WellFormed] using h
    rw [Streamable] at hs
    rw [NodeText] at hu
    refine ⟨'<' :: v, [], by rw [hu]; simp, ?_, ?_, ⟨v, rfl⟩, ?_⟩
    · simpa using h.1
    · simpa using h.2.1.2
    · rw [List.dropWhile_cons_of_pos (by decide)]
      exact hs
  | declaration a b c => simp [WellFormed] at h

theorem streamChildren_lead (f : ℕ) (tag : Text) {w : Text} (hw : Blanks w) (k : Text) :
    streamChildren f tag ⟨w ++ '<' :: k, true⟩ = streamChildren f (tag ++ w) ⟨'<' :: k, true⟩ := by
  cases f with
  | zero => rw [streamChildren, streamChildren]
  | succ f =>
    have h1 := streamWhiteSpace_stop w tag '<' k hw (by decide)
    have h2 := streamWhiteSpace_stop [] (tag ++ w) '<' k (by simp [Blanks]) (by decide)
    rw [List.nil_append, List.append_nil] at h2
    rw [streamChildren, streamChildren]
    simp only [if_true, h1, h2]

mutual
theorem node_streams (e : Encoding) : ∀ (n : Node) (u : Text), WellFormed e n → Streamable n → ¬ n.IsPlain → NodeText n u → Streams n u
  | .comment v, u, h, hs, _, ht => by
    have h : NoReturn v ∧ ¬ "-->".toList <:+: v := by simpa only [WellFormed] using h
    rw [Streamable] at hs
    rw [NodeText] at ht
    rw [ht]
    exact comment_streams v h hs
  | .unknown v, u, h, _, _, ht => by
    have h : IsOther v := by simpa only [WellFormed] using h
    rw [NodeText] at ht
    rw [ht]
    exact unknown_streams v h
  | .text true v, u, h, _, _, ht => by
    have h : NoReturn v ∧ ¬ "]]>".toList <:+: v := by simpa only [WellFormed] using h
    rw [NodeText] at ht
    rw [ht]
    exact cdata_streams v h
  | .text false v, _, _, _, h, _ => absurd trivial h
  | .declaration _ _ _, _, h, _, _, _ => by simp [WellFormed] at h
  | .element name attributes children, u, h, hs, _, ht => by
    rw [WellFormed] at h
    rw [Streamable] at hs
    obtain ⟨h1, h2, h3, h4, h5⟩ := h
    rw [NodeText] at ht
    obtain ⟨a, w, ha, hw, ht⟩ := ht
    intro x z hu hc tag rest f hf
    have hel : ∀ r, u = '<' :: (name ++ r) → identify x = .element := by
      intro r hr
      obtain ⟨c, s, hname, hcc, hss⟩ := h1
      have hc1 : IsName [c] := ⟨c, [], rfl, hcc, by simp⟩
      have n1 := noNull_name hc1
      obtain ⟨q, hq⟩ := cut_prefix (p := '<' :: [c]) (r := s ++ r) hc (by rw [← hu, hr, hname]; simp) (by
        simpa using n1.2.1) (by simpa using n1.2.2.2.2)
      rw [hq]
      exact (identify_name hc1 q).1
    have hnull : '\x00' ∉ '<' :: (name ++ a ++ w) ∧ '>' ∉ '<' :: (name ++ a ++ w) := by
      simp only [List.mem_cons, List.mem_append, not_or]
      exact ⟨⟨by decide, ⟨(noNull_name h1).1, (noNull_attributes h2 ha).1⟩, (noNull_white hw).1⟩,
        ⟨by decide, ⟨(noNull_name h1).2.1, (noNull_attributes h2 ha).2⟩, (noNull_white hw).2.1⟩⟩
    have hlen : 1 ≤ name.length := by
      obtain ⟨c, s, hname, -⟩ := h1
      rw [hname]; simp
    rcases ht with ⟨-, ht⟩ | ⟨b, hb, ht⟩
    · rw [hel (a ++ w ++ "/>".toList) (by rw [ht]; simp)]
      refine ⟨?_, by simp [Node.IsElement]⟩
      obtain ⟨q, hq1, hq2⟩ := cut_before (p := '<' :: (name ++ a ++ w) ++ ['/']) (r := []) hc (by rw [← hu, ht]; simp)
      have hqn : '\x00' ∉ q ∧ '>' ∉ q := by
        have hsub : ∀ c ∈ q, c ∈ '<' :: (name ++ a ++ w) ++ ['/'] := fun c hc => by rw [hq1, List.mem_append]; exact Or.inr hc
        constructor <;> intro hm <;> have := List.mem_append.mp (hsub _ hm)
        · rcases this with g | g
          · exact hnull.1 g
          · exact absurd g (by decide)
        · rcases this with g | g
          · exact hnull.2 g
          · exact absurd g (by decide)
      obtain ⟨f, rfl⟩ : ∃ g, f = g + 1 := ⟨f - 1, by rw [ht] at hf; simp at hf; omega⟩
      have hz : z ++ rest = q ++ '>' :: rest := by rw [hq2]; simp
      have htag : tag ++ x ++ q ++ ['>'] = tag ++ u := by
        rw [List.append_assoc tag x q, ← hq1, ht]; simp
      rw [streamNode, hz, throughGreater_stop q _ _ hqn.2 hqn.1, htag]
      have hl3 : ¬ (tag ++ u).length < 3 := by
        rw [ht]; simp only [List.length_append, List.length_cons, List.length_nil]
        have : "/>".toList.length = 2 := rfl
        omega
      have hsuf : "/>".toList.isSuffixOf (tag ++ u) = true := by
        rw [List.isSuffixOf_iff_suffix, ht]
        exact ⟨tag ++ (['<'] ++ name ++ a ++ w), by simp⟩
      simp only [hl3, hsuf, if_false, if_true]
    · rw [hel (a ++ w ++ ['>'] ++ b ++ "</".toList ++ name ++ ['>']) (by rw [ht]; simp)]
      refine ⟨?_, by simp [Node.IsElement]⟩
      obtain ⟨q, hq1, hq2⟩ := cut_before (p := '<' :: (name ++ a ++ w)) (r := b ++ "</".toList ++ name ++ ['>']) hc (by
        rw [← hu, ht]; simp)
      have hqn : '\x00' ∉ q ∧ '>' ∉ q := by
        have hsub : ∀ c ∈ q, c ∈ '<' :: (name ++ a ++ w) := fun c hc => by rw [hq1, List.mem_append]; exact Or.inr hc
        exact ⟨fun hm => hnull.1 (hsub _ hm), fun hm => hnull.2 (hsub _ hm)⟩
      have hfl : b.length + 1 < f := by
        rw [ht] at hf
        simp only [List.length_append, List.length_cons, List.length_nil] at hf
        omega
      obtain ⟨f, rfl⟩ : ∃ g, f = g + 1 := ⟨f - 1, by omega⟩
      have hz : z ++ rest = q ++ '>' :: (b ++ "</".toList ++ name ++ ['>'] ++ rest) := by rw [hq2]; simp
      have htag : tag ++ x ++ q ++ ['>'] = tag ++ ('<' :: (name ++ a ++ w) ++ ['>']) := by
        rw [List.append_assoc tag x q, ← hq1]; simp
      rw [streamNode, hz, throughGreater_stop q _ _ hqn.2 hqn.1, htag]
      have hl3 : ¬ (tag ++ ('<' :: (name ++ a ++ w) ++ ['>'])).length < 3 := by
        simp only [List.length_append, List.length_cons, List.length_nil]
        omega
      have hsuf : "/>".toList.isSuffixOf (tag ++ ('<' :: (name ++ a ++ w) ++ ['>'])) = false := by
        rw [Bool.eq_false_iff]
        intro hp
        rw [List.isSuffixOf_iff_suffix] at hp
        exact start_end h1 ha hw (suffix_of_suffix_append hp (by
          have : "/>".toList.length = 2 := rfl
          simp only [List.length_append, List.length_cons, List.length_nil]
          omega))
      simp only [hl3, hsuf, if_false, Bool.false_eq_true]
      rw [children_stream e children b h4 h5 hs hb name h1 _ rest f (by omega), ht]
      simp
theorem children_stream (e : Encoding) : ∀ (cs : List Node) (b : Text), WellFormedAll e cs →
    cs.IsChain (fun a b => ¬ (a.IsPlain ∧ b.IsPlain)) → StreamableAll cs → NodesText cs b → ∀ (name : Text), IsName name →
    ∀ (tag rest : Text) (f : ℕ), b.length + 1 ≤ f →
    streamChildren f tag ⟨b ++ "</".toList ++ name ++ ['>'] ++ rest, true⟩ =
      .ok (tag ++ (b ++ "</".toList ++ name ++ ['>']), ⟨rest, true⟩)
  | [], b, _, _, _, hb, name, hn, tag, rest, f, hf => by
    rw [NodesText] at hb
    obtain ⟨f, rfl⟩ : ∃ g, f = g + 1 := ⟨f - 1, by omega⟩
    have hb := blanks_of_white hb
    have hsplit : b ++ "</".toList ++ name ++ ['>'] ++ rest = b ++ '<' :: ('/' :: (name ++ '>' :: rest)) := by simp
    rw [hsplit, streamChildren]
    simp only [if_true]
    rw [streamWhiteSpace_stop b tag '<' _ hb (by decide)]
    simp only [ne_eq, not_true_eq_false, if_false]
    have n1 := noNull_name hn
    have hpre : preRead (tag ++ b) false false ('<' :: '/' :: (name ++ '>' :: rest)) =
        .found (tag ++ b ++ ['<'] ++ ['/'] ++ name) ('>' :: rest) true := by
      rw [preRead, if_neg (by decide), if_neg (by decide), if_neg (by simp), if_neg (by decide), preRead, if_neg (by decide),
        if_neg (by decide), if_neg (by simp), if_pos (by decide)]
      exact preRead_closing name _ rest n1.2.1 n1.1 n1.2.2.2.2
    rw [hpre]
    simp
  | n :: ns, b, h, hch, hst, hb, name, hn, tag, rest, f, hf => by
    rw [WellFormedAll] at h
    obtain ⟨hwn, hns⟩ := h
    rw [StreamableAll] at hst
    rw [NodesText] at hb
    obtain ⟨w, u, s, hw, hu, hs, rfl⟩ := hb
    have hch' : ns.IsChain (fun a b => ¬ (a.IsPlain ∧ b.IsPlain)) := by
      cases ns with
      | nil => exact List.IsChain.nil
      | cons m ms => exact (List.isChain_cons_cons.mp hch).2
    have hrec := fun tag f => children_stream e ns s hns hch' hst.2 hs name hn tag rest f
    have hbw := blanks_of_white hw
    simp only [List.length_append] at hf
    obtain ⟨f, rfl⟩ : ∃ g, f = g + 1 := ⟨f - 1, by omega⟩
    by_cases hp : n.IsPlain
    · obtain ⟨v, rfl⟩ : ∃ v, n = .text false v := by
        cases n with
        | text b v => cases b with
          | false => exact ⟨v, rfl⟩
          | true => exact absurd hp (by simp [Node.IsPlain])
        | _ => exact absurd hp (by simp [Node.IsPlain])
      have hv : IsPlainText e v := by simpa only [WellFormed] using hwn
      rw [NodeText] at hu
      have hhead : ∀ m, ns.head? = some m → ¬ m.IsPlain := by
        intro m hm hmp
        cases ns with
        | nil => simp at hm
        | cons k ks =>
          simp only [List.head?_cons, Option.some.injEq] at hm
          subst hm
          exact (List.isChain_cons_cons.mp hch).1 ⟨hp, hmp⟩
      obtain ⟨lead, k, hsh, hlead⟩ := nodesText_shape hhead hs ('/' :: (name ++ ['>'] ++ rest))
      have hvne : v ≠ [] := by
        obtain ⟨-, -, -, -, -, ⟨k, hk, -⟩, -⟩ := hv
        rintro rfl
        simp at hk
      have hu1 : 1 ≤ u.length := by
        have h1 := length_flatMap_encodeChar v
        rw [← encode_flatMap hv.1, ← hu] at h1
        have := List.length_pos_iff.mpr hvne
        omega
      obtain ⟨x, r, hx, hxw, hxl⟩ := head_text hvne hv.2.2.1 (lead ++ '<' :: k)
      rw [← encode_flatMap hv.1, ← hu] at hx
      have hsplit : w ++ u ++ s ++ "</".toList ++ name ++ ['>'] ++ rest = w ++ (x :: r) := by
        have : w ++ u ++ s ++ "</".toList ++ name ++ ['>'] ++ rest = w ++ (u ++ (s ++ '<' :: '/' :: (name ++ ['>'] ++ rest))) := by simp
        rw [this, hsh, hx]
      have hr := hrec (tag ++ w ++ u) f (by omega)
      have hsplit' : s ++ "</".toList ++ name ++ ['>'] ++ rest = lead ++ '<' :: k := by
        rw [← hsh]; simp
      rw [hsplit', streamChildren_lead f _ hlead] at hr
      rw [hsplit, streamChildren]
      simp only [if_true]
      rw [streamWhiteSpace_stop w tag x r hbw hxw]
      simp only [ne_eq, hxl, not_false_eq_true, if_true]
      have n1 := noNull_encode hv.1
      rw [← hu] at n1
      have hst : streamText false (tag ++ w) (x :: r) = (tag ++ w ++ u ++ lead, ⟨'<' :: k, true⟩) := by
        rw [← hx, ← List.append_assoc, streamText_plain (u ++ lead) (tag ++ w) k, List.append_assoc (tag ++ w) u lead]
        · simp only [List.mem_append, not_or]
          exact ⟨n1.2.2, fun hm => absurd (hlead _ hm) (by decide)⟩
        · simp only [List.mem_append, not_or]
          exact ⟨n1.1, fun hm => absurd (hlead _ hm) (by decide)⟩
      rw [hst]
      simp only
      rw [hr]
      simp
    · obtain ⟨y, r, hy, hy1, hy2, hy3, hy4⟩ := node_tag e hwn hst.1 hp hu
      obtain ⟨t, ht⟩ := hy3
      have hstr := node_streams e n u hwn hst.1 hp hu
      have hu1 : 1 ≤ u.length := by rw [hy, ht]; simp
      obtain ⟨p, q, g1, g2, g3⟩ := preRead_cut (tag ++ w) (r ++ (s ++ "</".toList ++ name ++ ['>'] ++ rest)) y [] false hy1 hy2
        ⟨t, by simpa using ht⟩ (by simp) (Or.inr hy4)
      rw [List.append_nil, List.nil_append] at g2
      rw [List.nil_append] at g3
      have hcut : Cut p (q ++ '>' :: r) := by
        refine ⟨g3.1, g3.2.1, ?_⟩
        rcases g3.2.2 with k1 | k1
        · left
          cases q with
          | nil => rfl
          | cons c q => simpa using k1
        · exact Or.inr k1
      obtain ⟨j1, -⟩ := hstr p (q ++ '>' :: r) (by rw [hy, g1]; simp) hcut (tag ++ w) (s ++ "</".toList ++ name ++ ['>'] ++ rest) f (by omega)
      have hsplit : w ++ u ++ s ++ "</".toList ++ name ++ ['>'] ++ rest =
          w ++ '<' :: (t ++ '>' :: (r ++ (s ++ "</".toList ++ name ++ ['>'] ++ rest))) := by
        rw [hy, ht]; simp
      have hy' : '<' :: (t ++ '>' :: (r ++ (s ++ "</".toList ++ name ++ ['>'] ++ rest))) =
          y ++ '>' :: (r ++ (s ++ "</".toList ++ name ++ ['>'] ++ rest)) := by rw [ht]; simp
      rw [hsplit, streamChildren]
      simp only [if_true]
      rw [streamWhiteSpace_stop w tag '<' _ hbw (by decide)]
      simp only [ne_eq, not_true_eq_false, if_false]
      rw [hy', g2]
      have hdrop : (tag ++ w ++ p).drop (tag ++ w).length = p := List.drop_left
      simp only [hdrop]
      have hz : q ++ '>' :: (r ++ (s ++ "</".toList ++ name ++ ['>'] ++ rest)) =
          q ++ '>' :: r ++ (s ++ "</".toList ++ name ++ ['>'] ++ rest) := by simp
      rw [hz, j1]
      simp only
      rw [hrec _ f (by omega)]
      simp
end

/-! ## Documents -/

open Classical in
theorem streamNodes_step (f : ℕ) {n : Node} {w u y r : Text} (hw : IsWhite w) (hu : u = y ++ '>' :: r) (hy : '>' ∉ y) (h0 : '\x00' ∉ y)
    (hy2 : ∃ t, y = '<' :: t) (hs : Streams n u) (hf : u.length ≤ f) (tag rest : Text) :
    streamNodes (f + 1) tag ⟨w ++ u ++ rest, true⟩ =
      (if n.IsElement then .ok (tag ++ (w ++ u), ⟨rest, true⟩) else streamNodes f (tag ++ (w ++ u)) ⟨rest, true⟩) := by
  obtain ⟨t, ht⟩ := hy2
  have n1 := noNull_white hw
  have hr : readTag tag (w ++ u ++ rest) = (tag ++ (w ++ y), ⟨'>' :: (r ++ rest), true⟩) := by
    have hsplit : w ++ u ++ rest = w ++ y ++ '>' :: (r ++ rest) := by rw [hu]; simp
    rw [hsplit]
    apply readTag_stop
    · simp only [List.mem_append, not_or]; exact ⟨n1.2.1, hy⟩
    · simp only [List.mem_append, not_or]; exact ⟨n1.1, h0⟩
  obtain ⟨j1, j2⟩ := hs y ('>' :: r) hu ⟨hy, ⟨t, ht⟩, Or.inl rfl⟩ (tag ++ w) rest f hf
  rw [streamNodes]
  simp only [Bool.true_eq_false, if_false]
  rw [hr]
  have hsk : skip .unknown ((tag ++ (w ++ y)).drop tag.length) = '<' :: t := by
    rw [List.drop_left, ht, skip_lt _ (blanks_of_white hw)]
  simp only [hsk]
  rw [← ht]
  have hz : '>' :: (r ++ rest) = '>' :: r ++ rest := rfl
  rw [hz, ← List.append_assoc tag w y, j1]
  simp only [List.append_assoc]
  by_cases hn : n.IsElement
  · rw [if_pos (j2.mpr hn), if_pos hn]
  · rw [if_neg (fun h => hn (j2.mp h)), if_neg hn]

theorem streamNodes_declaration {v en st : Text} (h1 : IsDeclared v) (h2 : IsDeclared en) (h3 : IsDeclared st) : ∃ y r, printDeclaration v en st = y ++ '>' :: r ∧ '>' ∉ y ∧ '\x00' ∉ y ∧ ∃ t, y = '<' :: t := by
  have hm : '>' ∈ printDeclaration v en st := by
    unfold printDeclaration; simp
  obtain ⟨y, r, hy1, hy2⟩ := List.eq_append_cons_of_mem hm
  have hn : NoReturn (printDeclaration v en st) := by
    unfold printDeclaration
    simp only [noReturn_append]
    exact ⟨⟨⟨⟨noReturn_literal rfl, noReturn_declared (noReturn_literal rfl) h1⟩, noReturn_declared (noReturn_literal rfl) h2⟩,
      noReturn_declared (noReturn_literal rfl) h3⟩, noReturn_literal rfl⟩
  refine ⟨y, r, hy1, hy2, fun h0 => hn.2 (by rw [hy1, List.mem_append]; exact Or.inl h0), ?_⟩
  obtain ⟨k, hk⟩ : ∃ k, printDeclaration v en st = '<' :: k := ⟨_, rfl⟩
  rw [hk] at hy1
  cases y with
  | nil => simp at hy1
  | cons c y =>
    simp only [List.cons_append, List.cons.injEq] at hy1
    exact ⟨y, by rw [← hy1.1]⟩

theorem nodes_stream (e : Encoding) {root : Node} {u : Text} (hr : WellFormed e root) (hrs : Streamable root) (hre : root.IsElement)
    (hu : NodeText root u) : ∀ (pre : List Node) (s tag rest : Text) (f : ℕ), (∀ n ∈ pre, WellFormed e n ∧ ¬ n.IsPlain ∧ Streamable n ∧
    ¬ n.IsElement) → NodesText pre s → s.length + u.length + 1 ≤ f →
    streamNodes f tag ⟨s ++ u ++ rest, true⟩ = .ok (tag ++ (s ++ u), ⟨rest, true⟩) := by
  have hpr : ¬ root.IsPlain := by cases root <;> simp_all [Node.IsPlain, Node.IsElement]
  intro pre
  induction pre with
  | nil =>
    intro s tag rest f _ hs hf
    rw [NodesText] at hs
    obtain ⟨f, rfl⟩ : ∃ g, f = g + 1 := ⟨f - 1, by omega⟩
    obtain ⟨y, r, h1, h2, h3, h4, -⟩ := node_tag e hr hrs hpr hu
    rw [streamNodes_step f hs h1 h2 h3 h4 (node_streams e root u hr hrs hpr hu) (by omega), if_pos hre]
  | cons n ns ih =>
    intro s tag rest f h hs hf
    rw [NodesText] at hs
    obtain ⟨w, v, s, hw, hv, hs, rfl⟩ := hs
    obtain ⟨g1, g2, g3, g4⟩ := h n (by simp)
    obtain ⟨f, rfl⟩ : ∃ g, f = g + 1 := ⟨f - 1, by omega⟩
    obtain ⟨y, r, h1, h2, h3, h4, -⟩ := node_tag e g1 g3 g2 hv
    have hv1 : 1 ≤ v.length := by rw [h1]; simp only [List.length_append, List.length_cons]; omega
    simp only [List.length_append] at hf
    have hsplit : w ++ v ++ s ++ u ++ rest = w ++ v ++ (s ++ u ++ rest) := by simp
    rw [hsplit, streamNodes_step f hw h1 h2 h3 h4 (node_streams e n v g1 g3 g2 hv) (by omega), if_neg g4,
      ih s _ rest f (fun m hm => h m (List.mem_cons_of_mem n hm)) hs (by omega)]
    simp

theorem document_stream {d : Document} (h : IsDocument d) {pre : List Node} {root : Node} (hd : d.nodes = pre ++ [root])
    (hs : ∀ n ∈ d.nodes, Streamable n) (hr : root.IsElement) (hp : ∀ n ∈ pre, ¬ n.IsElement) {s u : Text} (hps : NodesText pre s)
    (hu : NodeText root u) (tag rest : Text) (f : ℕ) (hf : s.length + u.length + 1 ≤ f) :
    streamNodes f tag ⟨s ++ u ++ rest, true⟩ = .ok (tag ++ (s ++ u), ⟨rest, true⟩) := by
  have hrs : Streamable root := hs root (by rw [hd]; simp)
  rcases h with ⟨v, en, st, ns, hd', h1, h2, h3, h4⟩ | ⟨hne, h4⟩
  · cases pre with
    | nil =>
      rw [hd, List.nil_append] at hd'
      injection hd' with hd'
      rw [hd'] at hr
      simp [Node.IsElement] at hr
    | cons n pre =>
      rw [hd, List.cons_append] at hd'
      injection hd' with hn hd'
      subst hn
      rw [NodesText] at hps
      obtain ⟨w, x, s, hw, hx, hps, rfl⟩ := hps
      rw [NodeText] at hx
      have hds := hs (.declaration v en st) (by rw [hd]; simp)
      rw [Streamable] at hds
      obtain ⟨y, r, k1, k2, k3, k4⟩ := streamNodes_declaration h1 h2 h3
      have hstr := declaration_streams v en st h1 h2 h3 hds
      rw [← hx] at k1 hstr
      have hx1 : 1 ≤ x.length := by rw [k1]; simp only [List.length_append, List.length_cons]; omega
      simp only [List.length_append] at hf
      obtain ⟨f, rfl⟩ : ∃ g, f = g + 1 := ⟨f - 1, by omega⟩
      have hsplit : w ++ x ++ s ++ u ++ rest = w ++ x ++ (s ++ u ++ rest) := by simp
      obtain ⟨j1, j2⟩ := h4 root (by rw [← hd']; simp)
      rw [hsplit, streamNodes_step f hw k1 k2 k3 k4 hstr (by omega), if_neg (by simp [Node.IsElement]),
        nodes_stream _ j1 hrs hr hu pre s _ rest f ?_ hps (by omega)]
      · simp
      · intro m hm
        obtain ⟨i1, i2⟩ := h4 m (by rw [← hd']; simp [hm])
        exact ⟨i1, i2, hs m (by rw [hd]; simp [hm]), hp m (by simp [hm])⟩
  · obtain ⟨j1, j2⟩ := h4 root (by rw [hd]; simp)
    apply nodes_stream _ j1 hrs hr hu pre s _ rest f ?_ hps hf
    intro m hm
    obtain ⟨i1, i2⟩ := h4 m (by rw [hd]; simp [hm])
    exact ⟨i1, i2, hs m (by rw [hd]; simp [hm]), hp m hm⟩

/-- Up to the first node. -/
theorem streamDocument_lead (f : ℕ) {b : Text} (hb : '<' ∉ b ∧ '\x00' ∉ b) (k : Text) :
    streamDocument f (b ++ '<' :: k) = streamNodes f b ⟨'<' :: k, true⟩ := by
  unfold streamDocument
  rw [streamTo_stop '<' b [] k hb.1 hb.2]
  rfl

theorem nodesText_split {root : Node} : ∀ {pre : List Node} {t : Text}, NodesText (pre ++ [root]) t →
    ∃ s u w, t = s ++ u ++ w ∧ NodesText pre s ∧ NodeText root u ∧ IsWhite w
  | [], t, h => by
    rw [List.nil_append, NodesText] at h
    obtain ⟨w, u, s, h1, h2, h3, rfl⟩ := h
    rw [NodesText] at h3
    exact ⟨w, u, s, rfl, by rw [NodesText]; exact h1, h2, h3⟩
  | n :: pre, t, h => by
    rw [List.cons_append, NodesText] at h
    obtain ⟨w, x, s, h1, h2, h3, rfl⟩ := h
    obtain ⟨s', u, w', rfl, g2, g3, g4⟩ := nodesText_split h3
    exact ⟨w ++ x ++ s', u, w', by simp, by rw [NodesText]; exact ⟨w, x, s', h1, h2, g2, rfl⟩, g3, g4⟩

theorem nodesText_join {root : Node} {u : Text} (hu : NodeText root u) : ∀ {pre : List Node} {s : Text}, NodesText pre s →
    NodesText (pre ++ [root]) (s ++ u)
  | [], s, h => by
    rw [NodesText] at h
    rw [List.nil_append, NodesText]
    exact ⟨s, u, [], h, hu, by rw [NodesText]; exact white_nil, by simp⟩
  | n :: pre, s, h => by
    rw [NodesText] at h
    obtain ⟨w, x, s, h1, h2, h3, rfl⟩ := h
    rw [List.cons_append, NodesText]
    exact ⟨w, x, s ++ u, h1, h2, nodesText_join hu h3, by simp⟩

theorem nodesText_lead {root : Node} {u : Text} (hp : ¬ root.IsPlain) (hu : NodeText root u) {pre : List Node} {s : Text}
    (hpre : ∀ n ∈ pre, ¬ n.IsPlain) (h : NodesText pre s) :
    ∃ v s', s = v ++ s' ∧ IsWhite v ∧ NodesText pre s' ∧ ∃ k, s' ++ u = '<' :: k := by
  cases pre with
  | nil =>
    rw [NodesText] at h
    obtain ⟨k, hk⟩ := nodeText_shape hp hu
    exact ⟨s, [], by simp, h, by rw [NodesText]; exact white_nil, k, by simpa using hk⟩
  | cons n ns =>
    rw [NodesText] at h
    obtain ⟨w, x, s, h1, h2, h3, rfl⟩ := h
    obtain ⟨k, hk⟩ := nodeText_shape (hpre n (by simp)) h2
    exact ⟨w, x ++ s, by simp, h1, by rw [NodesText]; exact ⟨[], x, s, white_nil, h2, h3, by simp⟩, k ++ s ++ u, by rw [hk]; simp⟩

theorem streamable_mem : ∀ {ns : List Node}, StreamableAll ns → ∀ n ∈ ns, Streamable n
  | [], _, n, hn => by simp at hn
  | m :: ns, h, n, hn => by
    rw [StreamableAll] at h
    rcases List.mem_cons.mp hn with rfl | hn
    · exact h.1
    · exact streamable_mem h.2 n hn

theorem document_notPlain {d : Document} (h : IsDocument d) : ∀ n ∈ d.nodes, ¬ n.IsPlain := by
  intro n hn
  rcases h with ⟨v, en, st, ns, hd, -, -, -, h4⟩ | ⟨-, h4⟩
  · rw [hd] at hn
    rcases List.mem_cons.mp hn with rfl | hn
    · simp [Node.IsPlain]
    · exact (h4 n hn).2
  · exact (h4 n hn).2

/-! ## C103 -/

/-- C103: a document in any layout is read from a stream, and what is behind its element stays in the stream. -/
theorem C103_read (d : Document) (h : IsDocument d) (hs : StreamableAll d.nodes) (h1 : IsSingle d) (t : Text) (ht : NodesText d.nodes t) :
    ∃ s w, t = s ++ w ∧ IsWhite w ∧ ∀ (rest : Text) (f : ℕ), t.length + 1 ≤ f →
      streamIn f ((if d.bom then byteOrderMark else []) ++ t ++ rest) = .ok (.ok ⟨d, []⟩, ⟨w ++ rest, true⟩) := by
  obtain ⟨pre, root, hd, hr, hp⟩ := h1
  rw [hd] at ht
  obtain ⟨s, u, w, rfl, g1, g2, g3⟩ := nodesText_split ht
  refine ⟨s ++ u, w, rfl, g3, ?_⟩
  intro rest f hf
  have hlay := C102_layout d h (s ++ u) (by rw [hd]; exact nodesText_join g2 g1)
  obtain ⟨v, s', rfl, k1, k2, k, k3⟩ := nodesText_lead (document_notPlain h root (by rw [hd]; simp)) g2
    (fun n hn => document_notPlain h n (by rw [hd]; simp [hn])) g1
  have hb : ∀ b : Text, b = (if d.bom then byteOrderMark else []) → '<' ∉ b ++ v ∧ '\x00' ∉ b ++ v := by
    intro b hb
    simp only [List.mem_append, not_or]
    rw [hb]
    split_ifs
    · exact ⟨⟨by decide, (noNull_white k1).2.2.1⟩, by decide, (noNull_white k1).1⟩
    · exact ⟨⟨by simp, (noNull_white k1).2.2.1⟩, by simp, (noNull_white k1).1⟩
  generalize (if d.bom then byteOrderMark else []) = b at hlay hb ⊢
  simp only [List.length_append] at hf
  have hdoc := document_stream h hd (streamable_mem hs) hr hp k2 g2 (b ++ v) (w ++ rest) f (by omega)
  have hsplit : b ++ (v ++ s' ++ u ++ w) ++ rest = (b ++ v) ++ (s' ++ u ++ (w ++ rest)) := by simp
  have hsplit2 : s' ++ u ++ (w ++ rest) = '<' :: (k ++ (w ++ rest)) := by rw [k3]; rfl
  have htag : b ++ v ++ (s' ++ u) = b ++ (v ++ s' ++ u) := by simp
  rw [hsplit2] at hdoc
  rw [hsplit, hsplit2, streamIn, streamDocument_lead f (hb b rfl), hdoc, htag]
  simp only
  rw [hlay]

/-- C103: documents that stand one behind the other in a stream are read one after the other. -/
theorem C103_sequence (ds : List Document) (h : ∀ d ∈ ds, IsDocument d ∧ StreamableAll d.nodes ∧ IsSingle d ∧ d.bom = false)
    (ts : List Text) (ht : List.Forall₂ (fun d t => NodesText d.nodes t) ds ts) (rest : Text) (f : ℕ) (hf : ts.flatten.length + 1 ≤ f) :
    ∃ w, IsWhite w ∧ ReadsAll f ds (ts.flatten ++ rest) (w ++ rest) := by
  have key : ∀ (v : Text), IsWhite v → (v ++ ts.flatten).length + 1 ≤ f →
      ∃ w, IsWhite w ∧ ReadsAll f ds (v ++ ts.flatten ++ rest) (w ++ rest) := by
    induction ht with
    | nil => intro v hv _; exact ⟨v, hv, by simp [ReadsAll]⟩
    | @cons d t ds ts hdt hts ih =>
      intro v hv hf
      obtain ⟨g1, g2, g3, g4⟩ := h d (by simp)
      have hlay : NodesText d.nodes (v ++ t) := by simpa using nodesText_around hdt hv white_nil
      obtain ⟨s, w, k1, k2, k3⟩ := C103_read d g1 g2 g3 (v ++ t) hlay
      have k4 := congrArg List.length k1
      simp only [List.flatten_cons, List.length_append] at hf k4
      obtain ⟨w', j1, j2⟩ := ih (fun e he => h e (by simp [he])) (by omega) w k2 (by simp only [List.length_append]; omega)
      refine ⟨w', j1, w ++ ts.flatten ++ rest, ?_, j2⟩
      have := k3 (ts.flatten ++ rest) f (by simp only [List.length_append]; omega)
      rw [g4] at this
      simpa using this
  simpa using key [] white_nil (by simpa using hf)

theorem streamOut_text (d : Document) (h : IsDocument d) : NodesText d.nodes (streamOut d) := by
  obtain ⟨t, h1, h2⟩ := acceptDocument_text d h Printer.new.setStreamPrinting ⟨white_nil, white_nil⟩ rfl
  have : streamOut d = t := by rw [streamOut, h2]; rfl
  rwa [this]

/-- C103: documents that are written to a stream are read back. -/
theorem C103_out_in (ds : List Document) (h : ∀ d ∈ ds, IsDocument d ∧ StreamableAll d.nodes ∧ IsSingle d ∧ d.bom = false)
    (rest : Text) (f : ℕ) (hf : (ds.map streamOut).flatten.length + 1 ≤ f) :
    ∃ w, IsWhite w ∧ ReadsAll f ds ((ds.map streamOut).flatten ++ rest) (w ++ rest) := by
  apply C103_sequence ds h _ ?_ rest f hf
  have key : ∀ ds : List Document, (∀ d ∈ ds, IsDocument d) → List.Forall₂ (fun d t => NodesText d.nodes t) ds (ds.map streamOut) := by
    intro ds
    induction ds with
    | nil => intro _; exact List.Forall₂.nil
    | cons d ds ih => intro h; exact List.Forall₂.cons (streamOut_text d (h d (by simp))) (ih (fun e he => h e (by simp [he])))
  exact key ds (fun d hd => (h d hd).1)

theorem streamTo_white (w : Text) : ∀ tag : Text, IsWhite w → streamTo '<' tag w = (tag ++ w, ⟨[], false⟩, false) := by
  induction w with
  | nil => intro tag _; simp [streamTo]
  | cons c w ih =>
    intro tag h
    have n := noNull_white h
    simp only [List.mem_cons, not_or] at n
    rw [streamTo, if_neg (Ne.symm n.2.2.1.1), if_neg (Ne.symm n.1.1), ih _ (fun d hd => h d (List.mem_cons_of_mem c hd))]
    simp

/-- C103: behind the last document, an empty document is reported and the stream is no longer good. -/
theorem C103_end (f : ℕ) (w : Text) (hw : IsWhite w) : streamIn f w = .ok (.ok ⟨⟨false, []⟩, [.documentEmpty]⟩, ⟨[], false⟩) := by
  rw [streamIn, streamDocument, streamTo_white w [] hw]
  simp only [List.nil_append]
  congr 2
  cases w with
  | nil => rfl
  | cons c w =>
    have hpre : byteOrderMark.isPrefixOf (c :: w) = false := by
      rw [Bool.eq_false_iff]
      intro hb
      rw [List.isPrefixOf_iff_prefix, byteOrderMark, List.cons_prefix_cons] at hb
      have := hw c (by simp)
      rw [← hb.1] at this
      exact absurd this (by decide)
    rw [parse, if_neg (by simp)]
    simp only [hpre, Bool.false_eq_true, if_false]
    rw [skipWhiteSpace, skip_all _ (blanks_of_white hw)]
    simp only
    rw [parseNodes]
    rfl

/-! ### Examples -/

theorem name_a : IsName "a".toList := ⟨'a', [], rfl, by decide, by simp⟩
theorem name_b : IsName "b".toList := ⟨'b', [], rfl, by decide, by simp⟩

/-- Two documents: `<?xml version="1.0"?><!--k--><a><b/><![CDATA[>]]></a>` and `<b/>`. -/
example : (∀ d ∈ [(⟨false, [.declaration "1.0".toList [] [], .comment "k".toList,
      .element "a".toList [] [.element "b".toList [] [], .text true ">".toList]]⟩ : Document), ⟨false, [.element "b".toList [] []]⟩],
      IsDocument d ∧ StreamableAll d.nodes ∧ IsSingle d ∧ d.bom = false) ∧
    ([(⟨false, [.declaration "1.0".toList [] [], .comment "k".toList,
      .element "a".toList [] [.element "b".toList [] [], .text true ">".toList]]⟩ : Document), ⟨false, [.element "b".toList [] []]⟩].map
      streamOut).flatten = "<?xml version=\"1.0\" ?><!--k--><a><b /><![CDATA[>]]></a><b />".toList := by
  refine ⟨?_, by decide +kernel⟩
  intro d hd
  have hcd : ¬ "]]>".toList <:+: ">".toList := by decide
  have hcm : ¬ "-->".toList <:+: "k".toList := by decide
  have hemp : ¬ "]]>".toList <:+: ([] : Text) := by decide
  simp only [List.mem_cons, List.not_mem_nil, or_false] at hd
  rcases hd with rfl | rfl
  · refine ⟨Or.inl ⟨_, _, _, _, rfl, ?_, ?_, ?_, ?_⟩, ?_, ⟨_, _, show _ = [.declaration "1.0".toList [] [], .comment "k".toList] ++ [_] from rfl,
      trivial, ?_⟩, rfl⟩
    · simp [IsDeclared]
    · simp [IsDeclared]
    · simp [IsDeclared]
    · intro n hn
      simp only [List.mem_cons, List.not_mem_nil, or_false] at hn
      rcases hn with rfl | rfl
      · exact ⟨by rw [WellFormed]; exact ⟨by simp [NoReturn], hcm⟩, by simp [Node.IsPlain]⟩
      · refine ⟨?_, by simp [Node.IsPlain]⟩
        simp only [WellFormed, WellFormedAll]
        refine ⟨name_a, by simp, by simp, ⟨⟨name_b, by simp, by simp, trivial, List.IsChain.nil⟩, ⟨by simp [NoReturn], hcd⟩, trivial⟩, ?_⟩
        simp [Node.IsPlain]
    · simp [Streamable, StreamableAll]
    · intro n hn
      simp only [List.mem_cons, List.not_mem_nil, or_false] at hn
      rcases hn with rfl | rfl <;> simp [Node.IsElement]
  · refine ⟨Or.inr ⟨by simp, ?_⟩, ?_, ⟨[], _, rfl, trivial, by simp⟩, rfl⟩
    · intro n hn
      simp only [List.mem_singleton] at hn
      subst hn
      refine ⟨?_, by simp [Node.IsPlain]⟩
      simp only [WellFormed, WellFormedAll]
      exact ⟨name_b, by simp, by simp, trivial, List.IsChain.nil⟩
    · simp [Streamable, StreamableAll]

/-! ### What is not read back -/

theorem streamIn_of {f : ℕ} {s tag : Text} {i : Input} {r : Except Fault Loaded} (h : streamDocument f s = .ok (tag, i))
    (hr : parse tag = r) : streamIn f s = .ok (r, i) := by
  rw [streamIn, h, ← hr]

/-- C103, refuted: a comment before the element that begins with '>' ends the reading in its middle. A file with the same contents is
read; here the parser goes beyond the end of what has been taken from the stream. -/
theorem C103_comment_refuted : loadFile "<!-->x--><a/>".toList = .ok ⟨⟨false, [.comment ">x".toList, .element "a".toList [] []]⟩, []⟩ ∧
    streamIn 20 "<!-->x--><a/>".toList = .ok (.error .outside, ⟨"><a/>".toList, true⟩) := by
  refine ⟨eq_of_sameLoaded (by decide +kernel), streamIn_of (tag := "<!-->x--".toList) (i := ⟨"><a/>".toList, true⟩) (by decide +kernel) ?_⟩
  have h : (match parse "<!-->x--".toList with | .error .outside => true | _ => false) = true := by decide +kernel
  revert h
  generalize parse "<!-->x--".toList = r
  intro h
  match r, h with
  | .error .outside, _ => rfl

/-- C103, refuted: with such a comment in the element, another document is taken from the stream with it. -/
theorem C103_inside_refuted : loadFile "<a><!--><b--></a>".toList = .ok ⟨⟨false, [.element "a".toList [] [.comment "><b".toList]]⟩, []⟩ ∧
    streamIn 40 "<a><!--><b--></a><c/>".toList =
      .ok (.ok ⟨⟨false, [.element "a".toList [] [.comment "><b".toList], .element "c".toList [] []]⟩, []⟩, ⟨[], false⟩) := by
  refine ⟨eq_of_sameLoaded (by decide +kernel), ?_⟩
  exact streamIn_of (tag := "<a><!--><b--></a><c/>".toList) (i := ⟨[], false⟩) (by decide +kernel) (eq_of_sameLoaded (by decide +kernel))

/-- C103, refuted: a '>' in the declaration ends the reading; the element is lost. -/
theorem C103_declaration_refuted : loadFile "<?xml version=\"1.0\" encoding=\">\"?><a/>".toList =
      .ok ⟨⟨false, [.declaration "1.0".toList ">".toList [], .element "a".toList [] []]⟩, []⟩ ∧
    streamIn 40 "<?xml version=\"1.0\" encoding=\">\"?><a/>".toList =
      .ok (.ok ⟨⟨false, [.declaration "1.0".toList ">".toList []]⟩, []⟩, ⟨"><a/>".toList, true⟩) := by
  refine ⟨eq_of_sameLoaded (by decide +kernel), ?_⟩
  exact streamIn_of (tag := "<?xml version=\"1.0\" encoding=\">\"?".toList) (i := ⟨"><a/>".toList, true⟩) (by decide +kernel) (eq_of_sameLoaded (by decide +kernel))

/-- C103, refuted: what is written behind the element is not read with the document but stays for the next. -/
theorem C103_behind_refuted : streamOut ⟨false, [.element "a".toList [] [], .comment "k".toList]⟩ = "<a /><!--k-->".toList ∧
    streamIn 40 "<a /><!--k-->".toList = .ok (.ok ⟨⟨false, [.element "a".toList [] []]⟩, []⟩, ⟨"<!--k-->".toList, true⟩) := by
  refine ⟨by decide +kernel, ?_⟩
  exact streamIn_of (tag := "<a />".toList) (i := ⟨"<!--k-->".toList, true⟩) (by decide +kernel) (eq_of_sameLoaded (by decide +kernel))

/-- C103, refuted: an unknown tag in an element can be taken for its end. -/
theorem C103_unknown_refuted : loadFile "<a>< /x></a>".toList = .ok ⟨⟨false, [.element "a".toList [] [.unknown " /x".toList]]⟩, []⟩ ∧
    streamIn 40 "<a>< /x></a>".toList =
      .ok (.ok ⟨⟨false, [.element "a".toList [] [.unknown " /x".toList]]⟩, [.readingElementValue, .readingEndTag]⟩,
        ⟨"</a>".toList, true⟩) := by
  refine ⟨eq_of_sameLoaded (by decide +kernel), ?_⟩
  exact streamIn_of (tag := "<a>< /x>".toList) (i := ⟨"</a>".toList, true⟩) (by decide +kernel) (eq_of_sameLoaded (by decide +kernel))

theorem streamChildren_null (s : Text) : ∀ (f : ℕ) (tag : Text), streamChildren f tag ⟨'\x00' :: s, true⟩ = .error .fuel := by
  intro f
  induction f with
  | zero => intro tag; rw [streamChildren]
  | succ f ih =>
    intro tag
    have h1 : streamWhiteSpace tag ('\x00' :: s) = (tag, ⟨'\x00' :: s, true⟩) := by
      rw [streamWhiteSpace, if_neg (by decide)]
    have h2 : streamText false tag ('\x00' :: s) = (tag, ⟨'\x00' :: s, true⟩) := by
      rw [streamText, if_neg (by decide), if_pos rfl]
    rw [streamChildren]
    simp only [if_true, h1]
    rw [if_pos (by decide), h2]
    exact ih tag

/-- C103, refuted: a null character in an element keeps the program in a loop, whatever follows. -/
theorem C103_null_refuted (f : ℕ) (s : Text) : streamIn f ("<a>".toList ++ '\x00' :: s) = .error .fuel := by
  have h0 : streamDocument f ("<a>".toList ++ '\x00' :: s) = .error .fuel := by
    have hl : "<a>".toList ++ '\x00' :: s = [] ++ '<' :: ('a' :: '>' :: '\x00' :: s) := rfl
    rw [hl, streamDocument_lead f ⟨by simp, by simp⟩]
    cases f with
    | zero => rw [streamNodes]
    | succ f =>
      have h1 : readTag [] ('<' :: 'a' :: '>' :: '\x00' :: s) = ("<a".toList, ⟨'>' :: '\x00' :: s, true⟩) :=
        readTag_stop "<a".toList [] ('\x00' :: s) (by decide) (by decide)
      rw [streamNodes]
      simp only [Bool.true_eq_false, if_false, h1]
      have h2 : skip .unknown ("<a".toList.drop ([] : Text).length) = '<' :: ['a'] := by decide
      simp only [h2]
      have h3 : identify ('<' :: ['a']) = .element := by decide
      rw [h3]
      have h4 : streamNode f .element "<a".toList ('>' :: '\x00' :: s) = .error .fuel := by
        cases f with
        | zero => rw [streamNode]
        | succ f =>
          have h5 : throughGreater "<a".toList ('>' :: '\x00' :: s) = ("<a>".toList, ⟨'\x00' :: s, true⟩, true) :=
            throughGreater_stop [] "<a".toList ('\x00' :: s) (by simp) (by simp)
          rw [streamNode, h5]
          simp only
          rw [if_neg (by decide), if_neg (by decide), streamChildren_null]
      rw [h4]
  rw [streamIn, h0]

end Ubitrack.Xml
