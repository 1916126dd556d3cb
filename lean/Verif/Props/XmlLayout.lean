import Verif.Spec.XmlLayout
import Verif.Props.XmlTree

/-!
# C102: white space in an XML file
-/

namespace Ubitrack.Xml

theorem blanks_of_white {w : Text} (h : IsWhite w) : Blanks w := fun c hc => (isWhite_iff c).mpr (h c hc)

theorem skipWhiteSpace_stop (e : Encoding) {w : Text} (h : Blanks w) {c : Char} (h1 : 33 ≤ c.toNat) (h2 : c.toNat < 128) (s : Text) :
    skipWhiteSpace e (.inside (w ++ c :: s)) = .ok (.inside (c :: s)) := by
  have : ∃ d t, w ++ c :: s = d :: t := by
    cases w with
    | nil => exact ⟨_, _, rfl⟩
    | cons d w => exact ⟨_, _, rfl⟩
  obtain ⟨d, t, ht⟩ := this
  rw [ht, skipWhiteSpace, ← ht, skip_blanks e h, skip_stop e h1 h2]

theorem white_notName {c : Char} (h : isWhite c = true) : isNameChar c = false := by
  simp only [isWhite, Bool.or_eq_true, beq_iff_eq] at h
  rcases h with ((((rfl | rfl) | rfl) | rfl) | rfl) | rfl <;> decide

/-- White space before a character that cannot be in a name. -/
theorem lead_notName {w : Text} (h : Blanks w) {c : Char} (hc : isNameChar c = false) (s : Text) :
    ∃ d u, w ++ c :: s = d :: u ∧ isNameChar d = false := by
  cases w with
  | nil => exact ⟨c, s, rfl, hc⟩
  | cons d w => exact ⟨d, _, rfl, white_notName (h d (by simp))⟩

theorem attributeText_parse (e : Encoding) {a : Text × Text} {t : Text} (rest : Text) (hn : IsName a.1) (hr : NoReference a.2)
    (hw : WellEncoded e a.2) (ht : AttributeText a t) :
    parseAttribute e (t ++ rest) = .ok ⟨a.1, a.2, .inside rest, false⟩ ∧ ∃ c s, t = c :: s ∧ 65 ≤ c.toNat ∧ c.toNat ≤ 122 := by
  obtain ⟨name, value⟩ := a
  obtain ⟨v, w, q, h1, h2, hq, rfl⟩ := ht
  have hv := chunks_of_wellEncoded hw
  simp only at hn hr hv ⊢
  rw [encode_flatMap hr]
  have hs : name ++ v ++ ['='] ++ w ++ [q] ++ value.flatMap encodeChar ++ [q] ++ rest =
      name ++ (v ++ '=' :: (w ++ q :: (value.flatMap encodeChar ++ q :: rest))) := by simp
  rw [hs]
  obtain ⟨d, u, hdu, hd⟩ := lead_notName (blanks_of_white h1) (show isNameChar '=' = false by decide)
    (w ++ q :: (value.flatMap encodeChar ++ q :: rest))
  have hname := readName_name hn hd u
  rw [← hdu] at hname
  have hq1 : 33 ≤ q.toNat ∧ q.toNat < 128 := by rcases hq with rfl | rfl <;> decide
  have hrest : readAttributeRest e name (v ++ '=' :: (w ++ q :: (value.flatMap encodeChar ++ q :: rest))) =
      .ok ⟨name, value, .inside rest, false⟩ := by
    unfold readAttributeRest
    rw [skipWhiteSpace_stop e (blanks_of_white h1) (by decide) (by decide)]
    simp only
    rw [skipWhiteSpace_stop e (blanks_of_white h2) hq1.1 hq1.2]
    simp only
    unfold readAttributeValue
    rcases hq with rfl | rfl
    · rw [if_neg (by decide), if_pos rfl, readText_encode hv '"' (by simp)]
    · rw [if_pos rfl, readText_encode hv '\'' (by simp)]
  rw [hdu] at hrest hname ⊢
  obtain ⟨c, s, rfl, hc, hs⟩ := hn
  have hc1 := name_first_range hc
  constructor
  · rw [List.cons_append] at hname ⊢
    unfold parseAttribute
    rw [skipWhiteSpace, skip_stop e (by omega) (by omega)]
    simp only [hname]
    exact hrest
  · exact ⟨c, _, by simp; rfl, hc1⟩

theorem attributesText_shape {as : List (Text × Text)} {t : Text} (h : AttributesText as t) {w : Text} (hw : Blanks w) {x : Char}
    (hx : isNameChar x = false) (r : Text) : ∃ d u, t ++ (w ++ x :: r) = d :: u ∧ isNameChar d = false := by
  cases as with
  | nil =>
    have : t = [] := h
    subst this
    exact lead_notName hw hx r
  | cons a as =>
    obtain ⟨v, u, s, h1, h2, -, -, rfl⟩ := h
    obtain ⟨d, v, rfl⟩ := List.exists_cons_of_ne_nil h2
    exact ⟨d, _, by simp; rfl, white_notName ((isWhite_iff d).mpr (h1 d (by simp)))⟩

theorem attributesText_length {as : List (Text × Text)} : ∀ {t : Text}, AttributesText as t → as.length ≤ t.length := by
  induction as with
  | nil => intro t _; simp
  | cons a as ih =>
    rintro t ⟨v, u, s, h1, h2, -, h4, rfl⟩
    have := ih h4
    have := List.length_pos_iff.mpr h2
    simp only [List.length_append, List.length_cons]; omega

theorem parseAttributes_skip (f : ℕ) (e : Encoding) (name : Text) (acc : List (Text × Text)) {w : Text} (hw : Blanks w) (s : Text) :
    parseAttributes f e name acc (w ++ s) = parseAttributes f e name acc s := by
  cases f with
  | zero => rfl
  | succ f => rw [parseAttributes, parseAttributes, skip_blanks e hw]

theorem parseAttributes_text (e : Encoding) (name : Text) {w : Text} (hw : Blanks w) {x : Char} (hx : isNameChar x = false) (r : Text)
    (attributes : List (Text × Text)) : ∀ (t : Text) (acc : List (Text × Text)) (f : ℕ), AttributesText attributes t →
    (∀ a ∈ attributes, IsName a.1 ∧ NoReference a.2 ∧ WellEncoded e a.2) → ((acc ++ attributes).map Prod.fst).Nodup →
    attributes.length ≤ f →
    parseAttributes f e name acc (t ++ (w ++ x :: r)) =
      parseAttributes (f - attributes.length) e name (acc ++ attributes) (x :: r) := by
  induction attributes with
  | nil =>
    intro t acc f ht _ _ _
    have : t = [] := ht
    subst this
    rw [List.nil_append, parseAttributes_skip f e name acc hw]
    simp
  | cons a as ih =>
    intro t acc f ht ha hn hf
    obtain ⟨f, rfl⟩ : ∃ g, f = g + 1 := ⟨f - 1, by simp at hf; omega⟩
    obtain ⟨v, u, s, g1, g2, g3, g4, rfl⟩ := ht
    obtain ⟨h1, h2, h3⟩ := ha a (by simp)
    obtain ⟨hp, c, t, hct, hc1, hc2⟩ := attributeText_parse e (s ++ (w ++ x :: r)) h1 h2 h3 g3
    obtain ⟨d, k, hdu, -⟩ := attributesText_shape g4 hw hx r
    have hs1 : c ≠ '/' := ne_of_toNat (by have : ('/' : Char).toNat = 47 := rfl; omega)
    have hs2 : c ≠ '>' := ne_of_toNat (by have : ('>' : Char).toNat = 62 := rfl; omega)
    have hmem : a.1 ∉ acc.map Prod.fst := by
      rw [List.map_append, List.nodup_append] at hn
      intro hm
      exact hn.2.2 _ hm _ (by simp) rfl
    have hsplit : v ++ u ++ s ++ (w ++ x :: r) = v ++ (u ++ (s ++ (w ++ x :: r))) := by simp
    rw [hsplit, parseAttributes_skip _ e name acc (blanks_of_white g1)]
    have hstep : parseAttributes (f + 1) e name acc (u ++ (s ++ (w ++ x :: r))) =
        parseAttributes f e name (acc ++ [a]) (s ++ (w ++ x :: r)) := by
      rw [hct, List.cons_append] at hp ⊢
      rw [parseAttributes, skip_stop e (by omega) (by omega)]
      split
      · rename_i hx; cases hx
      · rename_i hx; injection hx with hx; exact absurd hx hs1
      · rename_i hx; injection hx with hx; exact absurd hx hs1
      · rename_i hx; injection hx with hx; exact absurd hx hs2
      · rename_i c' t' _ _ _ hx
        injection hx with hx1 hx2
        subst hx1; subst hx2
        rw [hp]
        simp only
        rw [hdu]
        simp only
        rw [if_neg hmem]
    rw [hstep, ih s (acc ++ [a]) f g4 (fun b hb => ha b (List.mem_cons_of_mem a hb)) (by simpa using hn) (by simpa using hf)]
    simp

theorem elementText_start (e : Encoding) {name : Text} (hn : IsName name) (attributes : List (Text × Text)) {t : Text}
    (ht : AttributesText attributes t) (ha : ∀ a ∈ attributes, IsName a.1 ∧ NoReference a.2 ∧ WellEncoded e a.2)
    (hd : (attributes.map Prod.fst).Nodup) {w : Text} (hw : Blanks w) {x : Char} (hx : isNameChar x = false) (r : Text) (f : ℕ)
    (hf : attributes.length ≤ f) :
    parseNode (f + 1) e ('<' :: (name ++ (t ++ (w ++ x :: r)))) =
      parseAttributes (f - attributes.length) e name attributes (x :: r) := by
  have hp := parseAttributes_text e name hw hx r attributes t [] f ht ha (by simpa using hd) hf
  obtain ⟨d, u, hdu, hd'⟩ := attributesText_shape ht hw hx r
  rw [hdu] at hp ⊢
  rw [element_start e hn hd' u f, hp]
  rfl

theorem comment_reads (e : Encoding) (v : Text) (h : ¬ "-->".toList <:+: v) : ReadsAs e (.comment v) ("!--".toList ++ v ++ "-->".toList) := by
  intro rest f hf
  obtain ⟨f, rfl⟩ : ∃ g, f = g + 1 := ⟨f - 1, by omega⟩
  have hi : identify ('<' :: ("!--".toList ++ v ++ "-->".toList ++ rest)) = .comment := by rfl
  refine ⟨?_, rfl⟩
  rw [parseNode, hi]
  have hr := readRaw_stop '-' '>' (by decide) v rest h
  have hs : ('<' :: ("!--".toList ++ v ++ "-->".toList ++ rest)).drop 4 = v ++ ['-', '-', '>'] ++ rest := by
    simp
  rw [hs]
  change Except.ok (Node.comment (readRaw ['-', '-', '>'] _).1, (readRaw ['-', '-', '>'] _).2, []) = _
  rw [hr]

theorem cdata_reads (e : Encoding) (v : Text) (h : ¬ "]]>".toList <:+: v) :
    ReadsAs e (.text true v) ("![CDATA[".toList ++ v ++ "]]>".toList) := by
  intro rest f hf
  obtain ⟨f, rfl⟩ : ∃ g, f = g + 1 := ⟨f - 1, by omega⟩
  have hi : identify ('<' :: ("![CDATA[".toList ++ v ++ "]]>".toList ++ rest)) = .cdata := by rfl
  refine ⟨?_, rfl⟩
  rw [parseNode, hi]
  have hr := readRaw_stop ']' '>' (by decide) v rest h
  have hs : ('<' :: ("![CDATA[".toList ++ v ++ "]]>".toList ++ rest)).drop 9 = v ++ [']', ']', '>'] ++ rest := by
    simp
  rw [hs]
  change Except.ok (Node.text true (readRaw [']', ']', '>'] _).1, (readRaw [']', ']', '>'] _).2, []) = _
  rw [hr]

theorem unknown_reads (e : Encoding) (v : Text) (h : IsOther v) : ReadsAs e (.unknown v) (v ++ ['>']) := by
  intro rest f hf
  obtain ⟨f, rfl⟩ : ∃ g, f = g + 1 := ⟨f - 1, by omega⟩
  obtain ⟨h1, h2⟩ := identify_other h rest
  rw [List.append_assoc, List.singleton_append]
  refine ⟨?_, h2⟩
  rw [parseNode, h1]
  simp only [List.drop_succ_cons, List.drop_zero]
  rw [parseUnknown_other h.1]

/-- A node that is no plain text and no declaration begins with '<'. -/
theorem nodeText_shape {n : Node} {t : Text} (h : ¬ n.IsPlain) (ht : NodeText n t) : ∃ u, t = '<' :: u := by
  cases n with
  | element name as cs =>
    rw [NodeText] at ht
    obtain ⟨a, w, -, -, ⟨-, rfl⟩ | ⟨b, -, rfl⟩⟩ := ht
    · exact ⟨_, by simp; rfl⟩
    · exact ⟨_, by simp; rfl⟩
  | text b v =>
    cases b with
    | false => exact absurd trivial h
    | true => rw [NodeText] at ht; exact ⟨_, by rw [ht]; rfl⟩
  | comment v => rw [NodeText] at ht; exact ⟨_, by rw [ht]; rfl⟩
  | unknown v => rw [NodeText] at ht; exact ⟨_, by rw [ht]; rfl⟩
  | declaration a b c => rw [NodeText] at ht; exact ⟨_, by rw [ht]; rfl⟩

theorem nodesText_shape {cs : List Node} {s : Text} (h : ∀ n, cs.head? = some n → ¬ n.IsPlain) (hs : NodesText cs s) (t : Text) :
    ∃ v u, s ++ '<' :: t = v ++ '<' :: u ∧ Blanks v := by
  cases cs with
  | nil =>
    rw [NodesText] at hs
    exact ⟨s, t, rfl, blanks_of_white hs⟩
  | cons n ns =>
    rw [NodesText] at hs
    obtain ⟨w, u, s, h1, h2, h3, rfl⟩ := hs
    obtain ⟨u, rfl⟩ := nodeText_shape (h n rfl) h2
    exact ⟨w, _, by simp; rfl, blanks_of_white h1⟩

mutual
theorem nodeText_reads (e : Encoding) : ∀ (n : Node) (u : Text), WellFormed e n → ¬ n.IsPlain → NodeText n ('<' :: u) → ReadsAs e n u
  | .comment v, u, h, _, ht => by
    have h : NoReturn v ∧ ¬ "-->".toList <:+: v := by simpa only [WellFormed] using h
    rw [NodeText] at ht
    have : u = "!--".toList ++ v ++ "-->".toList := by injection ht
    rw [this]
    exact comment_reads e v h.2
  | .unknown v, u, h, _, ht => by
    have h : IsOther v := by simpa only [WellFormed] using h
    rw [NodeText] at ht
    have : u = v ++ ['>'] := by injection ht
    rw [this]
    exact unknown_reads e v h
  | .text true v, u, h, _, ht => by
    have h : NoReturn v ∧ ¬ "]]>".toList <:+: v := by simpa only [WellFormed] using h
    rw [NodeText] at ht
    have : u = "![CDATA[".toList ++ v ++ "]]>".toList := by injection ht
    rw [this]
    exact cdata_reads e v h.2
  | .text false v, _, _, h, _ => absurd trivial h
  | .declaration _ _ _, _, h, _, _ => by simp [WellFormed] at h
  | .element name attributes children, u, h, _, ht => by
    rw [WellFormed] at h
    obtain ⟨h1, h2, h3, h4, h5⟩ := h
    rw [NodeText] at ht
    obtain ⟨a, w, ha, hw, ⟨rfl, hu⟩ | ⟨b, hb, hu⟩⟩ := ht
    · have hu : u = name ++ (a ++ (w ++ '/' :: '>' :: [])) := by
        simpa using hu
      subst hu
      intro rest f hf
      have hl := attributesText_length ha
      simp only [List.length_append, List.length_cons] at hf
      obtain ⟨f, rfl⟩ : ∃ g, f = g + 1 := ⟨f - 1, by omega⟩
      have ht : '<' :: (name ++ (a ++ (w ++ '/' :: '>' :: [])) ++ rest) = '<' :: (name ++ (a ++ (w ++ '/' :: '>' :: rest))) := by simp
      rw [ht]
      refine ⟨?_, (identify_name h1 _).2⟩
      rw [elementText_start e h1 attributes ha h2 h3 (blanks_of_white hw) (by decide) _ f (by omega)]
      obtain ⟨g, hg⟩ : ∃ g, f - attributes.length = g + 1 := ⟨f - attributes.length - 1, by omega⟩
      rw [hg, parseAttributes, skip_stop e (by decide) (by decide)]
      rfl
    · have hu : u = name ++ (a ++ (w ++ '>' :: (b ++ '<' :: '/' :: (name ++ ['>'])))) := by
        simpa using hu
      subst hu
      intro rest f hf
      have hl := attributesText_length ha
      simp only [List.length_append, List.length_cons] at hf
      obtain ⟨f, rfl⟩ : ∃ g, f = g + 1 := ⟨f - 1, by omega⟩
      have ht : '<' :: (name ++ (a ++ (w ++ '>' :: (b ++ '<' :: '/' :: (name ++ ['>'])))) ++ rest) =
          '<' :: (name ++ (a ++ (w ++ '>' :: (b ++ '<' :: '/' :: (name ++ '>' :: rest))))) := by simp
      rw [ht]
      refine ⟨?_, (identify_name h1 _).2⟩
      rw [elementText_start e h1 attributes ha h2 h3 (blanks_of_white hw) (by decide) _ f (by omega)]
      obtain ⟨g, hg⟩ : ∃ g, f - attributes.length = g + 1 := ⟨f - attributes.length - 1, by omega⟩
      have hr := nodesText_read e children b h4 h5 hb [] (name ++ '>' :: rest) g (by
        simp only [List.length_append, List.length_cons]; omega)
      rw [hg, parseAttributes, skip_stop e (by decide) (by decide)]
      simp only
      rw [hr]
      simp only [List.nil_append]
      have hp : ("</".toList ++ name ++ ">".toList).isPrefixOf ('<' :: '/' :: (name ++ '>' :: rest)) = true := by
        rw [List.isPrefixOf_iff_prefix]
        exact ⟨rest, by simp⟩
      rw [if_pos hp]
      have hdrop : ('<' :: '/' :: (name ++ '>' :: rest)).drop (name.length + 3) = rest := by
        have : '<' :: '/' :: (name ++ '>' :: rest) = ('<' :: '/' :: (name ++ ['>'])) ++ rest := by simp
        rw [this, List.drop_left' (by simp)]
      rw [hdrop]
theorem nodesText_read (e : Encoding) : ∀ (cs : List Node) (b : Text), WellFormedAll e cs →
    cs.IsChain (fun a b => ¬ (a.IsPlain ∧ b.IsPlain)) → NodesText cs b → ∀ (acc : List Node) (t : Text) (f : ℕ),
    2 * (b.length + t.length) + 7 ≤ f →
    readValue f e acc (.inside (b ++ '<' :: '/' :: t)) = .ok (acc ++ cs, .inside ('<' :: '/' :: t), [])
  | [], b, _, _, hb, acc, t, f, hf => by
    rw [NodesText] at hb
    obtain ⟨f, rfl⟩ : ∃ g, f = g + 1 := ⟨f - 1, by omega⟩
    rw [readValue_lead _ e acc (blanks_of_white hb), readValue, skipWhiteSpace, skip_stop e (by decide) (by decide)]
    have hp : "</".toList.isPrefixOf ('<' :: '/' :: t) = true := rfl
    simp only [ne_eq, not_true_eq_false, if_false, hp, if_true, List.append_nil]
  | n :: ns, b, h, hch, hb, acc, t, f, hf => by
    rw [WellFormedAll] at h
    obtain ⟨hn, hns⟩ := h
    rw [NodesText] at hb
    obtain ⟨w, u, s, hw, hu, hs, rfl⟩ := hb
    have hch' : ns.IsChain (fun a b => ¬ (a.IsPlain ∧ b.IsPlain)) := by
      cases ns with
      | nil => exact List.IsChain.nil
      | cons m ms => exact (List.isChain_cons_cons.mp hch).2
    have hrec := fun acc f => nodesText_read e ns s hns hch' hs acc t f
    obtain ⟨f, rfl⟩ : ∃ g, f = g + 1 := ⟨f - 1, by omega⟩
    have hw := blanks_of_white hw
    simp only [List.length_append] at hf
    by_cases hp : n.IsPlain
    · obtain ⟨v, rfl⟩ : ∃ v, n = .text false v := by
        cases n with
        | text b v => cases b with
          | false => exact ⟨v, rfl⟩
          | true => exact absurd hp (by simp [Node.IsPlain])
        | _ => exact absurd hp (by simp [Node.IsPlain])
      have hv : IsPlainText e v := by simpa only [WellFormed] using hn
      rw [NodeText] at hu
      have hce : cString (encode v) = encode v := by rw [encode_flatMap hv.1, cString_encode]
      have hhead : ∀ m, ns.head? = some m → ¬ m.IsPlain := by
        intro m hm hmp
        cases ns with
        | nil => simp at hm
        | cons k ks =>
          simp only [List.head?_cons, Option.some.injEq] at hm
          subst hm
          exact (List.isChain_cons_cons.mp hch).1 ⟨hp, hmp⟩
      obtain ⟨lead, k, hsh, hlead⟩ := nodesText_shape hhead hs ('/' :: t)
      obtain ⟨g1, x, r, g2, g3, g4⟩ := parseText_blanks e hv hlead k
      rw [hce, ← hu] at g1 g2
      have hu1 : 1 ≤ u.length := by
        have h1 := length_flatMap_encodeChar v
        rw [← encode_flatMap hv.1, ← hu] at h1
        obtain ⟨-, -, -, -, -, ⟨k, hk, -⟩, -⟩ := hv
        have := List.length_pos_of_mem hk
        omega
      have hr := hrec (acc ++ [.text false v]) f (by omega)
      have hsplit : w ++ u ++ s ++ '<' :: '/' :: t = w ++ (x :: r) := by
        rw [← g2, ← hsh]; simp
      rw [hsplit, readValue_lead _ e acc hw, readValue, g4]
      simp only [g3, ne_eq, not_false_eq_true, if_true]
      rw [← g2, g1]
      simp only [not_blank hv, Bool.false_eq_true, if_false]
      rw [hsh] at hr
      rw [← readValue_lead f e _ hlead, hr]
      simp
    · obtain ⟨u, rfl⟩ := nodeText_shape hp hu
      have h4 := nodeText_reads e n u hn hp hu
      simp only [List.length_cons] at hf
      have hsplit : w ++ '<' :: u ++ s ++ '<' :: '/' :: t = w ++ '<' :: (u ++ (s ++ '<' :: '/' :: t)) := by simp
      rw [hsplit, readValue_lead _ e acc hw, readValue, skipWhiteSpace, skip_stop e (by decide) (by decide)]
      obtain ⟨k1, k2⟩ := h4 (s ++ '<' :: '/' :: t) f (by simp only [List.length_append, List.length_cons]; omega)
      simp only [ne_eq, not_true_eq_false, if_false, k2, k1, Bool.false_eq_true]
      rw [hrec (acc ++ [n]) f (by omega)]
      simp
end

/-! ## Documents -/

theorem skip_all (e : Encoding) {w : Text} (hw : Blanks w) : skip e w = [] := by
  have h := skip_blanks e hw []
  rw [List.append_nil] at h
  rw [h]
  unfold skip
  split_ifs <;> rfl

theorem nodesText_document (e : Encoding) (ns : List Node) : ∀ (acc : List Node) (b : Text) (f : ℕ),
    (∀ n ∈ ns, WellFormed e n ∧ ¬ n.IsPlain) → NodesText ns b → 2 * b.length + 3 ≤ f →
    ∃ p, skipWhiteSpace e (.inside b) = .ok p ∧ parseNodes f e acc p = .ok (acc ++ ns, []) ∧ (ns ≠ [] → p ≠ .null) := by
  induction ns with
  | nil =>
    intro acc b f _ hb hf
    rw [NodesText] at hb
    obtain ⟨f, rfl⟩ : ∃ g, f = g + 1 := ⟨f - 1, by omega⟩
    cases b with
    | nil => exact ⟨.null, rfl, by simp [parseNodes], by simp⟩
    | cons c w =>
      refine ⟨.inside [], ?_, by simp [parseNodes], by simp⟩
      rw [skipWhiteSpace, skip_all e (blanks_of_white hb)]
  | cons n ns ih =>
    intro acc b f h hb hf
    obtain ⟨f, rfl⟩ : ∃ g, f = g + 1 := ⟨f - 1, by omega⟩
    rw [NodesText] at hb
    obtain ⟨w, u, s, hw, hu, hs, rfl⟩ := hb
    obtain ⟨hn, hp⟩ := h n (by simp)
    obtain ⟨u, rfl⟩ := nodeText_shape hp hu
    have h4 := nodeText_reads e n u hn hp hu
    simp only [List.length_append, List.length_cons] at hf
    obtain ⟨p, g1, g2, -⟩ := ih (acc ++ [n]) s f (fun m hm => h m (List.mem_cons_of_mem n hm)) hs (by omega)
    have hsplit : w ++ '<' :: u ++ s = w ++ '<' :: (u ++ s) := by simp
    refine ⟨_, by rw [hsplit]; exact skipWhiteSpace_lt e (blanks_of_white hw) _, ?_, by simp⟩
    have hne : nextEncoding e n = e := by
      cases n with
      | declaration a b c => simp [WellFormed] at hn
      | _ => rfl
    obtain ⟨k1, k2⟩ := h4 s f (by omega)
    rw [parseNodes, k1]
    simp only [ne_eq, not_true_eq_false, if_false, hne]
    rw [g1]
    simp only
    rw [g2]
    simp

theorem layout_document (d : Document) (h : IsDocument d) (t : Text) (ht : NodesText d.nodes t) (f : ℕ) (hf : 2 * t.length + 3 ≤ f) :
    ∃ c s, t = c :: s ∧ c.toNat < 128 ∧
    ∃ p, skipWhiteSpace (if d.bom then .utf8 else .unknown) (.inside (c :: s)) = .ok p ∧ p ≠ .null ∧
      parseNodes f (if d.bom then .utf8 else .unknown) [] p = .ok (d.nodes, []) := by
  have hhead : ∀ {w u : Text}, Blanks w → ∃ c s, w ++ '<' :: u = c :: s ∧ c.toNat < 128 := by
    intro w u hw
    cases w with
    | nil => exact ⟨'<', _, rfl, by decide⟩
    | cons c w => exact ⟨c, _, rfl, by have := white_small (hw c (by simp)); omega⟩
  rcases h with ⟨v, en, st, ns, hd, h1, h2, h3, h4⟩ | ⟨hne, h4⟩
  · rw [hd, NodesText] at ht
    rw [hd]
    obtain ⟨w, u, s, hw, hu, hs, rfl⟩ := ht
    rw [NodeText] at hu
    have hw := blanks_of_white hw
    obtain ⟨f, rfl⟩ : ∃ g, f = g + 1 := ⟨f - 1, by omega⟩
    obtain ⟨k, hk⟩ : ∃ k, printDeclaration v en st ++ s = '<' :: k := ⟨_, rfl⟩
    have hsplit : w ++ u ++ s = w ++ '<' :: k := by rw [hu, ← hk]; simp
    have hpos : 1 ≤ u.length := by
      rw [hu]
      unfold printDeclaration
      simp only [List.length_append]
      have : "<?xml ".toList.length = 6 := rfl
      omega
    simp only [List.length_append] at hf
    rw [hsplit]
    obtain ⟨c, r, hcr, hc⟩ := hhead (u := k) hw
    refine ⟨c, r, hcr, hc, .inside ('<' :: k), ?_, by simp, ?_⟩
    · rw [← hcr]; exact skipWhiteSpace_lt _ hw _
    · obtain ⟨f', hf'⟩ : ∃ g, f = g + 1 := ⟨f - 1, by omega⟩
      have hr := declaration_read (if d.bom then .utf8 else .unknown) h1 h2 h3 s f'
      rw [← hf', hk] at hr
      have hen : nextEncoding (if d.bom then .utf8 else .unknown) (.declaration v en st) =
          if d.bom then .utf8 else namedEncoding en := by
        split_ifs
        · exact nextEncoding_utf8 _
        · exact nextEncoding_declaration v en st
      obtain ⟨p, g1, g2, -⟩ := nodesText_document (if d.bom then .utf8 else namedEncoding en) ns [.declaration v en st] s f h4 hs (by omega)
      rw [parseNodes, hr]
      simp only [ne_eq, not_true_eq_false, if_false, hen, List.nil_append]
      rw [g1]
      simp only
      rw [g2]
      simp
  · obtain ⟨p, g1, g2, g3⟩ := nodesText_document _ d.nodes [] t f h4 ht hf
    obtain ⟨n, ns, hn⟩ := List.exists_cons_of_ne_nil hne
    have hp := (h4 n (by rw [hn]; simp)).2
    rw [hn, NodesText] at ht
    obtain ⟨w, u, s, hw, hu, hs, rfl⟩ := ht
    obtain ⟨u, rfl⟩ := nodeText_shape hp hu
    have hsplit : w ++ '<' :: u ++ s = w ++ '<' :: (u ++ s) := by simp
    rw [hsplit] at g1 ⊢
    obtain ⟨c, r, hcr, hc⟩ := hhead (u := u ++ s) (blanks_of_white hw)
    rw [hcr] at g1
    exact ⟨c, r, hcr, hc, p, g1, g3 hne, by rw [g2]; simp⟩

/-! ## C102 -/

/-- C102: white space between the nodes, between the attributes, around '=' and before '>' or '/>' makes no difference, nor does the
kind of quotation mark, nor whether an element without children is written as one tag or as two. -/
theorem C102_layout (d : Document) (h : IsDocument d) (t : Text) (ht : NodesText d.nodes t) :
    parse ((if d.bom then byteOrderMark else []) ++ t) = .ok ⟨d, []⟩ := by
  have hne := document_ne_nil h
  obtain ⟨bom, ns⟩ := d
  simp only at ht
  cases bom with
  | true =>
    obtain ⟨c, s, hcs, hc, p, hp1, hp2, hp3⟩ := layout_document ⟨true, ns⟩ h t ht (2 * (byteOrderMark ++ t).length + 3) (by
      simp only [List.length_append]; omega)
    simp only [if_true] at hp1 hp3 ⊢
    have hbn : byteOrderMark ++ t ≠ [] := by simp [byteOrderMark]
    have hpre : byteOrderMark.isPrefixOf (byteOrderMark ++ t) = true := by
      rw [List.isPrefixOf_iff_prefix]; exact List.prefix_append _ _
    have hsk : skipWhiteSpace .utf8 (.inside (byteOrderMark ++ t)) = .ok p := by
      rw [← hp1, skipWhiteSpace, ← hcs, ← skip_bom]
      rfl
    rw [parse, if_neg hbn]
    simp only [hpre, if_true, hsk]
    cases p with
    | null => exact absurd rfl hp2
    | inside t => rw [hp3, finishDocument_cons true hne]
    | past k => rw [hp3, finishDocument_cons true hne]
  | false =>
    obtain ⟨c, s, hcs, hc, p, hp1, hp2, hp3⟩ := layout_document ⟨false, ns⟩ h t ht (2 * t.length + 3) le_rfl
    simp only [Bool.false_eq_true, if_false, List.nil_append] at hp1 hp3 ⊢
    have hbn : t ≠ [] := by rw [hcs]; simp
    have hpre : byteOrderMark.isPrefixOf t = false := by
      rw [Bool.eq_false_iff]
      intro hb
      rw [List.isPrefixOf_iff_prefix, hcs, byteOrderMark, List.cons_prefix_cons] at hb
      rw [← hb.1] at hc
      exact absurd hc (by decide)
    rw [parse, if_neg hbn]
    rw [← hcs] at hp1
    simp only [hpre, Bool.false_eq_true, if_false, hp1]
    cases p with
    | null => exact absurd rfl hp2
    | inside t => rw [hp3, finishDocument_cons false hne]
    | past k => rw [hp3, finishDocument_cons false hne]

/-! ### Line breaks -/

theorem normalize_keep {x : Text} (h : NoReturn x) (y : Text) : normalize (x ++ y) = x ++ normalize y := by
  induction x with
  | nil => rfl
  | cons c s ih =>
    rw [noReturn_cons] at h
    obtain ⟨⟨h1, h2⟩, h3⟩ := h
    rw [List.cons_append, List.cons_append, ← ih h3]
    conv_lhs => unfold normalize
    split
    · rename_i hx; cases hx
    · rename_i hx; injection hx with hx; exact absurd hx h2
    · rename_i hx; injection hx with hx; exact absurd hx h1
    · rename_i hx; injection hx with hx; exact absurd hx h1
    · rename_i hx
      injection hx with hx1 hx2
      rw [hx1, hx2]

theorem normalize_return {y : Text} (hy : y.head? ≠ some '\n') : normalize ('\r' :: y) = '\n' :: normalize y := by
  cases y with
  | nil => rfl
  | cons d y =>
    have hd : d ≠ '\n' := by simpa using hy
    rw [normalize]
    intro s hs
    injection hs with hs
    exact hd hs

theorem white_lf : '\n' ∈ whiteSpace := by decide

theorem normalize_white (w : Text) : ∀ (y : Text), IsWhite w → y.head? ≠ some '\n' →
    ∃ v, IsWhite v ∧ (w ≠ [] → v ≠ []) ∧ normalize (w ++ y) = v ++ normalize y := by
  induction hl : w.length using Nat.strong_induction_on generalizing w with
  | _ n ih =>
    intro y hw hy
    cases w with
    | nil => exact ⟨[], by simp [IsWhite], by simp, rfl⟩
    | cons c s =>
      have hs : IsWhite s := fun d hd => hw d (List.mem_cons_of_mem c hd)
      have hlf : ∀ {v : Text}, IsWhite v → IsWhite ('\n' :: v) := by
        intro v hv d hd
        rcases List.mem_cons.mp hd with rfl | hd
        · exact white_lf
        · exact hv d hd
      by_cases hc : c = '\r'
      · subst hc
        cases s with
        | nil =>
          refine ⟨['\n'], hlf (by simp [IsWhite]), by simp, ?_⟩
          rw [List.singleton_append, normalize_return hy]
          rfl
        | cons d s =>
          by_cases hd : d = '\n'
          · subst hd
            obtain ⟨v, h1, -, h3⟩ := ih s.length (by simp at hl; omega) s rfl y
              (fun d hd => hs d (List.mem_cons_of_mem _ hd)) hy
            exact ⟨'\n' :: v, hlf h1, by simp, by
              rw [List.cons_append, List.cons_append, normalize, h3]; rfl⟩
          · obtain ⟨v, h1, -, h3⟩ := ih (d :: s).length (by simp at hl ⊢; omega) (d :: s) rfl y hs hy
            refine ⟨'\n' :: v, hlf h1, by simp, ?_⟩
            rw [List.cons_append, normalize_return (by simpa using hd), h3]
            rfl
      · obtain ⟨v, h1, -, h3⟩ := ih s.length (by simp at hl; omega) s rfl y hs hy
        have h0 : c ≠ '\x00' := by
          rintro rfl
          exact absurd (hw '\x00' (by simp)) (by decide)
        refine ⟨c :: v, ?_, by simp, ?_⟩
        · intro d hd
          rcases List.mem_cons.mp hd with rfl | hd
          · exact hw d (by simp)
          · exact h1 d hd
        · have := normalize_keep (x := [c]) (by simp [NoReturn, Ne.symm hc, Ne.symm h0]) (s ++ y)
          rw [List.cons_append, ← List.singleton_append, this, h3]
          rfl

theorem noReturn_encoded {v : Text} (h : NoReference v) : NoReturn (encode v) := by
  have h1 := noReturn_encode h
  rwa [encode_flatMap h, cString_encode, ← encode_flatMap h] at h1

theorem head_of_noReturn {x y : Text} (hx : x ≠ []) (h : ∀ c ∈ x, c ≠ '\n') : (x ++ y).head? ≠ some '\n' := by
  obtain ⟨c, x, rfl⟩ := List.exists_cons_of_ne_nil hx
  simpa using h c (by simp)

theorem attributeText_normalize {a : Text × Text} (hn : IsName a.1) (hr : NoReference a.2) {t : Text} (ht : AttributeText a t)
    (y : Text) : ∃ t', AttributeText a t' ∧ normalize (t ++ y) = t' ++ normalize y := by
  obtain ⟨v, w, q, h1, h2, hq, rfl⟩ := ht
  have hq1 : q ≠ '\n' ∧ NoReturn [q] := by rcases hq with rfl | rfl <;> simp [NoReturn]
  obtain ⟨w', k1, -, k3⟩ := normalize_white w ([q] ++ (encode a.2 ++ ([q] ++ y))) h2 (by simpa using hq1.1)
  obtain ⟨v', j1, -, j3⟩ := normalize_white v (['='] ++ (w ++ ([q] ++ (encode a.2 ++ ([q] ++ y))))) h1 (by simp)
  refine ⟨_, ⟨v', w', q, j1, k1, hq, rfl⟩, ?_⟩
  rw [show a.1 ++ v ++ ['='] ++ w ++ [q] ++ encode a.2 ++ [q] ++ y =
      a.1 ++ (v ++ (['='] ++ (w ++ ([q] ++ (encode a.2 ++ ([q] ++ y)))))) by simp,
    normalize_keep (noReturn_name hn), j3, normalize_keep (x := ['=']) (by simp [NoReturn]), k3, normalize_keep hq1.2,
    normalize_keep (noReturn_encoded hr), normalize_keep hq1.2]
  simp

theorem attributeText_head {a : Text × Text} (hn : IsName a.1) {t : Text} (ht : AttributeText a t) (y : Text) :
    (t ++ y).head? ≠ some '\n' := by
  obtain ⟨v, w, q, -, -, -, rfl⟩ := ht
  obtain ⟨c, s, h1, hc, -⟩ := hn
  have := name_first_range hc
  rw [h1]
  simp only [List.cons_append, List.head?_cons, ne_eq, Option.some.injEq]
  exact ne_of_toNat (by have : ('\n' : Char).toNat = 10 := rfl; omega)

theorem attributesText_normalize {e : Encoding} (as : List (Text × Text)) : ∀ (t y : Text),
    (∀ a ∈ as, IsName a.1 ∧ NoReference a.2 ∧ WellEncoded e a.2) → AttributesText as t →
    ∃ t', AttributesText as t' ∧ normalize (t ++ y) = t' ++ normalize y := by
  induction as with
  | nil =>
    intro t y _ ht
    have : t = [] := ht
    subst this
    exact ⟨[], rfl, rfl⟩
  | cons a as ih =>
    intro t y ha ht
    obtain ⟨w, u, s, h1, h2, h3, h4, rfl⟩ := ht
    obtain ⟨g1, g2, -⟩ := ha a (by simp)
    obtain ⟨s', k1, k2⟩ := ih s y (fun b hb => ha b (List.mem_cons_of_mem a hb)) h4
    obtain ⟨u', j1, j2⟩ := attributeText_normalize g1 g2 h3 (s ++ y)
    obtain ⟨w', i1, i2, i3⟩ := normalize_white w (u ++ (s ++ y)) h1 (attributeText_head g1 h3 _)
    refine ⟨w' ++ u' ++ s', ⟨w', u', s', i1, i2 h2, j1, k1, rfl⟩, ?_⟩
    rw [show w ++ u ++ s ++ y = w ++ (u ++ (s ++ y)) by simp, i3, j2, k2]
    simp

theorem nodeText_head {e : Encoding} {n : Node} {t : Text} (h : WellFormed e n) (ht : NodeText n t) (y : Text) :
    (t ++ y).head? ≠ some '\n' := by
  by_cases hp : n.IsPlain
  · obtain ⟨v, rfl⟩ : ∃ v, n = .text false v := by
      cases n with
      | text b v => cases b with
        | false => exact ⟨v, rfl⟩
        | true => exact absurd hp (by simp [Node.IsPlain])
      | _ => exact absurd hp (by simp [Node.IsPlain])
    have hv : IsPlainText e v := by simpa only [WellFormed] using h
    rw [NodeText] at ht
    apply head_of_noReturn
    · intro h0
      have h1 := length_flatMap_encodeChar v
      rw [← encode_flatMap hv.1, ← ht, h0] at h1
      obtain ⟨-, -, -, -, -, ⟨k, hk, -⟩, -⟩ := hv
      have := List.length_pos_of_mem hk
      simp at h1
      simp [h1] at this
    · intro c hc
      rw [ht] at hc
      have := ((C92_safe v hv.1).1 c hc).2
      exact ne_of_toNat (by have : ('\n' : Char).toNat = 10 := rfl; omega)
  · obtain ⟨u, rfl⟩ := nodeText_shape hp ht
    simp

mutual
theorem nodeText_normalize (e : Encoding) : ∀ (n : Node) (t y : Text), WellFormed e n → NodeText n t →
    ∃ t', NodeText n t' ∧ normalize (t ++ y) = t' ++ normalize y
  | .comment v, t, y, h, ht => by
    have h : NoReturn v ∧ ¬ "-->".toList <:+: v := by simpa only [WellFormed] using h
    refine ⟨t, ht, normalize_keep ?_ y⟩
    rw [NodeText] at ht
    rw [ht]
    simp only [noReturn_append]
    exact ⟨⟨noReturn_literal rfl, h.1⟩, noReturn_literal rfl⟩
  | .unknown v, t, y, h, ht => by
    have h : IsOther v := by simpa only [WellFormed] using h
    refine ⟨t, ht, normalize_keep ?_ y⟩
    rw [NodeText] at ht
    rw [ht]
    simp only [noReturn_append]
    exact ⟨⟨noReturn_literal rfl, h.2.1⟩, noReturn_literal rfl⟩
  | .text true v, t, y, h, ht => by
    have h : NoReturn v ∧ ¬ "]]>".toList <:+: v := by simpa only [WellFormed] using h
    refine ⟨t, ht, normalize_keep ?_ y⟩
    rw [NodeText] at ht
    rw [ht]
    simp only [noReturn_append]
    exact ⟨⟨noReturn_literal rfl, h.1⟩, noReturn_literal rfl⟩
  | .text false v, t, y, h, ht => by
    have h : IsPlainText e v := by simpa only [WellFormed] using h
    refine ⟨t, ht, normalize_keep ?_ y⟩
    rw [NodeText] at ht
    rw [ht]
    exact noReturn_encoded h.1
  | .declaration _ _ _, _, _, h, _ => by simp [WellFormed] at h
  | .element name attributes children, t, y, h, ht => by
    rw [WellFormed] at h
    obtain ⟨h1, h2, h3, h4, h5⟩ := h
    rw [NodeText] at ht
    have hlt : NoReturn (['<'] ++ name) := by
      rw [noReturn_append]; exact ⟨noReturn_literal rfl, noReturn_name h1⟩
    obtain ⟨a, w, ha, hw, ⟨hc, rfl⟩ | ⟨b, hb, rfl⟩⟩ := ht
    · obtain ⟨w', k1, -, k3⟩ := normalize_white w ("/>".toList ++ y) hw (by simp)
      obtain ⟨a', j1, j2⟩ := attributesText_normalize attributes a (w ++ ("/>".toList ++ y)) h2 ha
      refine ⟨['<'] ++ name ++ a' ++ w' ++ "/>".toList, ?_, ?_⟩
      · rw [NodeText]
        exact ⟨a', w', j1, k1, Or.inl ⟨hc, rfl⟩⟩
      · rw [show ['<'] ++ name ++ a ++ w ++ "/>".toList ++ y = (['<'] ++ name) ++ (a ++ (w ++ ("/>".toList ++ y))) by
            simp only [List.append_assoc],
          normalize_keep hlt, j2, k3, normalize_keep (x := "/>".toList) (noReturn_literal rfl)]
        simp only [List.append_assoc]
    · obtain ⟨b', i1, i2⟩ := nodesText_normalize e children b ("</".toList ++ (name ++ (['>'] ++ y))) h4 hb (by simp)
      obtain ⟨w', k1, -, k3⟩ := normalize_white w (['>'] ++ (b ++ ("</".toList ++ (name ++ (['>'] ++ y))))) hw (by simp)
      obtain ⟨a', j1, j2⟩ := attributesText_normalize attributes a
        (w ++ (['>'] ++ (b ++ ("</".toList ++ (name ++ (['>'] ++ y)))))) h2 ha
      refine ⟨['<'] ++ name ++ a' ++ w' ++ ['>'] ++ b' ++ "</".toList ++ name ++ ['>'], ?_, ?_⟩
      · rw [NodeText]
        exact ⟨a', w', j1, k1, Or.inr ⟨b', i1, rfl⟩⟩
      · rw [show ['<'] ++ name ++ a ++ w ++ ['>'] ++ b ++ "</".toList ++ name ++ ['>'] ++ y =
            (['<'] ++ name) ++ (a ++ (w ++ (['>'] ++ (b ++ ("</".toList ++ (name ++ (['>'] ++ y))))))) by
            simp only [List.append_assoc],
          normalize_keep hlt, j2, k3, normalize_keep (x := ['>']) (noReturn_literal rfl), i2,
          normalize_keep (x := "</".toList) (noReturn_literal rfl), normalize_keep (noReturn_name h1),
          normalize_keep (x := ['>']) (noReturn_literal rfl)]
        simp only [List.append_assoc]
theorem nodesText_normalize (e : Encoding) : ∀ (cs : List Node) (b y : Text), WellFormedAll e cs → NodesText cs b →
    y.head? ≠ some '\n' → ∃ b', NodesText cs b' ∧ normalize (b ++ y) = b' ++ normalize y
  | [], b, y, _, hb, hy => by
    rw [NodesText] at hb
    obtain ⟨v, h1, -, h3⟩ := normalize_white b y hb hy
    exact ⟨v, by rw [NodesText]; exact h1, h3⟩
  | n :: ns, b, y, h, hb, hy => by
    rw [WellFormedAll] at h
    rw [NodesText] at hb
    obtain ⟨w, u, s, hw, hu, hs, rfl⟩ := hb
    obtain ⟨s', k1, k2⟩ := nodesText_normalize e ns s y h.2 hs hy
    obtain ⟨u', j1, j2⟩ := nodeText_normalize e n u (s ++ y) h.1 hu
    obtain ⟨w', i1, -, i3⟩ := normalize_white w (u ++ (s ++ y)) hw (nodeText_head h.1 hu _)
    refine ⟨w' ++ u' ++ s', ?_, ?_⟩
    · rw [NodesText]; exact ⟨w', u', s', i1, j1, k1, rfl⟩
    · rw [show w ++ u ++ s ++ y = w ++ (u ++ (s ++ y)) by simp, i3, j2, k2]
      simp
end

theorem wellFormedAll_of {e : Encoding} {ns : List Node} (h : ∀ n ∈ ns, WellFormed e n) : WellFormedAll e ns := by
  induction ns with
  | nil => trivial
  | cons n ns ih => exact ⟨h n (by simp), ih (fun m hm => h m (List.mem_cons_of_mem n hm))⟩

theorem document_normalize (d : Document) (h : IsDocument d) (t : Text) (ht : NodesText d.nodes t) : NodesText d.nodes (normalize t) := by
  rcases h with ⟨v, en, st, ns, hd, h1, h2, h3, h4⟩ | ⟨hne, h4⟩
  · rw [hd, NodesText] at ht ⊢
    obtain ⟨w, u, s, hw, hu, hs, rfl⟩ := ht
    obtain ⟨s', k1, k2⟩ := nodesText_normalize _ ns s [] (wellFormedAll_of fun n hn => (h4 n hn).1) hs (by simp)
    rw [NodeText] at hu
    have hu2 : NoReturn u := by
      rw [hu]
      unfold printDeclaration
      simp only [noReturn_append]
      exact ⟨⟨⟨⟨noReturn_literal rfl, noReturn_declared (noReturn_literal rfl) h1⟩, noReturn_declared (noReturn_literal rfl) h2⟩,
        noReturn_declared (noReturn_literal rfl) h3⟩, noReturn_literal rfl⟩
    obtain ⟨w', i1, -, i3⟩ := normalize_white w (u ++ s) hw (by
      have : ∃ k, printDeclaration v en st ++ s = '<' :: k := ⟨_, rfl⟩
      obtain ⟨k, hk⟩ := this
      rw [hu, hk]; simp)
    rw [List.append_nil] at k2
    refine ⟨w', u, s', i1, by rw [NodeText]; exact hu, k1, ?_⟩
    rw [List.append_assoc, i3, normalize_keep hu2, k2]
    simp [normalize]
  · obtain ⟨t', k1, k2⟩ := nodesText_normalize _ d.nodes t [] (wellFormedAll_of fun n hn => (h4 n hn).1) ht (by simp)
    rw [List.append_nil] at k2
    rw [k2, show normalize [] = [] from rfl, List.append_nil]
    exact k1

/-- C102: it makes no difference to a file either, whatever the line breaks are. -/
theorem C102_file (d : Document) (h : IsDocument d) (t : Text) (ht : NodesText d.nodes t) :
    loadFile ((if d.bom then byteOrderMark else []) ++ t) = .ok ⟨d, []⟩ := by
  have h1 := C102_layout d h _ (document_normalize d h t ht)
  obtain ⟨c, s, hcs, -⟩ := layout_document d h t ht _ le_rfl
  have hb : NoReturn (if d.bom then byteOrderMark else []) := by
    split_ifs
    · exact noReturn_literal (by decide)
    · exact noReturn_literal rfl
  rw [loadFile, if_neg (by simp [hcs]), normalize_keep hb, h1]

/-- The same document with line breaks of two characters, with a tab, other quotation marks, and an element without children as two tags. -/
example : NodesText [.element "a".toList [("b".toList, "x".toList)] [.text false "t & u".toList, .element "d".toList [] []]]
    "\r\n<a\tb = 'x' >\r\n t &amp; u <d>\r\n</d></a>\r\n".toList := by
  have hw : ∀ w : Text, w.all (· ∈ whiteSpace) = true → IsWhite w := fun w h => by simpa [IsWhite] using h
  have ha : AttributesText [("b".toList, "x".toList)] "\tb = 'x'".toList :=
    ⟨['\t'], "b = 'x'".toList, [], hw _ (by decide), by simp, ⟨[' '], [' '], '\'', hw _ (by decide), hw _ (by decide), by simp, by decide⟩,
      rfl, by decide⟩
  rw [NodesText]
  refine ⟨"\r\n".toList, "<a\tb = 'x' >\r\n t &amp; u <d>\r\n</d></a>".toList, "\r\n".toList, hw _ (by decide), ?_, hw _ (by decide), by decide⟩
  rw [NodeText]
  refine ⟨_, [' '], ha, hw _ (by decide), Or.inr ⟨"\r\n t &amp; u <d>\r\n</d>".toList, ?_, by decide⟩⟩
  rw [NodesText]
  refine ⟨"\r\n ".toList, "t &amp; u".toList, " <d>\r\n</d>".toList, hw _ (by decide), by rw [NodeText]; decide, ?_, by decide⟩
  rw [NodesText]
  refine ⟨" ".toList, "<d>\r\n</d>".toList, [], hw _ (by decide), ?_, hw _ (by decide), by decide⟩
  rw [NodeText]
  exact ⟨[], [], rfl, hw _ (by decide), Or.inr ⟨"\r\n".toList, hw _ (by decide), by decide⟩⟩

/-- C102, refuted: XML also allows white space before the '>' of an end tag. Here that is an error, and what follows is lost. -/
theorem C102_end_tag_refuted :
    loadFile "<a><b></b><c/></a>".toList =
      .ok ⟨⟨false, [.element "a".toList [] [.element "b".toList [] [], .element "c".toList [] []]]⟩, []⟩ ∧
    loadFile "<a><b></b ><c/></a>".toList =
      .ok ⟨⟨false, [.element "a".toList [] [.element "b".toList [] []]]⟩, [.readingEndTag, .readingElementValue, .readingEndTag]⟩ := by
  constructor <;> exact eq_of_sameLoaded (by decide +kernel)

end Ubitrack.Xml
