import Verif.Props.XmlTree

/-!
# C93: line breaks and wrong end tags
-/

namespace Ubitrack.Xml

theorem normalize_plain {c : Char} (h1 : c ≠ '\r') (h2 : c ≠ '\x00') (s : Text) : normalize (c :: s) = c :: normalize s := by
  rw [normalize]
  · intro h; exact h2 h
  · intro _ h; exact absurd h h1
  · intro h; exact absurd h h1

theorem normalize_breaks (lineBreak : Text) (hb : lineBreak = ['\r', '\n'] ∨ lineBreak = ['\r']) (s : Text) (h : NoReturn s) :
    normalize (s.flatMap fun c => if c = '\n' then lineBreak else [c]) = s := by
  induction s with
  | nil => rfl
  | cons c s ih =>
    rw [noReturn_cons] at h
    obtain ⟨⟨h1, h2⟩, h3⟩ := h
    have hi := ih h3
    rw [List.flatMap_cons]
    split_ifs with hc
    · subst hc
      rcases hb with rfl | rfl
      · rw [List.cons_append, List.cons_append, List.nil_append, normalize, hi]
      · rw [List.singleton_append]
        rw [normalize, hi]
        intro t ht
        cases s with
        | nil => simp at ht
        | cons d s =>
          rw [List.flatMap_cons] at ht
          split_ifs at ht with hd
          · simp at ht
          · simp only [List.singleton_append, List.cons.injEq] at ht
            exact hd ht.1
    · rw [List.singleton_append, normalize_plain h1 h2, hi]

/-- C93: a file with the line breaks of Windows or of the old Macintosh is loaded as the file with line feeds. -/
theorem C93_line_breaks (lineBreak : Text) (hb : lineBreak = "\r\n".toList ∨ lineBreak = "\r".toList) (s : Text) (h : NoReturn s) :
    loadFile (s.flatMap fun c => if c = '\n' then lineBreak else [c]) = loadFile s := by
  have hn := normalize_breaks lineBreak hb s h
  unfold loadFile
  rw [hn, normalize_id h]
  cases s with
  | nil => rfl
  | cons c s =>
    have h0 : (c :: s).flatMap (fun c => if c = '\n' then lineBreak else [c]) ≠ [] := by
      rw [List.flatMap_cons]
      rcases hb with rfl | rfl <;> split_ifs <;> simp
    rw [if_neg h0, if_neg (by simp)]

/-- A file with line breaks. -/
example : NoReturn "<a>\n</a>\n".toList := by unfold NoReturn; decide

/-- C93: an element whose end tag is that of another element, or is cut off, is an error; what has been read up to there is kept. -/
theorem C93_end_tag (name : Text) (attributes : List (Text × Text)) (children : List Node)
    (h : WellFormed .unknown (.element name attributes children)) (t : Text) (ht : NoReturn t) (hne : ¬ (name ++ ['>']) <+: t) :
    loadFile ("<".toList ++ name ++ printAttributes attributes ++ ">".toList ++ printChildren 1 children ++ "\n</".toList ++ t) =
      .ok ⟨⟨false, [.element name attributes children]⟩, [.readingEndTag]⟩ := by
  rw [WellFormed] at h
  obtain ⟨h1, h2, h3, h4, h5⟩ := h
  set u := name ++ (printAttributes attributes ++ '>' :: (printChildren 1 children ++ (['\n'] ++ '<' :: '/' :: t))) with hu
  have hs : "<".toList ++ name ++ printAttributes attributes ++ ">".toList ++ printChildren 1 children ++ "\n</".toList ++ t = '<' :: u := by
    simp [hu]
  have hret : NoReturn ('<' :: u) := by
    rw [noReturn_cons, hu, noReturn_append, noReturn_append, noReturn_cons, noReturn_append]
    have hl : NoReturn (['\n'] ++ '<' :: '/' :: t) := by
      rw [noReturn_append]
      refine ⟨noReturn_lf, ?_⟩
      rw [noReturn_cons, noReturn_cons]
      exact ⟨by decide, by decide, ht⟩
    exact ⟨by decide, noReturn_name h1, noReturn_attributes attributes h2, by decide, noReturn_children .unknown children 1 h4, hl⟩
  rw [hs, loadFile, if_neg (by simp), normalize_id hret, parse, if_neg (by simp)]
  have hb : byteOrderMark.isPrefixOf ('<' :: u) = false := by
    simp [byteOrderMark, List.isPrefixOf]
  simp only [hb, Bool.false_eq_true, if_false]
  rw [skipWhiteSpace, skip_stop _ (by decide) (by decide)]
  simp only
  have hl := printAttributes_length attributes
  have hlen : u.length = name.length + ((printAttributes attributes).length + ((printChildren 1 children).length + (1 + (t.length + 2)) + 1)) := by
    simp [hu]; omega
  have key : ∀ f, 2 * u.length + 3 ≤ f → parseNode f .unknown ('<' :: u) = .ok (.element name attributes children, .null, [.readingEndTag]) := by
    intro f hf
    obtain ⟨f, rfl⟩ : ∃ g, f = g + 1 := ⟨f - 1, by omega⟩
    rw [hu, attributes_start .unknown h1 attributes h2 h3 (by decide) _ f (by omega)]
    obtain ⟨g, hg⟩ : ∃ g, f - attributes.length = g + 1 := ⟨f - attributes.length - 1, by omega⟩
    have hr := children_read .unknown children 1 h4 h5 [] ['\n'] t g (by simp [Blanks, isWhite]) (by
      simp only [List.length_cons, List.length_nil]; omega)
    rw [hg, parseAttributes, skip_stop .unknown (by decide) (by decide)]
    simp only
    rw [hr]
    simp only [List.nil_append]
    rw [if_neg]
    rw [List.isPrefixOf_iff_prefix]
    intro hp
    apply hne
    have : ("</".toList ++ name ++ ">".toList) = '<' :: '/' :: (name ++ ['>']) := by simp
    rw [this, List.cons_prefix_cons, List.cons_prefix_cons] at hp
    exact hp.2.2
  rw [show 2 * ('<' :: u).length + 3 = (2 * u.length + 4) + 1 by simp; omega, parseNodes, key _ (by omega)]
  simp only [ne_eq, not_true_eq_false, if_false, nextEncoding, skipWhiteSpace]
  rw [show 2 * u.length + 4 = (2 * u.length + 3) + 1 by omega, parseNodes]
  rfl

/-- The end tag of another element, and one that is cut off. -/
example : WellFormed .unknown (.element "ab".toList [] [.comment "k".toList]) ∧ ¬ ("ab".toList ++ ['>']) <+: "abc>\n".toList ∧
    ¬ ("ab".toList ++ ['>']) <+: "ab".toList := by
  refine ⟨?_, by decide, by decide⟩
  rw [WellFormed]
  refine ⟨⟨'a', ['b'], rfl, by decide, by decide⟩, by simp, by simp, ⟨?_, trivial⟩, by simp⟩
  rw [WellFormed]
  exact ⟨by unfold NoReturn; decide, by decide⟩

end Ubitrack.Xml
