import Verif.Model.XmlPrinter
import Verif.Props.XmlLayout

/-!
# C102: what is printed to memory is read back
-/

namespace Ubitrack.Xml

open Printer

/-- White space for indentation and line breaks. -/
def Printer.Neat (p : Printer) : Prop := IsWhite p.indent ∧ IsWhite p.lineBreak

theorem white_nil : IsWhite [] := by simp [IsWhite]

theorem white_append {v w : Text} (hv : IsWhite v) (hw : IsWhite w) : IsWhite (v ++ w) := by
  intro c hc
  rcases List.mem_append.mp hc with h | h
  · exact hv c h
  · exact hw c h

/-- The white space of an indentation. -/
def Printer.lead (p : Printer) : Text := (List.replicate p.depth p.indent).flatten

theorem lead_white {p : Printer} (h : p.Neat) : IsWhite p.lead := by
  intro c hc
  obtain ⟨s, hs, hc⟩ := List.mem_flatten.mp hc
  rw [List.eq_of_mem_replicate hs] at hc
  exact h.1 c hc

theorem addAttributes_eq (as : List (Text × Text)) : ∀ (p : Printer), (∀ a ∈ as, IsName a.1) →
    ∃ t, AttributesText as t ∧ as.foldl (fun p a => (p.add " ".toList).addAttribute a) p = p.add t := by
  induction as with
  | nil => intro p _; exact ⟨[], rfl, by simp [add]⟩
  | cons a as ih =>
    intro p h
    have hn := encode_name (h a (by simp))
    have key : ∃ q, (q = '"' ∨ q = '\'') ∧ (p.add " ".toList).addAttribute a = p.add ([' '] ++ (a.1 ++ ['=', q] ++ encode a.2 ++ [q])) := by
      unfold addAttribute
      rw [hn]
      split_ifs
      · exact ⟨'\'', by simp, by simp [add]⟩
      · exact ⟨'"', by simp, by simp [add]⟩
    obtain ⟨q, hq, key⟩ := key
    obtain ⟨t, h1, h2⟩ := ih (p.add ([' '] ++ (a.1 ++ ['=', q] ++ encode a.2 ++ [q]))) (fun b hb => h b (List.mem_cons_of_mem a hb))
    refine ⟨[' '] ++ (a.1 ++ ['=', q] ++ encode a.2 ++ [q]) ++ t, ⟨[' '], _, t, ?_, by simp, ⟨[], [], q, white_nil, white_nil, hq, ?_⟩, h1, rfl⟩, ?_⟩
    · intro c hc
      rw [List.mem_singleton.mp hc]; decide
    · simp
    · rw [List.foldl_cons, key, h2]
      simp [add]

/-- White space may be added before and after nodes. -/
theorem nodesText_around : ∀ {ns : List Node} {t v w : Text}, NodesText ns t → IsWhite v → IsWhite w → NodesText ns (v ++ t ++ w)
  | [], t, v, w, h, hv, hw => by
    rw [NodesText] at h ⊢
    exact white_append (white_append hv h) hw
  | n :: ns, t, v, w, h, hv, hw => by
    rw [NodesText] at h ⊢
    obtain ⟨x, u, s, h1, h2, h3, rfl⟩ := h
    refine ⟨v ++ x, u, s ++ w, white_append hv h1, h2, ?_, by simp⟩
    simpa using nodesText_around h3 white_nil hw

mutual
theorem accept_text (e : Encoding) : ∀ (n : Node) (p : Printer), p.Neat → p.simpleTextPrint = false → WellFormed e n →
    ∃ v u w, IsWhite v ∧ NodeText n u ∧ IsWhite w ∧ p.accept n = p.add (v ++ u ++ w)
  | .comment v, p, hp, _, h => by
    have h : NoReturn v ∧ ¬ "-->".toList <:+: v := by simpa only [WellFormed] using h
    refine ⟨p.lead, _, p.lineBreak, lead_white hp, by rw [NodeText], hp.2, ?_⟩
    rw [accept, visitComment, cString_noReturn h.1]
    simp [add, doIndent, doLineBreak, lead]
  | .unknown v, p, hp, _, h => by
    have h : IsOther v := by simpa only [WellFormed] using h
    refine ⟨p.lead, _, p.lineBreak, lead_white hp, by rw [NodeText], hp.2, ?_⟩
    rw [accept, visitUnknown, cString_noReturn h.2.1]
    simp [add, doIndent, doLineBreak, lead]
  | .text true v, p, hp, _, h => by
    have h : NoReturn v ∧ ¬ "]]>".toList <:+: v := by simpa only [WellFormed] using h
    refine ⟨p.lead, _, p.lineBreak, lead_white hp, by rw [NodeText], hp.2, ?_⟩
    rw [accept, visitText, if_pos rfl, cString_noReturn h.1]
    simp [add, doIndent, doLineBreak, lead]
  | .text false v, p, hp, hs, h => by
    refine ⟨p.lead, _, p.lineBreak, lead_white hp, by rw [NodeText], hp.2, ?_⟩
    rw [accept, visitText, hs]
    simp [add, doIndent, doLineBreak, lead]
  | .declaration _ _ _, _, _, _, h => by simp [WellFormed] at h
  | .element name attributes children, p, hp, hs, h => by
    rw [WellFormed] at h
    obtain ⟨h1, h2, h3, h4, h5⟩ := h
    obtain ⟨a, ha, hfold⟩ := addAttributes_eq attributes ((p.doIndent.add "<".toList).add (cString name)) (fun b hb => (h2 b hb).1)
    rw [cString_name h1] at hfold
    rw [accept]
    unfold enter
    simp only [cString_name h1, hfold]
    by_cases hc : children = []
    · subst hc
      refine ⟨p.lead, ['<'] ++ name ++ a ++ [' '] ++ "/>".toList, p.lineBreak, lead_white hp, ?_, hp.2, ?_⟩
      · rw [NodeText]
        refine ⟨a, [' '], ha, ?_, Or.inl ⟨rfl, rfl⟩⟩
        intro c hc
        rw [List.mem_singleton.mp hc]; decide
      · rw [acceptAll, Printer.exit]
        simp [add, doIndent, doLineBreak, lead]
    · have hne : children.isEmpty = false := by simp [hc]
      by_cases hsc : simpleChild children = true
      · obtain ⟨v, rfl⟩ : ∃ v, children = [.text false v] := by
          unfold simpleChild at hsc
          split at hsc
          · exact ⟨_, rfl⟩
          · cases hsc
        refine ⟨p.lead, ['<'] ++ name ++ a ++ [] ++ ['>'] ++ encode v ++ "</".toList ++ name ++ ['>'], p.lineBreak, lead_white hp, ?_, hp.2, ?_⟩
        · rw [NodeText]
          refine ⟨a, [], ha, white_nil, Or.inr ⟨encode v, ?_, rfl⟩⟩
          rw [NodesText]
          exact ⟨[], encode v, [], white_nil, by rw [NodeText], by rw [NodesText]; exact white_nil, by simp⟩
        · rw [acceptAll, acceptAll, accept, visitText, Printer.exit]
          simp [add, doIndent, doLineBreak, lead, hsc, hs, cString_name h1]
      · have hsc : simpleChild children = false := by simpa using hsc
        simp only [hne, hsc, Bool.false_eq_true, if_false]
        obtain ⟨b, hb1, hb2⟩ := acceptAll_text e children
          { ((((p.doIndent.add "<".toList).add name).add a).add ">".toList).doLineBreak with depth := p.depth + 1 } hp hs h4
        have hdepth : ((((p.doIndent.add "<".toList).add name).add a).add ">".toList).doLineBreak.depth = p.depth := rfl
        rw [hdepth, hb2]
        refine ⟨p.lead, ['<'] ++ name ++ a ++ [] ++ ['>'] ++ (p.lineBreak ++ b ++ p.lead) ++ "</".toList ++ name ++ ['>'], p.lineBreak,
          lead_white hp, ?_, hp.2, ?_⟩
        · rw [NodeText]
          exact ⟨a, [], ha, white_nil, Or.inr ⟨_, nodesText_around hb1 hp.2 (lead_white hp), rfl⟩⟩
        · rw [Printer.exit]
          simp [add, doIndent, doLineBreak, lead, hc, hs, cString_name h1]
theorem acceptAll_text (e : Encoding) : ∀ (ns : List Node) (p : Printer), p.Neat → p.simpleTextPrint = false → WellFormedAll e ns →
    ∃ t, NodesText ns t ∧ p.acceptAll ns = p.add t
  | [], p, _, _, _ => ⟨[], by rw [NodesText]; exact white_nil, by rw [acceptAll]; simp [add]⟩
  | n :: ns, p, hp, hs, h => by
    rw [WellFormedAll] at h
    obtain ⟨v, u, w, h1, h2, h3, h4⟩ := accept_text e n p hp hs h.1
    obtain ⟨t, k1, k2⟩ := acceptAll_text e ns (p.add (v ++ u ++ w)) hp hs h.2
    refine ⟨v ++ u ++ (w ++ t), ?_, ?_⟩
    · rw [NodesText]
      refine ⟨v, u, w ++ t, h1, h2, ?_, rfl⟩
      simpa using nodesText_around k1 h3 white_nil
    · rw [acceptAll, h4, k2]
      simp [add]
end

theorem addDeclared_eq (p : Printer) (n : Text) {v : Text} (h : IsDeclared v) : p.addDeclared n v = p.add (printDeclared n v) := by
  unfold addDeclared printDeclared
  split_ifs with hv
  · simp [add]
  · have : cString v = v := by
      unfold cString
      rw [List.takeWhile_eq_self_iff]
      intro c hc
      simp only [ne_eq, decide_not, Bool.not_eq_true', decide_eq_false_iff_not]
      rintro rfl
      exact absurd (h _ hc).1 (by decide)
    rw [this]
    simp [add]

theorem acceptDocument_text (d : Document) (h : IsDocument d) (p : Printer) (hp : p.Neat) (hs : p.simpleTextPrint = false) :
    ∃ t, NodesText d.nodes t ∧ p.acceptDocument d = p.add t := by
  unfold acceptDocument
  rcases h with ⟨v, en, st, ns, hd, h1, h2, h3, h4⟩ | ⟨hne, h4⟩
  · rw [hd, acceptAll, accept]
    obtain ⟨t, k1, k2⟩ := acceptAll_text _ ns (p.add (p.lead ++ printDeclaration v en st ++ p.lineBreak)) hp hs
      (wellFormedAll_of fun n hn => (h4 n hn).1)
    refine ⟨p.lead ++ printDeclaration v en st ++ (p.lineBreak ++ t), ?_, ?_⟩
    · rw [NodesText]
      refine ⟨p.lead, _, _, lead_white hp, by rw [NodeText], ?_, rfl⟩
      simpa using nodesText_around k1 hp.2 white_nil
    · have hv : p.visitDeclaration v en st = p.add (p.lead ++ printDeclaration v en st ++ p.lineBreak) := by
        unfold visitDeclaration printDeclaration
        simp only [addDeclared_eq _ _ h1, addDeclared_eq _ _ h2, addDeclared_eq _ _ h3]
        simp [add, doIndent, doLineBreak, lead]
      rw [hv, k2]
      simp [add]
  · exact acceptAll_text _ d.nodes p hp hs (wellFormedAll_of fun n hn => (h4 n hn).1)

/-- The printer with more in the buffer before what is there. -/
def Printer.pre (p : Printer) (x : Text) : Printer := { p with buffer := x ++ p.buffer }

theorem add_pre (p : Printer) (x s : Text) : (p.pre x).add s = (p.add s).pre x := by simp [add, pre]

theorem doIndent_pre (p : Printer) (x : Text) : (p.pre x).doIndent = p.doIndent.pre x := by
  unfold doIndent; exact add_pre p x _

theorem doLineBreak_pre (p : Printer) (x : Text) : (p.pre x).doLineBreak = p.doLineBreak.pre x := by
  unfold doLineBreak; exact add_pre p x _

theorem addAttribute_pre (p : Printer) (x : Text) (a : Text × Text) : (p.pre x).addAttribute a = (p.addAttribute a).pre x := by
  unfold addAttribute; split_ifs <;> exact add_pre p x _

theorem addDeclared_pre (p : Printer) (x n v : Text) : (p.pre x).addDeclared n v = (p.addDeclared n v).pre x := by
  unfold addDeclared; split_ifs
  · rfl
  · simp only [add_pre]

theorem foldl_pre (x : Text) (as : List (Text × Text)) : ∀ p : Printer,
    as.foldl (fun p a => (p.add " ".toList).addAttribute a) (p.pre x) =
      (as.foldl (fun p a => (p.add " ".toList).addAttribute a) p).pre x := by
  induction as with
  | nil => intro p; rfl
  | cons a as ih => intro p; simp only [List.foldl_cons, add_pre, addAttribute_pre, ih]

theorem enter_pre (p : Printer) (x name : Text) (as : List (Text × Text)) (cs : List Node) :
    (p.pre x).enter name as cs = (p.enter name as cs).pre x := by
  unfold enter
  simp only [doIndent_pre, add_pre, foldl_pre, doLineBreak_pre]
  split_ifs <;> rfl

theorem exit_pre (p : Printer) (x name : Text) (cs : List Node) : (p.pre x).exit name cs = (p.exit name cs).pre x := by
  obtain ⟨d, f, b, i, l⟩ := p
  unfold Printer.exit
  cases f <;> cases cs.isEmpty <;> simp [add, pre, doIndent, doLineBreak]

mutual
theorem accept_pre (x : Text) : ∀ (n : Node) (p : Printer), (p.pre x).accept n = (p.accept n).pre x
  | .element name as cs, p => by
    rw [accept, accept, enter_pre, acceptAll_pre x cs, exit_pre]
  | .text cdata v, p => by
    rw [accept, accept, visitText, visitText]
    simp only [doIndent_pre, add_pre, doLineBreak_pre]
    have h2 : (p.pre x).simpleTextPrint = p.simpleTextPrint := rfl
    rw [h2]
    split_ifs <;> rfl
  | .comment v, p => by
    rw [accept, accept, visitComment, visitComment]; simp only [doIndent_pre, add_pre, doLineBreak_pre]
  | .unknown v, p => by
    rw [accept, accept, visitUnknown, visitUnknown]; simp only [doIndent_pre, add_pre, doLineBreak_pre]
  | .declaration a b c, p => by
    rw [accept, accept, visitDeclaration, visitDeclaration]; simp only [doIndent_pre, add_pre, addDeclared_pre, doLineBreak_pre]
theorem acceptAll_pre (x : Text) : ∀ (ns : List Node) (p : Printer), (p.pre x).acceptAll ns = (p.acceptAll ns).pre x
  | [], p => by rw [acceptAll, acceptAll]
  | n :: ns, p => by rw [acceptAll, acceptAll, accept_pre x n, acceptAll_pre x ns]
end

theorem cString_white {w : Text} (h : IsWhite w) : cString w = w := by
  unfold cString
  rw [List.takeWhile_eq_self_iff]
  intro c hc
  simp only [ne_eq, decide_not, Bool.not_eq_true', decide_eq_false_iff_not]
  rintro rfl
  exact absurd (h _ hc) (by decide)

/-! ## C102 -/

/-- C102: what is printed to memory, with any white space for indentation and line breaks, is read back as the same document, after
the byte order mark if the document has one. -/
theorem C102_print (d : Document) (h : IsDocument d) (indent lineBreak : Text) (hi : IsWhite indent) (hl : IsWhite lineBreak) :
    parse ((if d.bom then byteOrderMark else []) ++ (((Printer.new.setIndent indent).setLineBreak lineBreak).acceptDocument d).buffer) =
      .ok ⟨d, []⟩ ∧
    loadFile ((if d.bom then byteOrderMark else []) ++ (((Printer.new.setIndent indent).setLineBreak lineBreak).acceptDocument d).buffer) =
      .ok ⟨d, []⟩ := by
  obtain ⟨t, h1, h2⟩ := acceptDocument_text d h ((Printer.new.setIndent indent).setLineBreak lineBreak)
    ⟨by rw [show ((Printer.new.setIndent indent).setLineBreak lineBreak).indent = cString indent from rfl, cString_white hi]; exact hi,
     by rw [show ((Printer.new.setIndent indent).setLineBreak lineBreak).lineBreak = cString lineBreak from rfl, cString_white hl]; exact hl⟩
    rfl
  have h3 : (((Printer.new.setIndent indent).setLineBreak lineBreak).acceptDocument d).buffer = t := by
    rw [h2]; rfl
  rw [h3]
  exact ⟨C102_layout d h t h1, C102_file d h t h1⟩

/-- A tab and a line break of two characters; the text that is printed. -/
example : IsWhite ['\t'] ∧ IsWhite ['\r', '\n'] ∧
    (((Printer.new.setIndent ['\t']).setLineBreak ['\r', '\n']).acceptDocument
      ⟨false, [.comment "k".toList, .element "a".toList [("b".toList, "1".toList)] [.element "c".toList [] [.text false "x<y".toList],
        .text false "z".toList]]⟩).buffer =
      "<!--k-->\r\n<a b=\"1\">\r\n\t<c>x&lt;y</c>\r\n\tz\r\n</a>\r\n".toList := by
  refine ⟨?_, ?_, by decide +kernel⟩ <;> intro c hc <;> simp at hc
  · rw [hc]; decide
  · rcases hc with rfl | rfl <;> decide

/-- C102: a document that is written to a stream without line breaks is read back. -/
theorem C102_stream (d : Document) (h : IsDocument d) : parse ((if d.bom then byteOrderMark else []) ++ streamOut d) = .ok ⟨d, []⟩ :=
  (C102_print d h [] [] white_nil white_nil).1

/-- C102: a printer that is used for several documents appends them to each other, each as it would be printed alone. -/
theorem C102_again (d₁ d₂ : Document) (h : IsDocument d₁) (indent lineBreak : Text) (hi : IsWhite indent) (hl : IsWhite lineBreak) :
    ((((Printer.new.setIndent indent).setLineBreak lineBreak).acceptDocument d₁).acceptDocument d₂).buffer =
      (((Printer.new.setIndent indent).setLineBreak lineBreak).acceptDocument d₁).buffer ++
      (((Printer.new.setIndent indent).setLineBreak lineBreak).acceptDocument d₂).buffer := by
  obtain ⟨t, -, h2⟩ := acceptDocument_text d₁ h ((Printer.new.setIndent indent).setLineBreak lineBreak)
    ⟨by rw [show ((Printer.new.setIndent indent).setLineBreak lineBreak).indent = cString indent from rfl, cString_white hi]; exact hi,
     by rw [show ((Printer.new.setIndent indent).setLineBreak lineBreak).lineBreak = cString lineBreak from rfl, cString_white hl]; exact hl⟩
    rfl
  rw [h2]
  have := acceptAll_pre t d₂.nodes ((Printer.new.setIndent indent).setLineBreak lineBreak)
  have h3 : ((Printer.new.setIndent indent).setLineBreak lineBreak).add t = ((Printer.new.setIndent indent).setLineBreak lineBreak).pre t := by
    simp [add, pre, Printer.new, setIndent, setLineBreak]
  have h4 : (((Printer.new.setIndent indent).setLineBreak lineBreak).add t).buffer = t := rfl
  rw [h4, h3, acceptDocument, acceptDocument, this]
  rfl

/-- C102, refuted: the byte order mark is not printed. -/
theorem C102_mark_refuted : parse (Printer.new.acceptDocument ⟨true, [.element "a".toList [] []]⟩).buffer =
    .ok ⟨⟨false, [.element "a".toList [] []]⟩, []⟩ := eq_of_sameLoaded (by decide +kernel)

end Ubitrack.Xml
