import Verif.Spec.XmlLines
import Verif.Props.XmlPrinter
import Mathlib.Tactic.Ring

/-!
# C93, C102: the lines of saved and printed documents
-/

namespace Ubitrack.Xml

theorem cString_nonzero {t : Text} (h : '\x00' ∉ t) : cString t = t := by
  unfold cString
  induction t with
  | nil => rfl
  | cons c t ih =>
    have hc : c ≠ '\x00' := fun e => h (e ▸ List.mem_cons_self)
    rw [List.takeWhile_cons_of_pos (by simpa using hc), ih (fun hm => h (List.mem_cons_of_mem _ hm))]

theorem ordinary_cString {t : Text} (h : Ordinary t) : cString t = t :=
  cString_nonzero fun hc => absurd (h _ hc).1 (by decide)

theorem ordinary_encodeLoop (f : ℕ) (t : Text) (hf : t.length ≤ f) (h : Ordinary t) : encodeLoop f t = t := by
  induction f generalizing t with
  | zero => rw [List.length_eq_zero_iff.1 (by omega : t.length = 0)]; rfl
  | succ f ih =>
    cases t with
    | nil => rfl
    | cons c t =>
      obtain ⟨h1, -, h3, h4, h5, h6, h7⟩ := h c List.mem_cons_self
      rw [encodeLoop, if_neg (fun e => h3 e.1), ih t (by simpa using hf) (fun d hd => h d (List.mem_cons_of_mem _ hd))]
      simp [encodeChar, h3, h4, h5, h6, h7, not_lt.2 h1]

theorem ordinary_encode {t : Text} (h : Ordinary t) : encode t = t := ordinary_encodeLoop _ t le_rfl h

theorem ordinary_quote {t : Text} (h : Ordinary t) : '"' ∉ t := fun hc => (h _ hc).2.2.2.2.2.1 rfl

theorem ordinary_attributes {attributes : List (Text × Text)} (h : ∀ a ∈ attributes, Ordinary a.1 ∧ Ordinary a.2) :
    printAttributes attributes = attributes.flatMap (fun a => " ".toList ++ a.1 ++ "=\"".toList ++ a.2 ++ "\"".toList) := by
  unfold printAttributes
  induction attributes with
  | nil => rfl
  | cons a as ih =>
    obtain ⟨h1, h2⟩ := h a List.mem_cons_self
    rw [List.flatMap_cons, List.flatMap_cons, ih (fun b hb => h b (List.mem_cons_of_mem _ hb))]
    simp [printAttribute, ordinary_quote h2, ordinary_encode h1, ordinary_encode h2, ordinary_cString h1, ordinary_cString h2]

theorem inLines_append (i b : Text) (k l : List (ℕ × Text)) : inLines i b (k ++ l) = inLines i b k ++ inLines i b l := by
  simp [inLines]

theorem indent_eq (n : ℕ) : indent n = (List.replicate n "    ".toList).flatten := by
  induction n with
  | zero => rfl
  | succ n ih =>
    rw [List.replicate_succ, List.flatten_cons, ← ih]
    unfold indent
    rw [show 4 * (n + 1) = 4 + 4 * n by ring, List.replicate_add]
    rfl

theorem laid_not_text {n : Node} (h : Laid n) : isText n = false := by
  cases n <;> first | rfl | exact h.elim

theorem laidAll_not_only {ns : List Node} (h : LaidAll ns) : onlyText ns = false ∧ singleText ns = none ∧
    Printer.simpleChild ns = false := by
  cases ns with
  | nil => exact ⟨rfl, rfl, rfl⟩
  | cons n ns =>
    have h1 := h.1
    cases n <;> first | exact h1.elim | (cases ns <;> exact ⟨rfl, rfl, rfl⟩)

mutual
theorem printNode_lines (n : Node) (h : Laid n) (depth : ℕ) :
    printNode depth n ++ ['\n'] = inLines "    ".toList ['\n'] (lines depth n) := by
  cases n with
  | element name attributes children =>
    obtain ⟨h1, h2, h3⟩ := h
    rcases h3 with ⟨value, rfl, hv⟩ | h3
    · simp [printNode, printChildren, lines, singleText, inLines, indent_eq, startTag, ordinary_attributes h2, ordinary_cString h1,
        isText, onlyText, printText, ordinary_encode hv, ordinary_cString hv]
    · obtain ⟨k1, k2, -⟩ := laidAll_not_only h3
      have key := printChildren_lines children h3 (depth + 1)
      cases hc : children with
      | nil =>
        simp [printNode, lines, singleText, inLines, indent_eq, startTag, ordinary_attributes h2, ordinary_cString h1]
      | cons c cs =>
        rw [← hc]
        have he : children.isEmpty = false := by rw [hc]; rfl
        have key2 : ∀ X, printChildren (depth + 1) children ++ '\n' :: X =
            '\n' :: (inLines "    ".toList ['\n'] (linesAll (depth + 1) children) ++ X) := by
          intro X
          have := congrArg (· ++ X) key
          simpa using this
        simp only [printNode, lines, k1, k2, he, Bool.false_eq_true, if_false]
        rw [← List.singleton_append (x := (depth, _)), List.append_assoc, inLines_append, inLines_append]
        simp only [List.cons_append, List.append_assoc, ordinary_cString h1, ordinary_attributes h2, key2]
        simp [inLines, indent_eq, startTag]
  | text c v => exact h.elim
  | comment v => simp [printNode, lines, inLines, indent_eq, ordinary_cString h]
  | unknown v => simp [printNode, lines, inLines, indent_eq, ordinary_cString h]
  | declaration a b c => exact h.elim
theorem printChildren_lines (ns : List Node) (h : LaidAll ns) (depth : ℕ) :
    printChildren depth ns ++ ['\n'] = '\n' :: inLines "    ".toList ['\n'] (linesAll depth ns) := by
  cases ns with
  | nil => rfl
  | cons n ns =>
    have h1 := printNode_lines n h.1 depth
    have h2 := printChildren_lines ns h.2 depth
    rw [printChildren, laid_not_text h.1, linesAll, inLines_append, ← h1, List.append_assoc, h2]
    simp
end

theorem printDocument_lines (ns : List Node) (h : LaidAll ns) : printDocument ns = inLines "    ".toList ['\n'] (linesAll 0 ns) := by
  unfold printDocument
  induction ns with
  | nil => rfl
  | cons n ns ih => rw [List.flatMap_cons, linesAll, inLines_append, ih h.2, printNode_lines n h.1 0]

theorem declared_eq {n v : Text} (h : cString v = v) : printDeclared n v = declared n v := by
  simp [printDeclared, declared, h]

theorem declaration_eq {v e s : Text} (hv : cString v = v) (he : cString e = e) (hs : cString s = s) :
    printDeclaration v e s = "<?xml ".toList ++ declared "version".toList v ++
      declared "encoding".toList e ++ declared "standalone".toList s ++ "?>".toList := by
  unfold printDeclaration
  have h1 := declared_eq (n := "version".toList) hv
  have h2 := declared_eq (n := "encoding".toList) he
  have h3 := declared_eq (n := "standalone".toList) hs
  rw [h1, h2, h3]

theorem printNode_declaration (v e s : Text) : printNode 0 (.declaration v e s) = printDeclaration v e s := by
  rw [printNode]

theorem lines_declaration (v e s : Text) : lines 0 (.declaration v e s) = [(0, "<?xml ".toList ++ declared "version".toList v ++
      declared "encoding".toList e ++ declared "standalone".toList s ++ "?>".toList)] := by
  rw [lines]

theorem inLines_single (t w b : Text) : t ++ b = inLines w b [(0, t)] := by
  simp [inLines]

theorem declaration_line {v e s : Text} (hv : cString v = v) (he : cString e = e) (hs : cString s = s) :
    printNode 0 (.declaration v e s) ++ ['\n'] = inLines "    ".toList ['\n'] (lines 0 (.declaration v e s)) := by
  rw [printNode_declaration, declaration_eq hv he hs, lines_declaration]
  exact inLines_single _ _ _

theorem printDocument_laid (d : Document) (h : LaidDocument d) :
    printDocument d.nodes = inLines "    ".toList ['\n'] (linesAll 0 d.nodes) := by
  unfold LaidDocument at h
  generalize d.nodes = l at h
  rcases h with h | ⟨v, e, s, ns, rfl, hv, he, hs, h⟩
  · exact printDocument_lines _ h
  · rw [linesAll, inLines_append, ← printDocument_lines ns h, ← declaration_line (ordinary_cString hv) (ordinary_cString he) (ordinary_cString hs)]
    unfold printDocument
    rw [List.flatMap_cons]

/-- C93: a saved document has a line for each tag, comment and element without children or with a text only, with four blanks for each
level, behind its byte order mark. -/
theorem C93_lines (d : Document) (h : LaidDocument d) :
    saveFile d = (if d.bom then [Char.ofNat 0xef, Char.ofNat 0xbb, Char.ofNat 0xbf] else []) ++
      inLines "    ".toList "\n".toList (linesAll 0 d.nodes) := by
  unfold saveFile
  rw [printDocument_laid d h]
  rfl

theorem printer_add_add (p : Printer) (s t : Text) : (p.add s).add t = p.add (s ++ t) := by simp [Printer.add]

theorem printer_attributes {attributes : List (Text × Text)} (h : ∀ a ∈ attributes, Ordinary a.1 ∧ Ordinary a.2) (p : Printer) :
    attributes.foldl (fun p a => (p.add " ".toList).addAttribute a) p =
      p.add (attributes.flatMap (fun a => " ".toList ++ a.1 ++ "=\"".toList ++ a.2 ++ "\"".toList)) := by
  induction attributes generalizing p with
  | nil => simp [Printer.add]
  | cons a as ih =>
    obtain ⟨h1, h2⟩ := h a List.mem_cons_self
    rw [List.foldl_cons, ih (fun b hb => h b (List.mem_cons_of_mem _ hb))]
    simp [Printer.addAttribute, Printer.add, ordinary_quote h2, ordinary_encode h1, ordinary_encode h2]

mutual
theorem accept_lines (n : Node) (h : Laid n) (p : Printer) (hp : p.simpleTextPrint = false) :
    p.accept n = p.add (inLines p.indent p.lineBreak (lines p.depth n)) := by
  cases n with
  | element name attributes children =>
    obtain ⟨h1, h2, h3⟩ := h
    rcases h3 with ⟨value, rfl, hv⟩ | h3
    · cases p
      simp only at hp
      subst hp
      simp only [Printer.accept, Printer.acceptAll, Printer.enter, printer_attributes h2]
      simp [Printer.exit, Printer.visitText, Printer.doIndent, Printer.doLineBreak, Printer.simpleChild, lines, singleText, inLines, startTag, ordinary_cString h1, ordinary_encode hv,
        Printer.add]
    · obtain ⟨-, k2, k3⟩ := laidAll_not_only h3
      cases hc : children with
      | nil =>
        simp only [Printer.accept, Printer.acceptAll, Printer.enter, printer_attributes h2]
        simp [Printer.exit, Printer.doIndent, Printer.doLineBreak, lines, singleText, inLines, startTag, ordinary_cString h1, Printer.add]
      | cons c cs =>
        rw [← hc]
        have he : children.isEmpty = false := by rw [hc]; rfl
        have hent : p.enter name attributes children = { p.add (inLines p.indent p.lineBreak [(p.depth, startTag name attributes ">".toList)])
            with depth := p.depth + 1 } := by
          simp only [Printer.enter, printer_attributes h2]
          simp [he, k3, Printer.doIndent, Printer.doLineBreak, inLines, startTag,
            ordinary_cString h1, Printer.add]
        rw [Printer.accept, hent, acceptAll_lines children h3 _ (by exact hp)]
        cases p
        simp only at hp
        subst hp
        simp only [lines, k2, he, Bool.false_eq_true, if_false]
        rw [← List.singleton_append (x := (_, _)), List.append_assoc, inLines_append, inLines_append]
        simp [Printer.exit, he, Printer.add, Printer.doIndent, Printer.doLineBreak, inLines, ordinary_cString h1]
  | text c v => exact h.elim
  | comment v => simp [Printer.accept, Printer.visitComment, Printer.doIndent, Printer.doLineBreak, lines, inLines, ordinary_cString h, Printer.add]
  | unknown v => simp [Printer.accept, Printer.visitUnknown, Printer.doIndent, Printer.doLineBreak, lines, inLines, ordinary_cString h, Printer.add]
  | declaration a b c => exact h.elim
theorem acceptAll_lines (ns : List Node) (h : LaidAll ns) (p : Printer) (hp : p.simpleTextPrint = false) :
    p.acceptAll ns = p.add (inLines p.indent p.lineBreak (linesAll p.depth ns)) := by
  cases ns with
  | nil => simp [Printer.acceptAll, Printer.add, linesAll, inLines]
  | cons n ns =>
    rw [Printer.acceptAll, accept_lines n h.1 p hp, acceptAll_lines ns h.2 _ (by exact hp), linesAll, inLines_append, printer_add_add]
    rfl
end

theorem declared_add {n v : Text} (p : Printer) : p.addDeclared n v = p.add (declared n v) := by
  unfold Printer.addDeclared declared
  split_ifs <;> simp [Printer.add]

/-- C102: a document that is printed to memory has the same lines, with the chosen indentation and line breaks. -/
theorem C102_lines (d : Document) (h : LaidDocument d) (indentation lineBreak : Text) (hi : '\x00' ∉ indentation) (hl : '\x00' ∉ lineBreak) :
    (((Printer.new.setIndent indentation).setLineBreak lineBreak).acceptDocument d).buffer =
      inLines indentation lineBreak (linesAll 0 d.nodes) := by
  unfold Printer.acceptDocument
  generalize hp : (Printer.new.setIndent indentation).setLineBreak lineBreak = p
  have p1 : p.simpleTextPrint = false := by rw [← hp]; rfl
  have p2 : p.indent = indentation := by rw [← hp]; exact cString_nonzero hi
  have p3 : p.lineBreak = lineBreak := by rw [← hp]; exact cString_nonzero hl
  have p4 : p.depth = 0 := by rw [← hp]; rfl
  have p5 : p.buffer = [] := by rw [← hp]; rfl
  rcases h with h | ⟨v, e, s, ns, hd, hv, he, hs, h⟩
  · rw [acceptAll_lines _ h p p1, p2, p3, p4]
    simp [Printer.add, p5]
  · rw [hd, Printer.acceptAll, Printer.accept, acceptAll_lines ns h _ ?_, linesAll, inLines_append]
    · simp [Printer.visitDeclaration, declared_add, Printer.add, Printer.doIndent, Printer.doLineBreak, p2, p3, p4, p5, lines, inLines]
    · simp [Printer.visitDeclaration, declared_add, Printer.add, Printer.doIndent, Printer.doLineBreak, p1]

/-- C102: what a new printer prints is what is saved to a file. -/
theorem C102_like_file (d : Document) (h : LaidDocument d) (hb : d.bom = false) :
    (Printer.new.acceptDocument d).buffer = saveFile d := by
  rw [C93_lines d h, hb]
  exact C102_lines d h "    ".toList "\n".toList (by decide) (by decide)

/-- A document with nested elements, a comment and a text. -/
example : LaidDocument ⟨false, [.declaration "1.0".toList [] [], .element "a".toList [("x".toList, "1".toList)]
      [.element "b".toList [] [.text false "t u".toList], .comment "c".toList, .element "d".toList [] []]]⟩ ∧
    inLines "    ".toList "\n".toList (linesAll 0 [.declaration "1.0".toList [] [], .element "a".toList [("x".toList, "1".toList)]
      [.element "b".toList [] [.text false "t u".toList], .comment "c".toList, .element "d".toList [] []]]) =
    "<?xml version=\"1.0\" ?>\n<a x=\"1\">\n    <b>t u</b>\n    <!--c-->\n    <d />\n</a>\n".toList := by
  refine ⟨Or.inr ⟨_, _, _, _, rfl, ?_⟩, by decide⟩
  simp [LaidAll, Laid, Ordinary]

end Ubitrack.Xml
