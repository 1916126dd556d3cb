import Verif.Spec.XmlCursor
import Verif.Props.XmlEnd

/-!
# C94: reading an XML file ends, and positions are those of the text
-/

namespace Ubitrack.Xml

theorem columnAfter_nil (tabsize col : ℕ) : columnAfter tabsize col [] = col := by
  simp [columnAfter, List.splitOn]

theorem splitOn_ne_nil (cs : List Char) : cs.splitOn '\n' ≠ [] := by
  simp [List.splitOn, List.splitOnP_ne_nil]

theorem splitOn_cons (c : Char) (cs : List Char) : (c :: cs).splitOn '\n' =
    if c = '\n' then [] :: cs.splitOn '\n' else (cs.splitOn '\n').modifyHead (c :: ·) := by
  unfold List.splitOn
  rw [List.splitOnP_cons_eq_if_modifyHead]
  simp only [beq_iff_eq]

theorem splitOn_single {cs : List Char} (h : '\n' ∉ cs) : cs.splitOn '\n' = [cs] := by
  induction cs with
  | nil => simp [List.splitOn]
  | cons c cs ih =>
    simp only [List.mem_cons, not_or] at h
    rw [splitOn_cons, if_neg (Ne.symm h.1), ih h.2]
    rfl

theorem splitOn_long {cs : List Char} (h : '\n' ∈ cs) : ∃ a b t, cs.splitOn '\n' = a :: b :: t := by
  induction cs with
  | nil => simp at h
  | cons c cs ih =>
    rw [splitOn_cons]
    by_cases hc : c = '\n'
    · rw [if_pos hc]
      obtain ⟨b, t, hb⟩ := List.exists_cons_of_ne_nil (splitOn_ne_nil cs)
      exact ⟨[], b, t, by rw [hb]⟩
    · rw [if_neg hc]
      rcases List.mem_cons.mp h with h | h
      · exact absurd h.symm hc
      · obtain ⟨a, b, t, hs⟩ := ih h
        exact ⟨c :: a, b, t, by rw [hs]; rfl⟩

theorem columnAfter_cons (tabsize col : ℕ) (c : Char) (cs : List Char) :
    columnAfter tabsize col (c :: cs) = columnAfter tabsize (if c = '\n' then 0 else advance tabsize col c) cs := by
  unfold columnAfter
  rw [splitOn_cons]
  by_cases hc : c = '\n'
  · subst hc
    simp only [if_true, List.mem_cons, true_or]
    obtain ⟨b, t, hb⟩ := List.exists_cons_of_ne_nil (splitOn_ne_nil cs)
    rw [hb]
    simp
  · rw [if_neg hc, if_neg hc]
    by_cases hn : '\n' ∈ cs
    · obtain ⟨a, b, t, hs⟩ := splitOn_long hn
      rw [hs, if_pos hn, if_pos (List.mem_cons_of_mem c hn)]
      simp
    · rw [splitOn_single hn, if_neg hn, if_neg (by simp [hn, Ne.symm hc])]
      simp

theorem advance_plain (tabsize col : ℕ) {c : Char} (h1 : c ≠ '\t') (h2 : c ∉ [Char.ofNat 0xfeff, Char.ofNat 0xfffe, Char.ofNat 0xffff]) :
    advance tabsize col c = col + 1 := by
  rw [advance, if_neg h1, if_neg h2]

theorem stampStep_first (tabsize row col n : ℕ) (h1 : 128 ≤ n) (h2 : n < 256) (h3 : n ≠ 0xef) (s : Text) :
    stampStep .utf8 tabsize ⟨row, col, Char.ofNat n :: s⟩ =
      ⟨row, col + 1, (Char.ofNat n :: s).drop (byteCount (Char.ofNat n))⟩ := by
  have hn : (Char.ofNat n).toNat = n := toNat_ofNat (by omega)
  have hr : Char.ofNat n ≠ '\r' := ne_of_toNat (by have : ('\r' : Char).toNat = 13 := rfl; omega)
  have hl : Char.ofNat n ≠ '\n' := ne_of_toNat (by have : ('\n' : Char).toNat = 10 := rfl; omega)
  have ht : Char.ofNat n ≠ '\t' := ne_of_toNat (by have : ('\t' : Char).toNat = 9 := rfl; omega)
  unfold stampStep
  simp only [hr, hl, ht, if_false, hn, h3, if_true]

theorem stampStep_ef (tabsize row col : ℕ) (b d : Char) (s : Text) :
    stampStep .utf8 tabsize ⟨row, col, Char.ofNat 0xef :: b :: d :: s⟩ =
      ⟨row, if isMark (Char.ofNat 0xef) b d then col else col + 1, s⟩ := by
  have hn : (Char.ofNat 0xef).toNat = 0xef := toNat_ofNat (by omega)
  have hr : Char.ofNat 0xef ≠ '\r' := by decide
  have hl : Char.ofNat 0xef ≠ '\n' := by decide
  have ht : Char.ofNat 0xef ≠ '\t' := by decide
  unfold stampStep
  simp only [hr, hl, ht, if_false, hn, if_true]

/-- What one turn does with a character in UTF-8. -/
theorem stampStep_utf8 (tabsize row col : ℕ) (c : Char) (h1 : c ≠ '\r') (h2 : c ≠ '\n') (after : Text) :
    stampStep .utf8 tabsize ⟨row, col, utf8Bytes c ++ after⟩ = ⟨row, advance tabsize col c, after⟩ := by
  have hc : c.val.toNat < 0x110000 := by
    rcases c.valid with h | h
    · have h' : c.val.toNat < 0xd800 := h
      omega
    · exact h.2
  have hcn : c.toNat = c.val.toNat := rfl
  have hb : ∀ n, n < 256 → Char.ofNat (UInt8.ofNat n).toNat = Char.ofNat n := by
    intro n hn
    congr 1
    simp; omega
  have htab : 128 ≤ c.toNat → c ≠ '\t' := fun h => ne_of_toNat (by have : ('\t' : Char).toNat = 9 := rfl; omega)
  unfold utf8Bytes
  rw [String.utf8EncodeChar.eq_1]
  rw [← hcn] at hc ⊢
  have hmem : c ∈ [Char.ofNat 0xfeff, Char.ofNat 0xfffe, Char.ofNat 0xffff] ↔ c.toNat = 0xfeff ∨ c.toNat = 0xfffe ∨ c.toNat = 0xffff := by
    simp only [List.mem_cons, List.not_mem_nil, or_false]
    constructor
    · rintro (rfl | rfl | rfl) <;> simp
    · rintro (h | h | h)
      · left; exact char_ext h
      · right; left; exact char_ext h
      · right; right; exact char_ext h
  split_ifs with h3 h4 h5
  · simp only [List.map_cons, List.map_nil, List.cons_append, List.nil_append]
    rw [hb _ (by omega), ofNat_toNat]
    have hef : c.toNat ≠ 0xef := by omega
    have hbc : byteCount c = 1 := by unfold byteCount; rw [if_neg (by omega), if_neg (by omega), if_neg (by omega)]
    unfold stampStep
    simp only [h1, h2, hef, if_false, hbc, List.drop_succ_cons, List.drop_zero, if_true]
    unfold advance
    split_ifs with h6 h7
    · rfl
    · rw [hmem] at h7; omega
    · rfl
  · simp only [List.map_cons, List.map_nil, List.cons_append, List.nil_append]
    rw [hb _ (by omega), hb _ (by omega), stampStep_first _ _ _ _ (by omega) (by omega) (by omega),
      advance_plain _ _ (htab (by omega)) (by rw [hmem]; omega)]
    have hbc : byteCount (Char.ofNat (c.toNat / 64 % 32 + 192)) = 2 := by
      unfold byteCount
      rw [toNat_ofNat (by omega), if_pos (by omega)]
    rw [hbc]; rfl
  · simp only [List.map_cons, List.map_nil, List.cons_append, List.nil_append]
    rw [hb _ (by omega), hb _ (by omega), hb _ (by omega)]
    by_cases hef : c.toNat / 4096 % 16 + 224 = 0xef
    · rw [hef, stampStep_ef]
      have hm : isMark (Char.ofNat 0xef) (Char.ofNat (c.toNat / 64 % 64 + 128)) (Char.ofNat (c.toNat % 64 + 128)) = true ↔
          c ∈ [Char.ofNat 0xfeff, Char.ofNat 0xfffe, Char.ofNat 0xffff] := by
        simp only [isMark, Bool.and_eq_true, Bool.or_eq_true, beq_iff_eq]
        rw [toNat_ofNat (by omega), toNat_ofNat (by omega), toNat_ofNat (by omega), hmem]
        omega
      unfold advance
      rw [if_neg (htab (by omega))]
      by_cases hx : c ∈ [Char.ofNat 0xfeff, Char.ofNat 0xfffe, Char.ofNat 0xffff]
      · rw [if_pos hx, if_pos (hm.mpr hx)]
      · rw [if_neg hx, if_neg (fun h => hx (hm.mp h))]
    · rw [stampStep_first _ _ _ _ (by omega) (by omega) hef, advance_plain _ _ (htab (by omega)) (by rw [hmem]; omega)]
      have hbc : byteCount (Char.ofNat (c.toNat / 4096 % 16 + 224)) = 3 := by
        unfold byteCount
        rw [toNat_ofNat (by omega), if_neg (by omega), if_pos (by omega)]
      rw [hbc]; rfl
  · simp only [List.map_cons, List.map_nil, List.cons_append, List.nil_append]
    rw [hb _ (by omega), hb _ (by omega), hb _ (by omega), hb _ (by omega),
      stampStep_first _ _ _ _ (by omega) (by omega) (by omega), advance_plain _ _ (htab (by omega)) (by rw [hmem]; omega)]
    have hbc : byteCount (Char.ofNat (c.toNat / 262144 % 8 + 240)) = 4 := by
      unfold byteCount
      rw [toNat_ofNat (by omega), if_neg (by omega), if_neg (by omega), if_pos (by omega)]
    rw [hbc]; rfl

theorem stampStep_byte {e : Encoding} (he : e ≠ .utf8) (tabsize row col : ℕ) (c : Char) (h1 : c ≠ '\r') (h2 : c ≠ '\n')
    (hc : c.toNat < 256) (after : Text) : stampStep e tabsize ⟨row, col, c :: after⟩ = ⟨row, advance tabsize col c, after⟩ := by
  have hm : c ∉ [Char.ofNat 0xfeff, Char.ofNat 0xfffe, Char.ofNat 0xffff] := by
    simp only [List.mem_cons, List.not_mem_nil, or_false]
    rintro (rfl | rfl | rfl) <;> revert hc <;> decide
  unfold stampStep advance
  simp only [h1, h2, if_false, he, hm]
  split_ifs <;> rfl

theorem stampStep_lf (e : Encoding) (tabsize row col : ℕ) (after : Text) (h : after.head? ≠ some '\r') :
    stampStep e tabsize ⟨row, col, '\n' :: after⟩ = ⟨row + 1, 0, after⟩ := by
  have : eat '\r' after = after := by
    cases after with
    | nil => rfl
    | cons d s => simp only [List.head?_cons, ne_eq, Option.some.injEq] at h; simp [eat, h]
  unfold stampStep
  simp [this]

theorem stored_cons (e : Encoding) (c : Char) (cs : List Char) :
    stored e (c :: cs) = (if e = .utf8 then utf8Bytes c else [c]) ++ stored e cs := by
  unfold stored
  split_ifs <;> simp

theorem utf8Bytes_ascii {c : Char} (h : c.toNat < 128) : utf8Bytes c = [c] := by
  have hcn : c.toNat = c.val.toNat := rfl
  unfold utf8Bytes
  rw [String.utf8EncodeChar.eq_1, ← hcn, if_pos (by omega)]
  simp only [List.map_cons, List.map_nil, List.cons.injEq, and_true]
  have : (UInt8.ofNat c.toNat).toNat = c.toNat := by simp; omega
  rw [this, ofNat_toNat]

theorem utf8Bytes_first (c x : Char) (hx : x = '\r' ∨ x = '\n') (h : c ≠ x) : ∃ b t, utf8Bytes c = b :: t ∧ b ≠ x := by
  have hcn : c.toNat = c.val.toNat := rfl
  by_cases hc : c.toNat < 128
  · exact ⟨c, [], utf8Bytes_ascii hc, h⟩
  · have hch := chunks_utf8Bytes c [] Chunks.nil
    rw [List.append_nil] at hch
    unfold utf8Bytes at hch ⊢
    rw [String.utf8EncodeChar.eq_1, ← hcn] at *
    have hb : ∀ n, 128 ≤ n → n < 256 → Char.ofNat (UInt8.ofNat n).toNat ≠ x := by
      intro n h1 h2
      have : (UInt8.ofNat n).toNat = n := by simp; omega
      rw [this]
      apply ne_of_toNat
      rw [toNat_ofNat (by omega)]
      have h3 : ('\r' : Char).toNat = 13 := rfl
      have h4 : ('\n' : Char).toNat = 10 := rfl
      rcases hx with rfl | rfl <;> omega
    split_ifs with h1 h2 h3
    · omega
    · exact ⟨_, _, rfl, hb _ (by omega) (by omega)⟩
    · exact ⟨_, _, rfl, hb _ (by omega) (by omega)⟩
    · exact ⟨_, _, rfl, hb _ (by omega) (by omega)⟩

theorem utf8Bytes_head (c : Char) (h : c ≠ '\r') : ∃ b t, utf8Bytes c = b :: t ∧ b ≠ '\r' := utf8Bytes_first c '\r' (Or.inl rfl) h

/-- The loop over a text: it stops at its end with the row and the column there. -/
theorem stampLoop_text (e : Encoding) (tabsize : ℕ) (cs : List Char) (hr : '\r' ∉ cs) (hb : e ≠ .utf8 → ∀ c ∈ cs, c.toNat < 256)
    (after : Text) (ha : after.head? ≠ some '\r') : ∀ (row col f : ℕ), cs.length < f →
    stampLoop e tabsize after.length f ⟨row, col, stored e cs ++ after⟩ =
      some ⟨row + cs.count '\n', columnAfter tabsize col cs, after⟩ := by
  induction cs with
  | nil =>
    intro row col f hf
    obtain ⟨f, rfl⟩ : ∃ g, f = g + 1 := ⟨f - 1, by simp at hf; omega⟩
    have hs : stored e [] = [] := by unfold stored; split_ifs <;> rfl
    rw [hs, List.nil_append, stampLoop, if_neg (by simp), columnAfter_nil]
    simp
  | cons c cs ih =>
    intro row col f hf
    obtain ⟨f, rfl⟩ : ∃ g, f = g + 1 := ⟨f - 1, by simp at hf; omega⟩
    simp only [List.mem_cons, not_or] at hr
    have hi := ih hr.2 (fun he d hd => hb he d (List.mem_cons_of_mem c hd))
    have hne : ∃ b t, (if e = .utf8 then utf8Bytes c else [c]) = b :: t := by
      split_ifs
      · obtain ⟨b, t, h, -⟩ := utf8Bytes_head c (Ne.symm hr.1)
        exact ⟨b, t, h⟩
      · exact ⟨c, [], rfl⟩
    have hstep : stampStep e tabsize ⟨row, col, (if e = .utf8 then utf8Bytes c else [c]) ++ (stored e cs ++ after)⟩ =
        ⟨row + (if c = '\n' then 1 else 0), if c = '\n' then 0 else advance tabsize col c, stored e cs ++ after⟩ := by
      by_cases hc : c = '\n'
      · subst hc
        have hu : (if e = .utf8 then utf8Bytes '\n' else ['\n']) = ['\n'] := by
          split_ifs
          · exact utf8Bytes_ascii (by decide)
          · rfl
        rw [hu, List.singleton_append, stampStep_lf]
        · simp
        · cases cs with
          | nil =>
            have hs : stored e [] = [] := by unfold stored; split_ifs <;> rfl
            rw [hs]; exact ha
          | cons d ds =>
            simp only [List.mem_cons, not_or] at hr
            rw [stored_cons]
            split_ifs
            · obtain ⟨b, t, h, hbr⟩ := utf8Bytes_head d (Ne.symm hr.2.1)
              rw [h]; simpa using hbr
            · simpa using Ne.symm hr.2.1
      · simp only [hc, if_false, Nat.add_zero]
        by_cases he : e = .utf8
        · subst he
          rw [if_pos rfl]
          exact stampStep_utf8 tabsize row col c (Ne.symm hr.1) hc _
        · rw [if_neg he, List.singleton_append]
          exact stampStep_byte he tabsize row col c (Ne.symm hr.1) hc (hb he c (by simp)) _
    rw [stored_cons, List.append_assoc, stampLoop, if_pos, hstep, hi _ _ f (by simpa using hf), columnAfter_cons]
    · congr 2
      rw [List.count_cons]
      by_cases hc : c = '\n'
      · simp [hc]; omega
      · simp [hc]
    · obtain ⟨b, t, h⟩ := hne
      rw [h]
      simp only [List.cons_append, List.length_cons, List.length_append]
      omega

/-! ## C94 -/

/-- C94: whatever a file contains, reading it takes a number of steps that is bounded by its length. -/
theorem C94_ends (contents : Text) : loadFile contents ≠ .error .fuel := loadFile_end contents

/-- C94: the row and the column of every position of a text with line feeds are the number of line feeds before it, and the column in its
line; it does not matter from where they are counted. -/
theorem C94_position (e : Encoding) (tabsize : ℕ) (ht : 1 ≤ tabsize) (cs : List Char) (hr : '\r' ∉ cs)
    (hb : e ≠ .utf8 → ∀ c ∈ cs, c.toNat < 256) (after : Text) (ha : after.head? ≠ some '\r') (row col limit : ℕ)
    (hl : cs.length < limit) :
    stamp e tabsize limit ⟨row, col, stored e cs ++ after⟩ after =
      some ⟨row + cs.count '\n', columnAfter tabsize col cs, after⟩ := by
  rw [stamp, if_neg (by omega)]
  exact stampLoop_text e tabsize cs hr hb after ha row col limit hl

theorem stored_append (e : Encoding) (cs ds : List Char) : stored e (cs ++ ds) = stored e cs ++ stored e ds := by
  unfold stored; split_ifs <;> simp

theorem stored_head (e : Encoding) (cs : List Char) (after : Text) (x : Char) (hx : x = '\r' ∨ x = '\n') (hc : x ∉ cs)
    (ha : after.head? ≠ some x) : (stored e cs ++ after).head? ≠ some x := by
  cases cs with
  | nil =>
    have hs : stored e [] = [] := by unfold stored; split_ifs <;> rfl
    rw [hs]; exact ha
  | cons d ds =>
    simp only [List.mem_cons, not_or] at hc
    rw [stored_cons]
    split_ifs
    · obtain ⟨b, t, h, hbr⟩ := utf8Bytes_first d x hx (Ne.symm hc.1)
      rw [h]; simpa using hbr
    · simpa using Ne.symm hc.1

theorem eat_other (x : Char) (s : Text) (h : s.head? ≠ some x) : eat x s = s := by
  cases s with
  | nil => rfl
  | cons d s => simp only [List.head?_cons, ne_eq, Option.some.injEq] at h; simp [eat, h]

/-- C94: the same for texts with the line breaks of Windows or of the old Macintosh: each of them counts as one. -/
theorem C94_line_breaks (e : Encoding) (tabsize : ℕ) (ht : 1 ≤ tabsize) (lineBreak : Text)
    (hlb : lineBreak = "\r\n".toList ∨ lineBreak = "\r".toList) (cs : List Char) (hr : '\r' ∉ cs)
    (hb : e ≠ .utf8 → ∀ c ∈ cs, c.toNat < 256) (after : Text) (ha : after.head? ≠ some '\n') (row col limit : ℕ)
    (hl : cs.length < limit) :
    stamp e tabsize limit ⟨row, col, stored e (cs.flatMap fun c => if c = '\n' then lineBreak else [c]) ++ after⟩ after =
      some ⟨row + cs.count '\n', columnAfter tabsize col cs, after⟩ := by
  rw [stamp, if_neg (by omega)]
  induction cs generalizing row col limit with
  | nil =>
    obtain ⟨f, rfl⟩ : ∃ g, limit = g + 1 := ⟨limit - 1, by simp at hl; omega⟩
    have hs : stored e [] = [] := by unfold stored; split_ifs <;> rfl
    rw [List.flatMap_nil, hs, List.nil_append, stampLoop, if_neg (by simp), columnAfter_nil]
    simp
  | cons c cs ih =>
    obtain ⟨f, rfl⟩ : ∃ g, limit = g + 1 := ⟨limit - 1, by simp at hl; omega⟩
    simp only [List.mem_cons, not_or] at hr
    have hi := fun row col => ih hr.2 (fun he d hd => hb he d (List.mem_cons_of_mem c hd)) row col f (by simpa using hl)
    set rest := stored e (cs.flatMap fun c => if c = '\n' then lineBreak else [c]) ++ after with hrest
    have hsplit : stored e ((c :: cs).flatMap fun c => if c = '\n' then lineBreak else [c]) ++ after =
        stored e (if c = '\n' then lineBreak else [c]) ++ rest := by
      rw [List.flatMap_cons, stored_append, List.append_assoc]
    have hasc : ∀ x : Char, x.toNat < 128 → ∀ t, stored e (x :: t) = x :: stored e t := by
      intro x hx t
      rw [stored_cons]
      split_ifs
      · rw [utf8Bytes_ascii hx]; rfl
      · rfl
    have hnil : stored e [] = [] := by unfold stored; split_ifs <;> rfl
    have hlong : ∃ b t, stored e (if c = '\n' then lineBreak else [c]) = b :: t := by
      split_ifs
      · rcases hlb with rfl | rfl
        · exact ⟨'\r', _, hasc '\r' (by decide) _⟩
        · exact ⟨'\r', _, hasc '\r' (by decide) _⟩
      · rw [stored_cons]
        split_ifs
        · obtain ⟨b, t, h, -⟩ := utf8Bytes_head c (Ne.symm hr.1)
          exact ⟨b, t ++ stored e [], by rw [h]; rfl⟩
        · exact ⟨c, stored e [], rfl⟩
    have hstep : stampStep e tabsize ⟨row, col, stored e (if c = '\n' then lineBreak else [c]) ++ rest⟩ =
        ⟨row + (if c = '\n' then 1 else 0), if c = '\n' then 0 else advance tabsize col c, rest⟩ := by
      by_cases hc : c = '\n'
      · simp only [hc, if_true]
        rcases hlb with rfl | rfl
        · change stampStep e tabsize ⟨row, col, stored e ['\r', '\n'] ++ rest⟩ = _
          rw [hasc _ (by decide), hasc _ (by decide), hnil]
          unfold stampStep
          simp [eat]
        · change stampStep e tabsize ⟨row, col, stored e ['\r'] ++ rest⟩ = _
          rw [hasc _ (by decide), hnil]
          have hh : rest.head? ≠ some '\n' := by
            apply stored_head e _ after '\n' (Or.inr rfl) _ ha
            simp only [List.mem_flatMap, not_exists, not_and]
            intro d _
            split_ifs with hd
            · decide
            · simpa using Ne.symm hd
          unfold stampStep
          simp [eat_other _ _ hh]
      · simp only [hc, if_false, Nat.add_zero]
        rw [stored_cons, hnil, List.append_nil]
        by_cases he : e = .utf8
        · subst he
          rw [if_pos rfl]
          exact stampStep_utf8 tabsize row col c (Ne.symm hr.1) hc _
        · rw [if_neg he, List.singleton_append]
          exact stampStep_byte he tabsize row col c (Ne.symm hr.1) hc (hb he c (by simp)) _
    rw [hsplit, stampLoop, if_pos, hstep, hi, columnAfter_cons]
    · congr 2
      rw [List.count_cons]
      by_cases hc : c = '\n'
      · simp [hc]; omega
      · simp [hc]
    · obtain ⟨b, t, h⟩ := hlong
      rw [h, hrest]
      simp only [List.cons_append, List.length_cons, List.length_append]
      omega

theorem columnAfter_append (tabsize col : ℕ) (cs ds : List Char) :
    columnAfter tabsize col (cs ++ ds) = columnAfter tabsize (columnAfter tabsize col cs) ds := by
  induction cs generalizing col with
  | nil => rw [List.nil_append, columnAfter_nil]
  | cons c cs ih => rw [List.cons_append, columnAfter_cons, columnAfter_cons, ih]

/-- C94: positions that are counted on the way give the same as counting from the beginning. -/
theorem C94_steps (e : Encoding) (tabsize : ℕ) (ht : 1 ≤ tabsize) (cs ds : List Char) (hr : '\r' ∉ cs ++ ds)
    (hb : e ≠ .utf8 → ∀ c ∈ cs ++ ds, c.toNat < 256) (after : Text) (ha : after.head? ≠ some '\r') (row col limit : ℕ)
    (hl : (cs ++ ds).length < limit) :
    (stamp e tabsize limit ⟨row, col, stored e (cs ++ ds) ++ after⟩ (stored e ds ++ after)).bind
      (fun k => stamp e tabsize limit k after) = stamp e tabsize limit ⟨row, col, stored e (cs ++ ds) ++ after⟩ after := by
  have happ : stored e (cs ++ ds) = stored e cs ++ stored e ds := by
    unfold stored; split_ifs <;> simp
  simp only [List.mem_append, not_or] at hr
  have hd : (stored e ds ++ after).head? ≠ some '\r' := by
    cases ds with
    | nil =>
      have hs : stored e [] = [] := by unfold stored; split_ifs <;> rfl
      rw [hs]; exact ha
    | cons d ds =>
      simp only [List.mem_cons, not_or] at hr
      rw [stored_cons]
      split_ifs
      · obtain ⟨b, t, h, hbr⟩ := utf8Bytes_head d (Ne.symm hr.2.1)
        rw [h]; simpa using hbr
      · simpa using Ne.symm hr.2.1
  rw [C94_position e tabsize ht (cs ++ ds) (by simp [hr]) hb after ha row col limit hl, happ, List.append_assoc,
    C94_position e tabsize ht cs hr.1 (fun he c hc => hb he c (List.mem_append_left _ hc)) (stored e ds ++ after) hd row col limit
      (by simp at hl; omega)]
  simp only [Option.bind_some]
  rw [C94_position e tabsize ht ds hr.2 (fun he c hc => hb he c (List.mem_append_right _ hc)) after ha _ _ limit
    (by simp at hl; omega)]
  rw [List.count_append, columnAfter_append, Nat.add_assoc]

theorem stampStep_length (e : Encoding) (tabsize : ℕ) (k : Cursor) (hk : k.stamp ≠ [])
    (h : e = .utf8 → ∀ b, k.stamp = Char.ofNat 0xef :: b → 2 ≤ b.length) :
    (stampStep e tabsize k).stamp.length < k.stamp.length := by
  obtain ⟨row, col, st⟩ := k
  obtain ⟨c, s, rfl⟩ := List.exists_cons_of_ne_nil hk
  have heat : ∀ d, (eat d s).length ≤ s.length := by
    intro d
    cases s with
    | nil => simp [eat]
    | cons x s => simp only [eat]; split_ifs <;> simp
  have h1 := heat '\n'
  have h2 := heat '\r'
  have hbc : 1 ≤ byteCount c := by unfold byteCount; split_ifs <;> omega
  unfold stampStep
  simp only
  split_ifs with a1 a2 a3 a4 a5 a6
  · simp only [List.length_cons]; omega
  · simp only [List.length_cons]; omega
  · simp
  · have hc : c = Char.ofNat 0xef := char_ext (by rw [toNat_ofNat (by omega)]; exact a4)
    have := h a5 s (by rw [hc])
    match s, this with
    | b :: d :: t, _ => simp only [List.length_cons]; omega
  · simp
  · simp only [List.length_drop, List.length_cons]; omega
  · simp

theorem stampStep_suffix (e : Encoding) (tabsize : ℕ) (k : Cursor) : (stampStep e tabsize k).stamp <:+ k.stamp := by
  obtain ⟨row, col, st⟩ := k
  have heat : ∀ d s, eat d s <:+ s := by
    intro d s
    cases s with
    | nil => simp [eat]
    | cons x s =>
      simp only [eat]
      split_ifs
      · exact List.suffix_cons x s
      · exact List.suffix_rfl
  cases st with
  | nil => exact List.suffix_rfl
  | cons c s =>
    unfold stampStep
    simp only
    split_ifs
    · exact (heat _ s).trans (List.suffix_cons c s)
    · exact (heat _ s).trans (List.suffix_cons c s)
    · exact List.suffix_cons c s
    · split
      · exact ⟨[c, _, _], rfl⟩
      · exact List.suffix_rfl
    · exact List.suffix_cons c s
    · exact List.drop_suffix _ _
    · exact List.suffix_cons c s

/-- C94: counting comes to an end for every text, complete or not, unless one of the last two bytes is EF and the encoding is UTF-8. -/
theorem C94_stamp_ends (e : Encoding) (tabsize : ℕ) (k : Cursor) (now : Text)
    (h : e = .utf8 → ∀ a b, k.stamp = a ++ Char.ofNat 0xef :: b → 2 ≤ b.length) :
    stamp e tabsize (k.stamp.length + 1) k now ≠ none := by
  unfold stamp
  split_ifs
  · simp
  · have key : ∀ (f : ℕ) (k : Cursor), k.stamp.length < f →
        (e = .utf8 → ∀ a b, k.stamp = a ++ Char.ofNat 0xef :: b → 2 ≤ b.length) → stampLoop e tabsize now.length f k ≠ none := by
      intro f
      induction f with
      | zero => intro k hk; omega
      | succ f ih =>
        intro k hk hh
        rw [stampLoop]
        split_ifs with hn
        · have hne : k.stamp ≠ [] := by intro h0; rw [h0] at hn; simp at hn
          have hlt := stampStep_length e tabsize k hne (fun he b hb => hh he [] b hb)
          apply ih _ (by omega)
          intro he a b hab
          obtain ⟨t, hsuf⟩ := stampStep_suffix e tabsize k
          exact hh he (t ++ a) b (by rw [← hsuf, hab]; simp)
        · simp
    exact key _ k (by omega) h

/-- The text is stamped in a file with tabs, line feeds and characters of several bytes. -/
example : stamp .utf8 4 30 ⟨0, 0, stored .utf8 (Char.ofNat 0xfeff :: "ä\n\té<".toList) ++ "a/>".toList⟩ "a/>".toList = some ⟨1, 6, "a/>".toList⟩ := by
  decide +kernel

theorem stampLoop_stuck (tabsize now : ℕ) (k : Cursor) (h1 : now < k.stamp.length) (h2 : stampStep .utf8 tabsize k = k) :
    ∀ f, stampLoop .utf8 tabsize now f k = none := by
  intro f
  induction f with
  | zero => rfl
  | succ f ih => rw [stampLoop, if_pos h1, h2, ih]

/-- C94, refuted: the attribute of `<a ï!` is not complete; the error is reported at the '!', and counting the columns up to there never
ends: the byte EF is not passed. -/
theorem C94_hang_refuted :
    (∃ name, parseAttribute .utf8 [Char.ofNat 0xef, '!'] = .ok ⟨name, [], .null, true⟩) ∧
    ∀ limit, stamp .utf8 4 limit ⟨0, 0, "<?xml ?><a ".toList ++ [Char.ofNat 0xef, '!']⟩ ['!'] = none := by
  refine ⟨⟨[Char.ofNat 0xef], by decide +kernel⟩, ?_⟩
  intro limit
  rw [stamp, if_neg (by omega)]
  have hstuck := stampLoop_stuck 4 1 ⟨0, 11, [Char.ofNat 0xef, '!']⟩ (by decide) (by decide +kernel)
  have hrun : ∀ n, n ≤ 11 → ∀ f, stampLoop .utf8 4 1 f ⟨0, 11 - n, ("<?xml ?><a ".toList ++ [Char.ofNat 0xef, '!']).drop (11 - n)⟩ = none := by
    intro n hn
    induction n with
    | zero => intro f; exact hstuck f
    | succ n ih =>
      intro f
      cases f with
      | zero => rfl
      | succ f =>
        have hs : 1 < (("<?xml ?><a ".toList ++ [Char.ofNat 0xef, '!']).drop (11 - (n + 1))).length ∧
            stampStep .utf8 4 ⟨0, 11 - (n + 1), ("<?xml ?><a ".toList ++ [Char.ofNat 0xef, '!']).drop (11 - (n + 1))⟩ =
              ⟨0, 11 - n, ("<?xml ?><a ".toList ++ [Char.ofNat 0xef, '!']).drop (11 - n)⟩ := by
          have key : ∀ m, m < 11 → 1 < (("<?xml ?><a ".toList ++ [Char.ofNat 0xef, '!']).drop (11 - (m + 1))).length ∧
            stampStep .utf8 4 ⟨0, 11 - (m + 1), ("<?xml ?><a ".toList ++ [Char.ofNat 0xef, '!']).drop (11 - (m + 1))⟩ =
              ⟨0, 11 - m, ("<?xml ?><a ".toList ++ [Char.ofNat 0xef, '!']).drop (11 - m)⟩ := by decide +kernel
          exact key n (by omega)
        rw [stampLoop, if_pos hs.1, hs.2]
        exact ih (by omega) f
  exact hrun 11 le_rfl limit

/-- Whether memory outside of the text is read. -/
def readsOutside : Except Fault Loaded → Bool
  | .error .outside => true
  | _ => false

/-- C94, refuted: files that end in a comment, in CDATA, in the value of an attribute, or in the middle of a character make the reader
read memory behind the end of the text. -/
theorem C94_outside_refuted :
    readsOutside (loadFile "<!-- a".toList) = true ∧ readsOutside (loadFile "<a><![CDATA[ b".toList) = true ∧
    readsOutside (loadFile "<a b=\"c".toList) = true ∧ readsOutside (loadFile ("<?xml ?><a>".toList ++ [Char.ofNat 0xe2, Char.ofNat 0x82])) = true := by
  decide +kernel

end Ubitrack.Xml
