import Verif.Model.StringArchive

/-!
# C18: text archive
-/

namespace Ubitrack.Arch

/-- White space: tabulator, line break, vertical tabulator, form feed, carriage return, blank. -/
def blanks : List Nat := [9, 10, 11, 12, 13, 32]

theorem isSpace_iff (c : Nat) : isSpace c = true ↔ c ∈ blanks := by
  simp [isSpace, blanks]
  omega

theorem isSpace_false_iff (c : Nat) : isSpace c = false ↔ c ∉ blanks := by
  rw [← isSpace_iff, Bool.not_eq_true]

/-- The item is in the range of its C++ type; characters are not white space. -/
def Item.ok : Item → Prop
  | .int z => -2147483648 ≤ z ∧ z ≤ 2147483647
  | .uint n => n ≤ 4294967295
  | .ull n => n ≤ 18446744073709551615
  | .char c => c ∉ blanks

theorem showNat_digits (n : Nat) : ∀ c ∈ showNat n, isDigit c = true := by
  induction n using Nat.strongRecOn with
  | ind n ih =>
    rw [showNat]
    split
    · intro c hc
      simp at hc
      subst hc
      simp [isDigit]; omega
    · intro c hc
      rw [List.mem_append] at hc
      rcases hc with hc | hc
      · exact ih (n / 10) (by omega) c hc
      · simp at hc
        subst hc
        simp [isDigit]; omega

theorem showNat_ne_nil (n : Nat) : showNat n ≠ [] := by
  rw [showNat]; split <;> simp

theorem value_append (a : Str) (d : Nat) : value (a ++ [d]) = 10 * value a + (d - 48) := by
  simp [value, List.foldl_append]

theorem value_showNat (n : Nat) : value (showNat n) = n := by
  induction n using Nat.strongRecOn with
  | ind n ih =>
    rw [showNat]
    split
    · simp [value]
    · rw [value_append, ih (n / 10) (by omega)]; omega

theorem takeWhile_all {p : Nat → Bool} (l rest : Str) (h : ∀ c ∈ l, p c = true)
    (hr : ∀ c, rest.head? = some c → p c = false) :
    (l ++ rest).takeWhile p = l ∧ (l ++ rest).dropWhile p = rest := by
  induction l with
  | nil =>
    cases rest with
    | nil => simp
    | cons c cs => have := hr c rfl; simp [this]
  | cons a as ih =>
    have h1 := h a (by simp)
    have := ih (fun c hc => h c (by simp [hc]))
    simp [h1, this.1, this.2]

theorem dropWhile_space (l : Str) (h : ∀ c, l.head? = some c → isSpace c = false) :
    l.dropWhile isSpace = l ∧ (space :: l).dropWhile isSpace = l := by
  have h1 : l.dropWhile isSpace = l := by
    cases l with
    | nil => rfl
    | cons c cs => have := h c rfl; simp [this]
  refine ⟨h1, ?_⟩
  have : isSpace space = true := rfl
  simp [this, h1]

theorem digit_facts {c : Nat} (h : isDigit c = true) :
    isSpace c = false ∧ c ≠ minus ∧ c ≠ plus := by
  simp [isDigit] at h
  refine ⟨?_, ?_, ?_⟩
  · simp [isSpace]; omega
  · simp [minus]; omega
  · simp [plus]; omega

theorem showNat_head (n : Nat) : ∃ c cs, showNat n = c :: cs ∧ isDigit c = true := by
  rcases h : showNat n with _ | ⟨c, cs⟩
  · exact absurd h (showNat_ne_nil n)
  · exact ⟨c, cs, rfl, showNat_digits n c (by rw [h]; simp)⟩

/-- What follows an item: the end of the string or a separator. -/
def Ends (rest : Str) : Prop := rest = [] ∨ ∃ r, rest = space :: r

theorem Ends.not_digit {rest : Str} (h : Ends rest) : ∀ c, rest.head? = some c → isDigit c = false := by
  rcases h with rfl | ⟨r, rfl⟩
  · simp
  · intro c hc; simp at hc; subst hc; rfl

/-- The text of a number, possibly preceded by one separator, is read back. -/
theorem getInt_show (lo hi z : Int) (hlo : lo ≤ z) (hhi : z ≤ hi) (pre rest : Str)
    (hpre : pre = [] ∨ pre = [space]) (hr : Ends rest) :
    getInt lo hi ⟨pre ++ showItem (.int z) ++ rest, false, false⟩ =
      (⟨rest, rest.isEmpty, false⟩, z) := by
  obtain ⟨c, cs, hc, hd⟩ := showNat_head z.natAbs
  have hdig := showNat_digits z.natAbs
  have hnd := hr.not_digit
  have hval := value_showNat z.natAbs
  have hspan := takeWhile_all (p := isDigit) (showNat z.natAbs) rest hdig hnd
  have hne : (showNat z.natAbs).isEmpty = false := by rw [hc]; rfl
  by_cases hz : z < 0
  · have hs : showItem (.int z) = minus :: showNat z.natAbs := by simp [showItem, hz]
    have hdw : (pre ++ showItem (.int z) ++ rest).dropWhile isSpace =
        minus :: (showNat z.natAbs ++ rest) := by
      have := dropWhile_space (minus :: (showNat z.natAbs ++ rest))
        (by intro c hc; simp at hc; subst hc; rfl)
      rw [hs]
      rcases hpre with rfl | rfl
      · simpa using this.1
      · simpa using this.2
    unfold getInt
    simp only [IArch.good, Bool.not_false, Bool.and_self, Bool.not_true, Bool.false_eq_true, if_false]
    rw [hdw]
    have hv : (if (z : Int) < 0 then -(z.natAbs : Int) else z.natAbs) = z := by rw [if_pos hz]; omega
    simp only [List.isEmpty_cons, Bool.false_eq_true, if_false, List.head?_cons, beq_self_eq_true,
      Bool.true_or, if_true, List.tail_cons, hspan.1, hspan.2, hval, hne]
    have e : (-(z.natAbs : Int)) = z := by omega
    rw [e]
    have h1 : decide (z < lo) = false := by simp; omega
    have h2 : decide (hi < z) = false := by simp; omega
    simp [h1, h2]
  · have hs : showItem (.int z) = showNat z.natAbs := by simp [showItem, hz]
    have hfacts := digit_facts hd
    have hdw : (pre ++ showItem (.int z) ++ rest).dropWhile isSpace = showNat z.natAbs ++ rest := by
      have := dropWhile_space (showNat z.natAbs ++ rest)
        (by intro x hx; rw [hc] at hx; simp at hx; subst hx; exact hfacts.1)
      rw [hs]
      rcases hpre with rfl | rfl
      · simpa using this.1
      · simpa using this.2
    unfold getInt
    simp only [IArch.good, Bool.not_false, Bool.and_self, Bool.not_true, Bool.false_eq_true, if_false]
    rw [hdw]
    have hh : (showNat z.natAbs ++ rest).head? = some c := by rw [hc]; rfl
    have hie : (showNat z.natAbs ++ rest).isEmpty = false := by rw [hc]; rfl
    have hm : ((some c : Option Nat) == some minus) = false := by simp [hfacts.2.1]
    have hp : ((some c : Option Nat) == some plus) = false := by simp [hfacts.2.2]
    simp only [hie, hh, hm, hp, Bool.or_self, Bool.false_eq_true, if_false, hspan.1, hspan.2, hval, hne]
    have e : ((z.natAbs : Int)) = z := by omega
    rw [e]
    have h1 : decide (z < lo) = false := by simp; omega
    have h2 : decide (hi < z) = false := by simp; omega
    simp [h1, h2]

/-- Reading one item back. -/
theorem get_show (i : Item) (hok : i.ok) (pre rest : Str) (hpre : pre = [] ∨ pre = [space])
    (hr : Ends rest) :
    ∃ eof, (IArch.get ⟨pre ++ showItem i ++ rest, false, false⟩ i.kind) =
      some (i, ⟨rest, eof, false⟩) ∧ (rest ≠ [] → eof = false) := by
  cases i with
  | int z =>
    refine ⟨rest.isEmpty, ?_, by simp⟩
    simp only [IArch.get, Item.kind, IArch.good, Bool.not_false, Bool.and_self, Bool.not_true,
      Bool.false_eq_true, if_false]
    rw [getInt_show _ _ z hok.1 hok.2 pre rest hpre hr]
    simp
  | uint n =>
    refine ⟨rest.isEmpty, ?_, by simp⟩
    have hok : n ≤ 4294967295 := hok
    have hs : showItem (.uint n) = showItem (.int (n : Int)) := by
      simp only [showItem]; rw [if_neg (by omega)]; simp
    simp only [IArch.get, Item.kind, IArch.good, Bool.not_false, Bool.and_self, Bool.not_true,
      Bool.false_eq_true, if_false]
    rw [hs, getInt_show _ _ (n : Int) (by omega) (by omega) pre rest hpre hr]
    simp
  | ull n =>
    refine ⟨rest.isEmpty, ?_, by simp⟩
    have hok : n ≤ 18446744073709551615 := hok
    have hs : showItem (.ull n) = showItem (.int (n : Int)) := by
      simp only [showItem]; rw [if_neg (by omega)]; simp
    simp only [IArch.get, Item.kind, IArch.good, Bool.not_false, Bool.and_self, Bool.not_true,
      Bool.false_eq_true, if_false]
    rw [hs, getInt_show _ _ (n : Int) (by omega) (by omega) pre rest hpre hr]
    simp
  | char c =>
    refine ⟨false, ?_, fun _ => rfl⟩
    have hok : isSpace c = false := (isSpace_false_iff c).2 hok
    have hdw : (pre ++ showItem (.char c) ++ rest).dropWhile isSpace = c :: rest := by
      have := dropWhile_space (c :: rest) (by intro x hx; simp at hx; subst hx; exact hok)
      rcases hpre with rfl | rfl
      · simpa [showItem] using this.1
      · simpa [showItem] using this.2
    simp only [IArch.get, Item.kind, IArch.good, Bool.not_false, Bool.and_self, Bool.not_true,
      Bool.false_eq_true, if_false, getChar, hdw]

/-- The text of the items after the first, each preceded by a separator. -/
def tailText : List Item → Str
  | [] => []
  | i :: is => space :: (showItem i ++ tailText is)

theorem tailText_ends (is : List Item) (rest : Str) (h : Ends rest) : Ends (tailText is ++ rest) := by
  cases is with
  | nil => exact h
  | cons i is => exact Or.inr ⟨_, rfl⟩

theorem getAll_tail (is : List Item) (hok : ∀ i ∈ is, i.ok) (rest : Str) (hr : Ends rest) (eof : Bool)
    (heof : tailText is ++ rest ≠ [] → eof = false) :
    ∃ eof', IArch.getAll (is.map Item.kind) ⟨tailText is ++ rest, eof, false⟩ =
      some (is, ⟨rest, eof', false⟩) ∧ (rest ≠ [] → eof' = false) := by
  induction is generalizing eof with
  | nil => exact ⟨eof, rfl, heof⟩
  | cons i is ih =>
    have he : eof = false := heof (by simp [tailText])
    subst he
    obtain ⟨e1, h1, h2⟩ := get_show i (hok i (by simp)) [space] (tailText is ++ rest) (Or.inr rfl)
      (tailText_ends is rest hr)
    obtain ⟨e2, h3, h4⟩ := ih (fun x hx => hok x (by simp [hx])) e1 h2
    refine ⟨e2, ?_, h4⟩
    have hb : tailText (i :: is) ++ rest = [space] ++ showItem i ++ (tailText is ++ rest) := by
      simp [tailText]
    rw [hb]
    simp only [List.map_cons, IArch.getAll]
    rw [h1]
    simp only
    rw [h3]

theorem put_foldl (is : List Item) (a : OArch) (hc : a.count ≠ 0)
    (hb : a.count.toNat + is.length ≤ 2 ^ 32) :
    (is.foldl OArch.put a).str = a.str ++ tailText is := by
  induction is generalizing a with
  | nil => simp [tailText]
  | cons i is ih =>
    simp only [List.foldl_cons]
    simp only [List.length_cons] at hb
    have hstep : a.put i = ⟨a.str ++ [space] ++ showItem i, a.count + 1⟩ := by
      unfold OArch.put
      rw [if_pos hc]
    cases is with
    | nil => rw [hstep]; simp [tailText]
    | cons j js =>
      simp only [List.length_cons] at hb
      have hnat : (a.count + 1).toNat = a.count.toNat + 1 := by
        rw [BitVec.toNat_add]; simp; omega
      rw [ih (a.put i)]
      · rw [hstep]; simp [tailText]
      · rw [hstep]
        intro h
        have := congrArg BitVec.toNat h
        rw [hnat] at this
        simp at this
      · rw [hstep]
        simp only [hnat, List.length_cons]
        omega

theorem writeAll_cons (i : Item) (is : List Item) (h : is.length < 2 ^ 32) :
    writeAll (i :: is) = showItem i ++ tailText is := by
  unfold writeAll
  simp only [List.foldl_cons]
  have h0 : OArch.new.put i = ⟨showItem i, 1⟩ := by simp [OArch.put, OArch.new]
  have h1 : ((1 : BitVec 32)).toNat = 1 := by decide
  have h2 : (1 : BitVec 32) ≠ 0 := by decide
  rw [h0, put_foldl is _ h2]
  simp only [h1]
  omega

theorem get_end (k : Kind) (eof : Bool) : IArch.get ⟨[], eof, false⟩ k = none := by
  cases eof <;> cases k <;> rfl

/-- **C18 (partial)** Any sequence of up to 2^32 ints, unsigned ints, unsigned long longs and non-blank
characters, written to a string archive, is read back unchanged and in order, and any further read
throws. Missing from the full claim: longer sequences (`C18_counter_wrap_refuted`) and floating point
items (not modelled). -/
theorem C18_roundtrip_partial (is : List Item) (hok : ∀ i ∈ is, i.ok) (hlen : is.length ≤ 2 ^ 32) :
    ∃ a, IArch.getAll (is.map Item.kind) (IArch.new (writeAll is)) = some (is, a) ∧
      ∀ k, a.get k = none := by
  cases is with
  | nil => exact ⟨_, rfl, fun k => get_end k false⟩
  | cons i is =>
    simp only [List.length_cons] at hlen
    rw [writeAll_cons i is (by omega)]
    obtain ⟨e1, h1, h2⟩ := get_show i (hok i (by simp)) [] (tailText is) (Or.inl rfl)
      (by simpa using tailText_ends is [] (Or.inl rfl))
    obtain ⟨e2, h3, h4⟩ := getAll_tail is (fun x hx => hok x (by simp [hx])) [] (Or.inl rfl) e1
      (by simpa using h2)
    refine ⟨⟨[], e2, false⟩, ?_, fun k => get_end k e2⟩
    simp only [List.nil_append] at h1
    simp only [List.append_nil] at h3
    simp only [List.map_cons, IArch.getAll, IArch.new]
    rw [h1]
    simp only
    rw [h3]

/-- **C18** Reading from a string that holds nothing but white space throws. -/
theorem C18_empty_throws (s : Str) (h : ∀ c ∈ s, c ∈ blanks) (k : Kind) :
    (IArch.new s).get k = none := by
  have hd : s.dropWhile isSpace = [] := by
    induction s with
    | nil => rfl
    | cons a as ih =>
      have := (isSpace_iff a).2 (h a (by simp))
      simp only [List.dropWhile_cons, this, if_true]
      exact ih (fun x hx => h x (by simp [hx]))
  cases k <;> simp [IArch.get, IArch.new, IArch.good, getInt, getChar, hd]

/-- **C18 (refuted in general)** A blank character is not read back: the reader skips it. -/
theorem C18_blank_char_refuted :
    IArch.getAll [.char, .int] (IArch.new (writeAll [.char space, .int 5])) = none ∧
    (IArch.new (writeAll [.char space, .int 5])).get .char =
      some (.char 53, ⟨[], false, false⟩) := by
  have h5 : showNat 5 = [53] := by rw [showNat]; rfl
  have h : writeAll [.char space, .int 5] = [32, 32, 53] := by
    simp [writeAll, OArch.new, OArch.put, showItem, h5, space]
  rw [h]
  exact ⟨rfl, rfl⟩

/-- **C18 (refuted in general)** After 2^32 items the item counter wraps and the separator is
dropped: 2^32 + 1 items `1` do not come back; the last one read is `11`. -/
theorem C18_counter_wrap_refuted :
    ∃ is : List Item, (∀ i ∈ is, i.ok) ∧
      ∀ a, IArch.getAll (is.map Item.kind) (IArch.new (writeAll is)) ≠ some (is, a) := by
  -- the items: one, then 2^32 - 2 times, then two more
  obtain ⟨n, hn⟩ : ∃ n : Nat, n + 2 = 2 ^ 32 := ⟨4294967294, by decide⟩
  obtain ⟨is1, hl, hrep⟩ : ∃ is1 : List Item, is1.length = n ∧ ∀ i ∈ is1, i = .int 1 :=
    ⟨List.replicate n (.int 1), List.length_replicate, fun i hi => List.eq_of_mem_replicate hi⟩
  refine ⟨.int 1 :: (is1 ++ [.int 1, .int 1]), ?_, ?_⟩
  · intro i hi
    have : i = .int 1 := by
      simp only [List.mem_cons, List.mem_append, List.not_mem_nil, or_false] at hi
      rcases hi with h | h | h | h
      · exact h
      · exact hrep i h
      · exact h
      · exact h
    subst this
    constructor <;> decide
  intro a
  -- what is written
  have hw : writeAll (.int 1 :: (is1 ++ [.int 1, .int 1])) =
      showItem (.int 1) ++ tailText is1 ++ (space :: showItem (.int 11)) := by
    have h1 : ∀ (l : List Item) (b : OArch), (l.foldl OArch.put b).count = b.count + BitVec.ofNat 32 l.length := by
      intro l
      induction l with
      | nil => intro b; simp
      | cons x xs ih =>
        intro b
        simp only [List.foldl_cons, ih, OArch.put, List.length_cons, BitVec.ofNat_add]
        rw [BitVec.add_assoc, BitVec.add_comm 1 _]
        rfl
    unfold writeAll
    have hpre : (.int 1 :: (is1 ++ [.int 1, .int 1]) : List Item) = (.int 1 :: (is1 ++ [.int 1])) ++ [.int 1] := by
      simp
    rw [hpre, List.foldl_append]
    have hlen : (.int 1 :: (is1 ++ [.int 1]) : List Item).length = 2 ^ 32 := by
      simp only [List.length_cons, List.length_append, List.length_nil, hl]; omega
    have hcount : (List.foldl OArch.put OArch.new (.int 1 :: (is1 ++ [.int 1]))).count = 0 := by
      rw [h1, hlen]; decide
    have hstr : (List.foldl OArch.put OArch.new (.int 1 :: (is1 ++ [.int 1]))).str =
        showItem (.int 1) ++ tailText (is1 ++ [.int 1]) :=
      writeAll_cons _ _ (by simp only [List.length_append, List.length_cons, List.length_nil, hl]; omega)
    simp only [List.foldl_cons, List.foldl_nil] at hcount hstr ⊢
    rw [OArch.put]
    simp only [hcount, ne_eq, not_true_eq_false, if_false, hstr]
    have ht : ∀ l : List Item, tailText (l ++ [.int 1]) = tailText l ++ (space :: showItem (.int 1)) := by
      intro l
      induction l with
      | nil => simp [tailText]
      | cons x xs ih => simp [tailText, ih]
    rw [ht]
    have h11 : showItem (.int 11) = showItem (.int 1) ++ showItem (.int 1) := by
      have e1 : showNat 1 = [49] := by rw [showNat]; rfl
      have e11 : showNat 11 = [49, 49] := by rw [showNat, if_neg (by omega), e1]; rfl
      simp [showItem, e1, e11]
    rw [h11]
    simp
  rw [hw]
  -- reading
  obtain ⟨e1, g1, g2⟩ := get_show (.int 1) (by constructor <;> decide) []
    (tailText is1 ++ (space :: showItem (.int 11))) (Or.inl rfl)
    (tailText_ends is1 _ (Or.inr ⟨_, rfl⟩))
  obtain ⟨e2, g3, g4⟩ := getAll_tail is1
    (by intro i hi; rw [hrep i hi]; constructor <;> decide)
    (space :: showItem (.int 11)) (Or.inr ⟨_, rfl⟩) e1 g2
  obtain ⟨e3, g5, g6⟩ := get_show (.int 11) (by constructor <;> decide) [space] [] (Or.inr rfl) (Or.inl rfl)
  have he2 : e2 = false := g4 (by simp)
  subst he2
  have gapp : ∀ (l : List Item) (ks : List Kind) (s s' : IArch),
      IArch.getAll (l.map Item.kind) s = some (l, s') →
      IArch.getAll (l.map Item.kind ++ ks) s =
        (IArch.getAll ks s').map (fun r => (l ++ r.1, r.2)) := by
    intro l
    induction l with
    | nil =>
      intro ks s s' h
      simp only [List.map_nil, IArch.getAll, Option.some.injEq, Prod.mk.injEq, true_and] at h
      subst h
      simp only [List.map_nil, List.nil_append]
      rcases IArch.getAll ks s with _ | ⟨r1, r2⟩ <;> rfl
    | cons x xs ih =>
      intro ks s s' h
      simp only [List.map_cons, List.cons_append, IArch.getAll] at h ⊢
      rcases hx : s.get x.kind with _ | ⟨i, s1⟩
      · rw [hx] at h; cases h
      · rw [hx] at h
        simp only at h ⊢
        rcases hxs : IArch.getAll (xs.map Item.kind) s1 with _ | ⟨is', s2⟩
        · rw [hxs] at h; cases h
        · rw [hxs] at h
          simp only [Option.some.injEq, Prod.mk.injEq, List.cons.injEq] at h
          obtain ⟨⟨rfl, rfl⟩, rfl⟩ := h
          rw [ih ks s1 s2 hxs]
          rcases IArch.getAll ks s2 with _ | ⟨r1, r2⟩ <;> rfl
  intro hcontra
  simp only [List.map_cons, List.map_append, List.map_nil, IArch.getAll, IArch.new] at hcontra
  simp only [List.nil_append] at g1
  rw [← List.append_assoc] at g1
  have hk : Item.kind (.int 1) = .int := rfl
  rw [hk] at g1 hcontra
  rw [g1] at hcontra
  simp only at hcontra
  rw [gapp is1 _ _ _ g3] at hcontra
  have hk2 : Item.kind (.int 11) = .int := rfl
  rw [hk2] at g5
  simp only [List.append_nil, List.cons_append, List.nil_append] at g5
  simp only [IArch.getAll] at hcontra
  rw [g5] at hcontra
  simp only at hcontra
  rw [get_end] at hcontra
  simp at hcontra

/-- Hypotheses are met by typical data. -/
example : ∀ i ∈ [Item.int (-5), .uint 4294967295, .char 65, .ull 18446744073709551615, .int 0], i.ok := by
  intro i hi
  simp only [List.mem_cons, List.not_mem_nil, or_false] at hi
  rcases hi with rfl | rfl | rfl | rfl | rfl
  · constructor <;> decide
  · show (4294967295 : Nat) ≤ 4294967295; omega
  · show 65 ∉ blanks; decide
  · show (18446744073709551615 : Nat) ≤ 18446744073709551615; omega
  · constructor <;> decide

end Ubitrack.Arch
