import Verif.Proofs.RosBinary

/-!
# C15, C16: ROS style binary serialization
-/

namespace Ubitrack.Ros

/-- A value together with its type. -/
abbrev AnyVal := (t : Ty) × Val t

/-- Writing a sequence of values to one output stream (`stream << a << b << …`). -/
def writeSeq : List AnyVal → M Unit := writeAll (fun x => write x.1 x.2)

/-- Reading a sequence of values of given types from one input stream (`stream >> a >> b >> …`). -/
def readSeq : List Ty → M (List AnyVal)
  | [] => M.pure []
  | t :: ts => do
    let v ← read t
    let vs ← readSeq ts
    M.pure (⟨t, v⟩ :: vs)

def seqSize (vs : List AnyVal) : Nat := (vs.map (fun x => wireSize x.1 x.2)).sum

/-- **C15** Any sequence of values of any (nested) types whose lengths fit into 32 bits, written
anywhere into any buffer with enough room: writing succeeds, moves by exactly the wire size, changes
no byte outside that range, and reading the same types back from that position returns exactly the
values written and consumes exactly the bytes written. -/
theorem C15_roundtrip (vs : List AnyVal) (hfit : ∀ x ∈ vs, Fits x.1 x.2) (buf : List Byte) (pos : Nat)
    (hroom : pos + seqSize vs ≤ buf.length) :
    ∃ buf', writeSeq vs ⟨buf, pos⟩ = (.ok (), ⟨buf', pos + seqSize vs⟩) ∧
      buf'.length = buf.length ∧ buf'.take pos = buf.take pos ∧
      buf'.drop (pos + seqSize vs) = buf.drop (pos + seqSize vs) ∧
      readSeq (vs.map (·.1)) ⟨buf', pos⟩ = (.ok vs, ⟨buf', pos + seqSize vs⟩) := by
  let e : AnyVal → List Byte := fun x => enc x.1 x.2
  have hg : Good (writeSeq vs) (vs.flatMap e) :=
    good_all _ e vs (fun x hx => good_write x.1 x.2 (hfit x hx))
  have hr : ∀ vs : List AnyVal, (∀ x ∈ vs, Fits x.1 x.2) →
      Reads (readSeq (vs.map (·.1))) (vs.flatMap e) vs := by
    intro vs
    induction vs with
    | nil => intro _; exact reads_pure _
    | cons a as ih =>
      intro h
      rw [List.flatMap_cons]
      apply reads_bind (reads_read a.1 a.2 (h a (by simp)))
      apply reads_bind_nil (ih (fun x hx => h x (by simp [hx])))
      exact reads_pure _
  have hl : (vs.flatMap e).length = seqSize vs :=
    flatMap_length e _ vs (fun x _ => enc_length x.1 x.2)
  obtain ⟨pre, old, post, rfl, rfl, ho⟩ := split_buf buf pos (seqSize vs) hroom
  refine ⟨pre ++ vs.flatMap e ++ post, ?_, ?_, ?_, ?_, ?_⟩
  · rw [hg.1 pre old post (by omega), hl]
  · simp only [List.length_append]; omega
  · simp only [List.append_assoc, List.take_left]
  · have h1 : pre.length + seqSize vs = (pre ++ vs.flatMap e).length := by
      rw [List.length_append, hl]
    have h2 : pre.length + seqSize vs = (pre ++ old).length := by
      rw [List.length_append, ho]
    conv => lhs; rw [h1, List.drop_left]
    rw [h2, List.drop_left]
  · rw [hr vs hfit pre post, hl]

/-- **C15** The bytes written can be moved: any other buffer holding the same bytes at any offset
reads back as the same values. -/
theorem C15_read_elsewhere (v : AnyVal) (hfit : Fits v.1 v.2) (room pre post : List Byte)
    (hroom : room.length = wireSize v.1 v.2) :
    let bytes := (write v.1 v.2 ⟨room, 0⟩).2.buf
    read v.1 ⟨pre ++ bytes ++ post, pre.length⟩ =
      (.ok v.2, ⟨pre ++ bytes ++ post, pre.length + bytes.length⟩) := by
  have h := (good_write v.1 v.2 hfit).1 [] room [] (by rw [enc_length]; exact hroom)
  simp only [List.nil_append, List.append_nil, List.length_nil] at h
  rw [h]
  exact reads_read v.1 v.2 hfit pre post

/-- **C15** When the remaining room is too small, writing throws (and nothing worse happens). -/
theorem C15_too_small_throws (vs : List AnyVal) (hfit : ∀ x ∈ vs, Fits x.1 x.2) (buf : List Byte)
    (pos : Nat) (hpos : pos ≤ buf.length) (hroom : buf.length < pos + seqSize vs) :
    (writeSeq vs ⟨buf, pos⟩).1 = .error .overrun := by
  let e : AnyVal → List Byte := fun x => enc x.1 x.2
  have hg : Good (writeSeq vs) (vs.flatMap e) :=
    good_all _ e vs (fun x hx => good_write x.1 x.2 (hfit x hx))
  have hl : (vs.flatMap e).length = seqSize vs :=
    flatMap_length e _ vs (fun x _ => enc_length x.1 x.2)
  exact hg.2 buf pos hpos (by omega)

theorem u32_add_u32 (a b : Nat) : u32 (a + u32 b) = u32 (a + b) := by
  unfold u32; omega

theorem u32_u32_add (a b : Nat) : u32 (u32 a + b) = u32 (a + b) := by
  unfold u32; omega

theorem foldl_u32 {α : Type} (m w : α → Nat) (l : List α) (h : ∀ x ∈ l, m x = u32 (w x)) (c : Nat) :
    l.foldl (fun size x => u32 (size + m x)) (u32 c) = u32 (c + (l.map w).sum) := by
  induction l generalizing c with
  | nil => rfl
  | cons a as ih =>
    simp only [List.foldl_cons, List.map_cons, List.sum_cons]
    rw [h a (by simp), u32_add_u32, u32_u32_add, ih (fun x hx => h x (by simp [hx]))]
    congr 1; omega

theorem sum_bool (l : List (Val .bool)) : (l.map (wireSize .bool)).sum = l.length := by
  induction l with
  | nil => rfl
  | cons a as ih => rw [List.map_cons, List.sum_cons, ih, List.length_cons, Nat.add_comm]; rfl

theorem maxLen_eq : (t : Ty) → (v : Val t) → maxLen t v = u32 (wireSize t v)
  | .simple n, v => rfl
  | .bool, _ => rfl
  | .string, s => by simp only [maxLen, wireSize, u32_add_u32]
  | .vec (.simple n), v => by
    show u32 (4 + List.length v * n) = u32 (4 + (List.map (wireSize (.simple n)) v).sum)
    rw [sum_const]
  | .vec .bool, v => by
    cases v with
    | nil => rfl
    | cons x xs =>
      show u32 (4 + maxLen .bool x * u32 (x :: xs).length) = u32 (4 + _)
      rw [sum_bool]
      simp only [maxLen, Nat.one_mul, u32_add_u32]
  | .vec .string, v => foldl_u32 _ _ v (fun x _ => maxLen_eq .string x) 4
  | .vec (.vec t), v => foldl_u32 _ _ v (fun x _ => maxLen_eq (.vec t) x) 4
  | .vec (.arr t n), v => foldl_u32 _ _ v (fun x _ => maxLen_eq (.arr t n) x) 4
  | .arr (.simple n) N, v => by
    show u32 (N * n) = u32 (List.map (wireSize (.simple n)) v.1).sum
    rw [sum_const, v.2]
  | .arr .bool N, ⟨l, hl⟩ => by
    cases l with
    | nil => rfl
    | cons x xs =>
      show u32 (maxLen .bool x * N) = u32 (List.map (wireSize .bool) (x :: xs)).sum
      rw [sum_bool, hl]
      simp only [maxLen, Nat.one_mul]
  | .arr .string N, v => by
    have := foldl_u32 _ _ v.1 (fun x _ => maxLen_eq .string x) 0
    rw [Nat.zero_add] at this
    exact this
  | .arr (.vec t) N, v => by
    have := foldl_u32 _ _ v.1 (fun x _ => maxLen_eq (.vec t) x) 0
    rw [Nat.zero_add] at this
    exact this
  | .arr (.arr t n) N, v => by
    have := foldl_u32 _ _ v.1 (fun x _ => maxLen_eq (.arr t n) x) 0
    rw [Nat.zero_add] at this
    exact this

/-- **C15** The advertised serialized length of a sequence of values, whenever it fits into the
32-bit counter, is exactly the number of bytes that writing them takes. -/
theorem C15_advertised_length (vs : List AnyVal) (hsize : seqSize vs < 2 ^ 32) :
    lengthStream vs = seqSize vs := by
  have := foldl_u32 (fun x : AnyVal => maxLen x.1 x.2) (fun x => wireSize x.1 x.2) vs
    (fun x _ => maxLen_eq x.1 x.2) 0
  rw [Nat.zero_add] at this
  exact this.trans (u32_of_lt hsize)

/-! ## C16 -/

/-- One access of a client program to a stream. -/
inductive Access where
  | read (t : Ty)
  | write (v : AnyVal)

def Access.run : Access → M Unit
  | .read t => Ros.read t >>= fun _ => M.pure ()
  | .write v => Ros.write v.1 v.2

/-- Run accesses one after the other on the same stream; the client may catch exceptions and go on.
The results are collected. -/
def runAccesses : List Access → Stream → List (Except Err Unit) × Stream
  | [], s => ([], s)
  | a :: as, s =>
    let r := a.run s
    let rest := runAccesses as r.2
    (r.1 :: rest.1, rest.2)

/-- Strings handed to `write` are shorter than 2^32 bytes. -/
def Access.small : Access → Prop
  | .read _ => True
  | .write v => SmallStrings v.1 v.2

theorem safe_access (a : Access) (h : a.small) : Safe a.run (fun _ => True) := by
  cases a with
  | read t => exact safe_bind (safe_read t) (fun _ _ => safe_pure _ _ trivial)
  | write v => exact safe_write v.1 v.2 h

/-- **C16 (partial)** For any buffer contents (malicious or not), any sequence of reads and writes of
any types, continued even after exceptions: no access leaves the buffer, the buffer keeps its size
and the bytes before the starting position are untouched. Missing from the full claim: strings of
2^32 bytes or more, for which the claim is false (`C16_huge_string_refuted`). -/
theorem C16_memory_safe_partial (as : List Access) (hs : ∀ a ∈ as, a.small) (s : Stream) :
    (∀ r ∈ (runAccesses as s).1, r ≠ .error .oob) ∧
    (runAccesses as s).2.buf.length = s.buf.length ∧
    (runAccesses as s).2.buf.take s.pos = s.buf.take s.pos := by
  have key : ∀ (as : List Access) (hs : ∀ a ∈ as, a.small) (s : Stream),
      (∀ r ∈ (runAccesses as s).1, r ≠ .error .oob) ∧
      (runAccesses as s).2.buf.length = s.buf.length ∧ s.pos ≤ (runAccesses as s).2.pos ∧
      (runAccesses as s).2.buf.take s.pos = s.buf.take s.pos := by
    intro as
    induction as with
    | nil => intro _ s; simp [runAccesses]
    | cons a as ih =>
      intro hs s
      obtain ⟨a1, a2, a3, a4, a5⟩ := safe_access a (hs a (by simp)) s
      obtain ⟨i1, i2, i3, i4⟩ := ih (fun x hx => hs x (by simp [hx])) (a.run s).2
      simp only [runAccesses]
      refine ⟨?_, i2.trans a2, Nat.le_trans a3 i3, ?_⟩
      · intro r hr
        rcases List.mem_cons.mp hr with h | h
        · rw [h]; exact a1
        · exact i1 r h
      · have := congrArg (List.take s.pos) i4
        simp only [List.take_take, Nat.min_eq_left a3] at this
        exact this.trans a5
  obtain ⟨k1, k2, k3, k4⟩ := key as hs s
  exact ⟨k1, k2, k4⟩

/-- **C16** Reading alone needs no assumption at all: whatever the bytes, whatever the types, no
read leaves the buffer and none changes it. -/
theorem C16_reads_memory_safe (ts : List Ty) (s : Stream) :
    ∀ r ∈ (runAccesses (ts.map .read) s).1, r ≠ .error .oob := by
  refine (C16_memory_safe_partial (ts.map .read) ?_ s).1
  intro a ha
  obtain ⟨t, _, rfl⟩ := List.mem_map.mp ha
  trivial

/-- **C16 (refuted in general)** A string of exactly 2^32 bytes written to a four byte buffer passes
the bounds check (its length is truncated to zero) and the copy leaves the buffer. -/
theorem C16_huge_string_refuted :
    ∃ (s : List Byte) (buf : List Byte), buf.length = 4 ∧
      (write .string s ⟨buf, 0⟩).1 = .error .oob := by
  refine ⟨List.replicate (2 ^ 32) 0, [0, 0, 0, 0], rfl, ?_⟩
  have hu : u32 (List.replicate (2 ^ 32) (0 : Byte)).length = 0 := by
    rw [List.length_replicate]; rfl
  simp only [write]
  rw [hu]
  have h1 := (writes_u32 0) [] [0, 0, 0, 0] [] rfl
  simp only [List.nil_append, List.append_nil, List.length_nil] at h1
  rw [bind_ok h1]
  rw [if_pos (by rw [List.length_replicate]; decide)]
  have h2 : advance 0 ⟨le32 0, 0 + (le32 0).length⟩ = (.ok 4, ⟨le32 0, 4⟩) := rfl
  rw [bind_ok h2]
  unfold store
  rw [if_neg]
  rw [List.length_replicate]
  simp only [le32_length]
  omega

/-- Whether reading a value of the type touches at least one byte. -/
def touches : Ty → Bool
  | .simple _ => true
  | .bool => true
  | .string => true
  | .vec _ => true
  | .arr (.simple _) _ => true
  | .arr t n => n ≠ 0 && touches t

theorem advance_past {n : Nat} {s : Stream} (h : s.buf.length < s.pos) :
    advance n s = (.error .overrun, ⟨s.buf, s.pos + n⟩) := by
  unfold advance; dsimp only; rw [if_pos (by omega)]

theorem fst_bind_err {α β : Type} {m : M α} {f : α → M β} {s : Stream} {e : Err}
    (h : (m s).1 = .error e) : ((m >>= f) s).1 = .error e := by
  rcases hm : m s with ⟨r, s'⟩
  rw [hm] at h
  dsimp only at h
  subst h
  rw [bind_err hm]

theorem readU32_past {s : Stream} (h : s.buf.length < s.pos) : (readU32 s).1 = .error .overrun := by
  unfold readU32
  rw [bind_err (advance_past h)]

/-- **C16** An overrun is sticky: once the stream has thrown, every later read of any type that
occupies bytes throws again instead of returning stale data. -/
theorem C16_overrun_sticky : (t : Ty) → touches t = true → ∀ s : Stream, s.buf.length < s.pos →
    (read t s).1 = .error .overrun
  | .simple n, _, s, h => by simp only [read]; rw [bind_err (advance_past h)]
  | .bool, _, s, h => by simp only [read]; rw [bind_err (advance_past h)]
  | .string, _, s, h => by simp only [read]; exact fst_bind_err (readU32_past h)
  | .vec t, _, s, h => by
    simp only [read]
    cases t <;> simp only [readVec] <;> exact fst_bind_err (readU32_past h)
  | .arr (.simple n) N, _, s, h => by
    simp only [read, readArr]
    apply fst_bind_err
    rw [bind_err (advance_past h)]
  | .arr .bool N, ht, s, h => by
    cases N with
    | zero => simp [touches] at ht
    | succ N =>
      simp only [read, readArr, readAll]
      apply fst_bind_err; apply fst_bind_err
      exact C16_overrun_sticky .bool rfl s h
  | .arr .string N, ht, s, h => by
    cases N with
    | zero => simp [touches] at ht
    | succ N =>
      rw [read]; apply fst_bind_err
      simp only [readArr, readAll]
      apply fst_bind_err
      exact C16_overrun_sticky .string rfl s h
  | .arr (.vec t) N, ht, s, h => by
    cases N with
    | zero => simp [touches] at ht
    | succ N =>
      rw [read]; apply fst_bind_err
      simp only [readArr, readAll]
      apply fst_bind_err
      exact C16_overrun_sticky (.vec t) rfl s h
  | .arr (.arr t n) N, ht, s, h => by
    cases N with
    | zero => simp [touches] at ht
    | succ N =>
      rw [read]; apply fst_bind_err
      simp only [readArr, readAll]
      apply fst_bind_err
      refine C16_overrun_sticky (.arr t n) ?_ s h
      simp only [touches, Bool.and_eq_true] at ht
      exact ht.2

/-! ## The hypotheses are met by concrete data -/

/-- A vector of two strings, an array of two 16-bit values and a bool. -/
def exVals : List AnyVal :=
  [⟨.vec .string, [[104, 105], []]⟩,
   ⟨.arr (.simple 2) 2, ⟨[⟨[1, 2], rfl⟩, ⟨[3, 4], rfl⟩], rfl⟩⟩,
   ⟨.bool, true⟩]

example : ∀ x ∈ exVals, Fits x.1 x.2 := by
  intro x hx
  simp only [exVals, List.mem_cons, List.not_mem_nil, or_false] at hx
  rcases hx with rfl | rfl | rfl
  · refine ⟨by decide, by decide, ?_⟩
    intro y hy
    simp only [List.mem_cons, List.not_mem_nil, or_false] at hy
    rcases hy with rfl | rfl
    · show List.length _ < 2 ^ 32; decide
    · show List.length _ < 2 ^ 32; decide
  · exact ⟨by decide, fun _ _ => trivial⟩
  · trivial

example : seqSize exVals = 19 := rfl

/-- Reading malicious bytes: a vector of strings announcing 4 billion strings throws. -/
example : (read (.vec (.simple 8)) ⟨[255, 255, 255, 255, 7], 0⟩).1 = .error .overrun := rfl

example : touches (.arr (.vec .string) 3) = true := rfl

end Ubitrack.Ros
