import Verif.Model.RosBinary

/-! # Proof machinery for the ROS style binary format -/

namespace Ubitrack.Ros

theorem bind_apply {α β : Type} (m : M α) (f : α → M β) (s : Stream) :
    (m >>= f) s = (match m s with
      | (.ok a, s') => f a s'
      | (.error e, s') => (.error e, s')) := rfl

theorem bind_ok {α β : Type} {m : M α} {f : α → M β} {s s' : Stream} {a : α}
    (h : m s = (.ok a, s')) : (m >>= f) s = f a s' := by
  rw [bind_apply, h]

theorem bind_err {α β : Type} {m : M α} {f : α → M β} {s s' : Stream} {e : Err}
    (h : m s = (.error e, s')) : (m >>= f) s = (.error e, s') := by
  rw [bind_apply, h]

theorem pure_apply {α : Type} (a : α) (s : Stream) : (M.pure a) s = (.ok a, s) := rfl

/-! ## Writing -/

/-- `m` writes exactly `bs` at the current position and moves there. -/
def Writes (m : M Unit) (bs : List Byte) : Prop :=
  ∀ pre old post : List Byte, old.length = bs.length →
    m ⟨pre ++ old ++ post, pre.length⟩ = (.ok (), ⟨pre ++ bs ++ post, pre.length + bs.length⟩)

/-- `m` throws when fewer than `n` bytes are left. -/
def Overruns (m : M Unit) (n : Nat) : Prop :=
  ∀ (buf : List Byte) (pos : Nat), pos ≤ buf.length → buf.length < pos + n →
    (m ⟨buf, pos⟩).1 = .error .overrun

theorem writes_pure : Writes (M.pure ()) [] := by
  intro pre old post h
  simp at h
  subst h
  simp [M.pure]

theorem writes_bind {m : M Unit} {f : Unit → M Unit} {a b : List Byte} (h1 : Writes m a)
    (h2 : Writes (f ()) b) : Writes (m >>= f) (a ++ b) := by
  intro pre old post h
  simp only [List.length_append] at h
  have e : old = old.take a.length ++ old.drop a.length := by simp
  have e1 := h1 pre (old.take a.length) (old.drop a.length ++ post) (by simp; omega)
  have e2 := h2 (pre ++ a) (old.drop a.length) post (by simp; omega)
  have hb : pre ++ old ++ post = pre ++ old.take a.length ++ (old.drop a.length ++ post) := by
    calc pre ++ old ++ post
        = pre ++ (old.take a.length ++ old.drop a.length) ++ post := by rw [← e]
      _ = _ := by simp only [List.append_assoc]
  rw [hb, bind_ok e1]
  have hb2 : pre ++ a ++ (old.drop a.length ++ post) = pre ++ a ++ old.drop a.length ++ post := by
    simp only [List.append_assoc]
  rw [hb2]
  simp only [List.length_append] at e2
  rw [e2]
  simp [Nat.add_assoc]

theorem split_buf (buf : List Byte) (pos n : Nat) (h : pos + n ≤ buf.length) :
    ∃ pre old post, buf = pre ++ old ++ post ∧ pre.length = pos ∧ old.length = n := by
  refine ⟨buf.take pos, (buf.drop pos).take n, buf.drop (pos + n), ?_, by simp; omega, by simp; omega⟩
  rw [← List.drop_drop, List.append_assoc, List.take_append_drop, List.take_append_drop]

theorem overruns_bind {m : M Unit} {f : Unit → M Unit} {a : List Byte} {n : Nat} (h1 : Writes m a)
    (o1 : Overruns m a.length) (o2 : Overruns (f ()) n) : Overruns (m >>= f) (a.length + n) := by
  intro buf pos hp hlt
  by_cases hfit : pos + a.length ≤ buf.length
  · obtain ⟨pre, old, post, rfl, rfl, hl⟩ := split_buf buf pos a.length hfit
    rw [bind_ok (h1 pre old post hl)]
    apply o2 <;> simp at * <;> omega
  · have := o1 buf pos hp (by omega)
    rcases hm : m ⟨buf, pos⟩ with ⟨r, s'⟩
    rw [hm] at this
    dsimp only at this
    subst this
    rw [bind_err hm]

theorem writes_store (bs : List Byte) (n : Nat) (hn : n = bs.length) :
    Writes (advance n >>= fun off => store off bs) bs := by
  subst hn
  intro pre old post h
  have ha : advance bs.length ⟨pre ++ old ++ post, pre.length⟩ =
      (.ok pre.length, ⟨pre ++ old ++ post, pre.length + bs.length⟩) := by
    unfold advance
    simp only [List.length_append]
    rw [if_neg (by omega)]
  rw [bind_ok ha]
  unfold store
  simp only [List.length_append]
  rw [if_pos (by omega)]
  have e1 : (pre ++ old ++ post).take pre.length = pre := by simp [List.append_assoc]
  have e2 : (pre ++ old ++ post).drop (pre.length + bs.length) = post := by
    rw [← h, ← List.length_append, List.drop_left]
  rw [e1, e2]

theorem overruns_store (bs : List Byte) (n : Nat) (hn : n = bs.length) :
    Overruns (advance n >>= fun off => store off bs) bs.length := by
  subst hn
  intro buf pos hp hlt
  have ha : advance bs.length ⟨buf, pos⟩ = (.error .overrun, ⟨buf, pos + bs.length⟩) := by
    unfold advance
    dsimp only
    rw [if_pos (by omega)]
  rw [bind_err ha]

theorem le32_length (n : Nat) : (le32 n).length = 4 := rfl

theorem fromLe_le32 (n : Nat) (h : n < 2 ^ 32) : fromLe (le32 n) = n := by
  simp only [le32, fromLe, BitVec.toNat_ofNat]
  omega

theorem u32_of_lt {n : Nat} (h : n < 2 ^ 32) : u32 n = n := Nat.mod_eq_of_lt h

theorem u32_lt (n : Nat) : u32 n < 2 ^ 32 := Nat.mod_lt _ (by decide)

theorem writes_u32 (n : Nat) : Writes (writeU32 n) (le32 n) := writes_store (le32 n) 4 rfl

theorem overruns_u32 (n : Nat) : Overruns (writeU32 n) (le32 n).length :=
  overruns_store (le32 n) 4 rfl

theorem writes_all {α : Type} (w : α → M Unit) (enc : α → List Byte) (l : List α)
    (h : ∀ x ∈ l, Writes (w x) (enc x)) : Writes (writeAll w l) (l.flatMap enc) := by
  induction l with
  | nil => exact writes_pure
  | cons a as ih =>
    rw [List.flatMap_cons]
    exact writes_bind (h a (by simp)) (ih (fun x hx => h x (by simp [hx])))

theorem overruns_all {α : Type} (w : α → M Unit) (enc : α → List Byte) (l : List α)
    (h : ∀ x ∈ l, Writes (w x) (enc x)) (o : ∀ x ∈ l, Overruns (w x) (enc x).length) :
    Overruns (writeAll w l) (l.flatMap enc).length := by
  induction l with
  | nil => intro buf pos hp hlt; simp at hlt; omega
  | cons a as ih =>
    rw [List.flatMap_cons, List.length_append]
    exact overruns_bind (h a (by simp)) (o a (by simp))
      (ih (fun x hx => h x (by simp [hx])) (fun x hx => o x (by simp [hx])))

/-- The encoding of a value. -/
def enc : (t : Ty) → Val t → List Byte
  | .simple _, v => v.1
  | .bool, (b : Bool) => [if b then 1 else 0]
  | .string, (s : List Byte) => le32 s.length ++ s
  | .vec t, (v : List (Val t)) => le32 v.length ++ v.flatMap (enc t)
  | .arr t _, v => v.1.flatMap (enc t)

theorem flatMap_length {α : Type} (f : α → List Byte) (g : α → Nat) (l : List α)
    (h : ∀ x ∈ l, (f x).length = g x) : (l.flatMap f).length = (l.map g).sum := by
  induction l with
  | nil => rfl
  | cons a as ih =>
    simp [List.flatMap_cons, h a (by simp), ih (fun x hx => h x (by simp [hx]))]

theorem enc_length : (t : Ty) → (v : Val t) → (enc t v).length = wireSize t v
  | .simple n, v => v.2
  | .bool, _ => rfl
  | .string, s => by simp [enc, wireSize, le32_length]
  | .vec t, v => by
    simp only [enc, wireSize, List.length_append, le32_length]
    rw [flatMap_length (enc t) (wireSize t) v (fun x _ => enc_length t x)]
  | .arr t _, v => by
    simp only [enc, wireSize]
    rw [flatMap_length (enc t) (wireSize t) v.1 (fun x _ => enc_length t x)]

theorem sum_const {n : Nat} (l : List (Val (.simple n))) :
    (l.map (wireSize (.simple n))).sum = l.length * n := by
  induction l with
  | nil => simp
  | cons a as ih =>
    rw [List.map_cons, List.sum_cons, ih, List.length_cons, Nat.add_mul, Nat.one_mul, Nat.add_comm]
    rfl

theorem flat_eq {n : Nat} (l : List (Val (.simple n))) : flat l = l.flatMap (enc (.simple n)) := rfl

theorem flat_length {n : Nat} (l : List (Val (.simple n))) : (flat l).length = l.length * n := by
  rw [flat_eq, flatMap_length (enc (.simple n)) (wireSize (.simple n)) l
    (fun x _ => enc_length _ x), sum_const]

/-- Both facts about writers, together. -/
def Good (m : M Unit) (bs : List Byte) : Prop := Writes m bs ∧ Overruns m bs.length

theorem good_bind {m : M Unit} {f : Unit → M Unit} {a b : List Byte} (h1 : Good m a)
    (h2 : Good (f ()) b) : Good (m >>= f) (a ++ b) :=
  ⟨writes_bind h1.1 h2.1, by rw [List.length_append]; exact overruns_bind h1.1 h1.2 h2.2⟩

theorem good_pure : Good (M.pure ()) [] :=
  ⟨writes_pure, by intro buf pos hp hlt; simp at hlt; omega⟩

theorem good_store (bs : List Byte) (n : Nat) (hn : n = bs.length) :
    Good (advance n >>= fun off => store off bs) bs :=
  ⟨writes_store bs n hn, overruns_store bs n hn⟩

theorem good_u32 (n : Nat) : Good (writeU32 n) (le32 n) := ⟨writes_u32 n, overruns_u32 n⟩

theorem good_all {α : Type} (w : α → M Unit) (e : α → List Byte) (l : List α)
    (h : ∀ x ∈ l, Good (w x) (e x)) : Good (writeAll w l) (l.flatMap e) :=
  ⟨writes_all w e l (fun x hx => (h x hx).1),
   overruns_all w e l (fun x hx => (h x hx).1) (fun x hx => (h x hx).2)⟩

theorem good_vec (t : Ty) (w : Val t → M Unit) (v : List (Val t)) (hlen : v.length < 2 ^ 32)
    (hsum : (v.map (wireSize t)).sum < 2 ^ 32) (h : ∀ x ∈ v, Good (w x) (enc t x)) :
    Good (writeVec t w v) (le32 v.length ++ v.flatMap (enc t)) := by
  cases t with
  | simple n =>
    rw [sum_const] at hsum
    simp only [writeVec, u32_of_lt hlen, u32_of_lt hsum]
    apply good_bind (good_u32 _)
    cases hv : v with
    | nil => exact good_pure
    | cons a as =>
      rw [← hv]
      have hne : v.isEmpty = false := by rw [hv]; rfl
      simp only [hne, Bool.false_eq_true, if_false]
      have : (flat v).take (v.length * n) = v.flatMap (enc (.simple n)) := by
        rw [← flat_length v, List.take_length]; rfl
      rw [this]
      apply good_store
      rw [← flat_eq, flat_length]
  | bool => simp only [writeVec, u32_of_lt hlen]; exact good_bind (good_u32 _) (good_all _ _ _ h)
  | string => simp only [writeVec, u32_of_lt hlen]; exact good_bind (good_u32 _) (good_all _ _ _ h)
  | vec t => simp only [writeVec, u32_of_lt hlen]; exact good_bind (good_u32 _) (good_all _ _ _ h)
  | arr t n => simp only [writeVec, u32_of_lt hlen]; exact good_bind (good_u32 _) (good_all _ _ _ h)

theorem good_arr (t : Ty) (w : Val t → M Unit) (v : List (Val t))
    (hsum : (v.map (wireSize t)).sum < 2 ^ 32) (h : ∀ x ∈ v, Good (w x) (enc t x)) :
    Good (writeArr t w v) (v.flatMap (enc t)) := by
  cases t with
  | simple n =>
    rw [sum_const] at hsum
    simp only [writeArr, u32_of_lt hsum]
    have : (flat v).take (v.length * n) = v.flatMap (enc (.simple n)) := by
      rw [← flat_length v, List.take_length]; rfl
    rw [this]
    apply good_store
    rw [← flat_eq, flat_length]
  | bool => exact good_all _ _ _ h
  | string => exact good_all _ _ _ h
  | vec t => exact good_all _ _ _ h
  | arr t n => exact good_all _ _ _ h

theorem good_write : (t : Ty) → (v : Val t) → Fits t v → Good (write t v) (enc t v)
  | .simple n, v, _ => good_store v.1 n v.2.symm
  | .bool, (b : Bool), _ => good_store [if b then 1 else 0] 1 rfl
  | .string, s, h => by
    have h : List.length s < 2 ^ 32 := h
    simp only [write, enc, u32_of_lt h]
    apply good_bind (good_u32 _)
    by_cases h0 : List.length s > 0
    · simp only [h0, if_true]; exact good_store s _ rfl
    · have : s = [] := List.eq_nil_of_length_eq_zero (by omega)
      subst this
      exact good_pure
  | .vec t, v, h => good_vec t (write t) v h.1 h.2.1 (fun x hx => good_write t x (h.2.2 x hx))
  | .arr t _, v, h => good_arr t (write t) v.1 h.1 (fun x hx => good_write t x (h.2 x hx))

/-! ## Reading -/

/-- `m` consumes exactly `bs` and returns `a`. -/
def Reads {α : Type} (m : M α) (bs : List Byte) (a : α) : Prop :=
  ∀ pre post : List Byte, m ⟨pre ++ bs ++ post, pre.length⟩ =
    (.ok a, ⟨pre ++ bs ++ post, pre.length + bs.length⟩)

theorem reads_pure {α : Type} (a : α) : Reads (M.pure a) [] a := by
  intro pre post; simp [M.pure]

theorem reads_bind {α β : Type} {m : M α} {f : α → M β} {x y : List Byte} {a : α} {b : β}
    (h1 : Reads m x a) (h2 : Reads (f a) y b) : Reads (m >>= f) (x ++ y) b := by
  intro pre post
  have e1 := h1 pre (y ++ post)
  have e2 := h2 (pre ++ x) post
  have hb : pre ++ (x ++ y) ++ post = pre ++ x ++ (y ++ post) := by simp only [List.append_assoc]
  have hb' : pre ++ x ++ (y ++ post) = pre ++ x ++ y ++ post := by simp only [List.append_assoc]
  rw [hb, bind_ok e1, hb']
  simp only [List.length_append] at e2
  rw [e2]
  simp [Nat.add_assoc]

theorem reads_bind_nil {α β : Type} {m : M α} {f : α → M β} {x : List Byte} {a : α} {b : β}
    (h1 : Reads m x a) (h2 : Reads (f a) [] b) : Reads (m >>= f) x b := by
  have := reads_bind h1 h2
  simpa using this

/-- `advance` followed by a load of the same number of bytes. -/
theorem reads_load {β : Type} (bs : List Byte) (n : Nat) (hn : n = bs.length)
    (f : List Byte → M β) (b : β) (h : Reads (f bs) [] b) :
    Reads (advance n >>= fun off => load off n >>= f) bs b := by
  subst hn
  intro pre post
  have ha : advance bs.length ⟨pre ++ bs ++ post, pre.length⟩ =
      (.ok pre.length, ⟨pre ++ bs ++ post, pre.length + bs.length⟩) := by
    unfold advance
    simp only [List.length_append]
    rw [if_neg (by omega)]
  have hl : load pre.length bs.length ⟨pre ++ bs ++ post, pre.length + bs.length⟩ =
      (.ok bs, ⟨pre ++ bs ++ post, pre.length + bs.length⟩) := by
    unfold load
    simp only [List.length_append]
    rw [if_pos (by omega)]
    have : ((pre ++ bs ++ post).drop pre.length).take bs.length = bs := by
      rw [List.append_assoc, List.drop_left, List.take_left]
    rw [this]
  rw [bind_ok ha, bind_ok hl]
  have := h (pre ++ bs) post
  simpa using this

theorem reads_u32 (n : Nat) (h : n < 2 ^ 32) : Reads readU32 (le32 n) n := by
  unfold readU32
  apply reads_load (le32 n) 4 rfl
  rw [fromLe_le32 n h]
  exact reads_pure n

theorem reads_all {α : Type} (r : M α) (e : α → List Byte) (l : List α)
    (h : ∀ x ∈ l, Reads r (e x) x) : Reads (readAll r l.length) (l.flatMap e) l := by
  induction l with
  | nil => exact reads_pure []
  | cons a as ih =>
    rw [List.flatMap_cons]
    simp only [List.length_cons, readAll]
    apply reads_bind (h a (by simp))
    apply reads_bind_nil (ih (fun x hx => h x (by simp [hx])))
    exact reads_pure _

theorem elements_flat {n : Nat} (l : List (Val (.simple n))) : elements n l.length (flat l) = l := by
  induction l with
  | nil => rfl
  | cons a as ih =>
    have hf : flat (a :: as) = a.1 ++ flat as := rfl
    have hl : a.1.length = n := a.2
    simp only [List.length_cons, elements]
    rw [hf]
    congr 1
    · apply Subtype.ext
      simp only
      rw [List.append_assoc, List.take_append_of_le_length (by omega), List.take_of_length_le (by omega)]
    · rw [List.drop_append_of_le_length (by omega), List.drop_of_length_le (by omega), List.nil_append]
      exact ih

theorem reads_vec (t : Ty) (r : M (Val t)) (v : List (Val t)) (hlen : v.length < 2 ^ 32)
    (hsum : (v.map (wireSize t)).sum < 2 ^ 32) (h : ∀ x ∈ v, Reads r (enc t x) x) :
    Reads (readVec t r) (le32 v.length ++ v.flatMap (enc t)) v := by
  cases t with
  | simple n =>
    rw [sum_const] at hsum
    simp only [readVec]
    apply reads_bind (reads_u32 _ hlen)
    by_cases h0 : v.length > 0
    · have hm : n * v.length = v.length * n := Nat.mul_comm _ _
      simp only [h0, if_true, hm, u32_of_lt hsum]
      apply reads_load
      · rw [← flat_eq, flat_length]
      · simp only [Nat.le_refl, if_true]
        rw [← flat_eq, elements_flat]
        exact reads_pure v
    · have : v = [] := List.eq_nil_of_length_eq_zero (by omega)
      subst this
      exact reads_pure _
  | bool => simp only [readVec]; exact reads_bind (reads_u32 _ hlen) (reads_all _ _ _ h)
  | string => simp only [readVec]; exact reads_bind (reads_u32 _ hlen) (reads_all _ _ _ h)
  | vec t => simp only [readVec]; exact reads_bind (reads_u32 _ hlen) (reads_all _ _ _ h)
  | arr t n => simp only [readVec]; exact reads_bind (reads_u32 _ hlen) (reads_all _ _ _ h)

theorem reads_arr (t : Ty) (r : M (Val t)) (v : List (Val t))
    (hsum : (v.map (wireSize t)).sum < 2 ^ 32) (h : ∀ x ∈ v, Reads r (enc t x) x) :
    Reads (readArr t r v.length) (v.flatMap (enc t)) v := by
  cases t with
  | simple n =>
    rw [sum_const] at hsum
    simp only [readArr, u32_of_lt hsum]
    apply reads_load
    · rw [← flat_eq, flat_length]
    · rw [← flat_eq, elements_flat]
      exact reads_pure v
  | bool => exact reads_all _ _ _ h
  | string => exact reads_all _ _ _ h
  | vec t => exact reads_all _ _ _ h
  | arr t n => exact reads_all _ _ _ h

theorem reads_read : (t : Ty) → (v : Val t) → Fits t v → Reads (read t) (enc t v) v
  | .simple n, v, _ => by
    simp only [read, enc]
    apply reads_load v.1 n v.2.symm
    intro pre post
    unfold toPlain
    rw [dif_pos v.2]
    rfl
  | .bool, (b : Bool), _ => by
    simp only [read, enc]
    apply reads_load _ 1 rfl
    cases b
    · exact reads_pure (α := Bool) false
    · exact reads_pure (α := Bool) true
  | .string, s, h => by
    have h : List.length s < 2 ^ 32 := h
    simp only [read, enc]
    apply reads_bind (reads_u32 _ h)
    by_cases h0 : List.length s > 0
    · simp only [h0, if_true]
      have := reads_load (β := List Byte) s (List.length s) rfl M.pure s (reads_pure (α := List Byte) s)
      intro pre post
      have := this pre post
      have hb : ∀ off n, (load off n >>= M.pure : M (List Byte)) = load off n := by
        intro off n
        funext st
        rw [bind_apply]
        rcases load off n st with ⟨r, s'⟩
        cases r <;> rfl
      simp only [hb] at this
      exact this
    · have : s = [] := List.eq_nil_of_length_eq_zero (by omega)
      subst this
      exact reads_pure (α := List Byte) []
  | .vec t, v, h => reads_vec t (read t) v h.1 h.2.1 (fun x hx => reads_read t x (h.2.2 x hx))
  | .arr t N, v, h => by
    simp only [read, enc]
    have := reads_arr t (read t) v.1 h.1 (fun x hx => reads_read t x (h.2 x hx))
    rw [v.2] at this
    apply reads_bind_nil this
    intro pre post
    unfold toArr
    rw [dif_pos v.2]
    rfl

/-! ## Memory safety -/

/-- `m` never touches memory outside the buffer, leaves the buffer size alone, and only moves
forward; its result satisfies `P`. -/
def Safe {α : Type} (m : M α) (P : α → Prop) : Prop :=
  ∀ s : Stream, (m s).1 ≠ .error .oob ∧ (m s).2.buf.length = s.buf.length ∧
    s.pos ≤ (m s).2.pos ∧ (∀ a, (m s).1 = .ok a → P a) ∧
    (m s).2.buf.take s.pos = s.buf.take s.pos

theorem safe_mono {α : Type} {m : M α} {P Q : α → Prop} (h : Safe m P) (hpq : ∀ a, P a → Q a) :
    Safe m Q :=
  fun s => ⟨(h s).1, (h s).2.1, (h s).2.2.1, fun a ha => hpq a ((h s).2.2.2.1 a ha), (h s).2.2.2.2⟩

theorem safe_pure {α : Type} (a : α) (P : α → Prop) (h : P a) : Safe (M.pure a) P := by
  intro s
  simp only [M.pure]
  refine ⟨by simp, trivial, Nat.le_refl _, ?_, trivial⟩
  intro b hb
  cases hb
  exact h

theorem safe_bind {α β : Type} {m : M α} {f : α → M β} {P : α → Prop} {Q : β → Prop}
    (h1 : Safe m P) (h2 : ∀ a, P a → Safe (f a) Q) : Safe (m >>= f) Q := by
  intro s
  obtain ⟨a1, a2, a3, a4, a5⟩ := h1 s
  rw [bind_apply]
  rcases hm : m s with ⟨r, s'⟩
  rw [hm] at a1 a2 a3 a4 a5
  cases r with
  | error e =>
    refine ⟨?_, a2, a3, ?_, a5⟩
    · intro h; cases h; exact a1 rfl
    · intro b hb; cases hb
  | ok a =>
    obtain ⟨b1, b2, b3, b4, b5⟩ := h2 a (a4 a rfl) s'
    refine ⟨b1, b2.trans a2, Nat.le_trans a3 b3, b4, ?_⟩
    have := congrArg (List.take s.pos) b5
    simp only [List.take_take, Nat.min_eq_left a3] at this
    exact this.trans a5

/-- `advance n` followed by a store of at most `n` bytes. -/
theorem safe_store (n : Nat) (bs : List Byte) (h : bs.length ≤ n) :
    Safe (advance n >>= fun off => store off bs) (fun _ => True) := by
  intro s
  rw [bind_apply]
  unfold advance
  dsimp only
  by_cases hc : s.pos + n > s.buf.length
  · rw [if_pos hc]
    refine ⟨by simp, rfl, by simp, by simp, rfl⟩
  · rw [if_neg hc]
    dsimp only
    unfold store
    dsimp only
    rw [if_pos (by omega)]
    refine ⟨by simp, ?_, by simp, by simp, ?_⟩
    · simp; omega
    · dsimp only
      rw [List.append_assoc, List.take_append_of_le_length (by rw [List.length_take]; omega), List.take_take, Nat.min_self]

theorem safe_load {β : Type} (n : Nat) (f : List Byte → M β) (Q : β → Prop)
    (h : ∀ bs : List Byte, bs.length = n → Safe (f bs) Q) :
    Safe (advance n >>= fun off => load off n >>= f) Q := by
  intro s
  rw [bind_apply]
  unfold advance
  dsimp only
  by_cases hc : s.pos + n > s.buf.length
  · rw [if_pos hc]
    refine ⟨by simp, rfl, by simp, by simp, rfl⟩
  · rw [if_neg hc]
    dsimp only
    rw [bind_apply]
    unfold load
    dsimp only
    rw [if_pos (by omega)]
    dsimp only
    have hlen : ((s.buf.drop s.pos).take n).length = n := by simp; omega
    obtain ⟨b1, b2, b3, b4, b5⟩ := h _ hlen ⟨s.buf, s.pos + n⟩
    dsimp only at b2 b3 b5
    refine ⟨b1, b2, by omega, b4, ?_⟩
    have := congrArg (List.take s.pos) b5
    simp only [List.take_take, Nat.min_eq_left (Nat.le_add_right s.pos n)] at this
    exact this

theorem safe_writeU32 (n : Nat) : Safe (writeU32 n) (fun _ => True) :=
  safe_store 4 (le32 n) (Nat.le_refl _)

theorem fromLe_lt (bs : List Byte) : fromLe bs < 2 ^ (8 * bs.length) := by
  induction bs with
  | nil => simp [fromLe]
  | cons b bs ih =>
    simp only [fromLe, List.length_cons, Nat.mul_add, Nat.mul_one, Nat.pow_add]
    have := b.isLt
    omega

theorem safe_readU32 : Safe readU32 (fun n => n < 2 ^ 32) := by
  apply safe_load
  intro bs hbs
  apply safe_pure
  have := fromLe_lt bs
  rw [hbs] at this
  exact this

theorem safe_writeAll {α : Type} (w : α → M Unit) (l : List α)
    (h : ∀ x ∈ l, Safe (w x) (fun _ => True)) : Safe (writeAll w l) (fun _ => True) := by
  induction l with
  | nil => exact safe_pure _ _ trivial
  | cons a as ih =>
    exact safe_bind (h a (by simp)) (fun _ _ => ih (fun x hx => h x (by simp [hx])))

theorem safe_readAll {α : Type} (r : M α) (P : α → Prop) (h : Safe r P) (n : Nat) :
    Safe (readAll r n) (fun l => l.length = n) := by
  induction n with
  | zero => exact safe_pure _ _ rfl
  | succ n ih =>
    apply safe_bind h
    intro a _
    apply safe_bind ih
    intro l hl
    exact safe_pure _ _ (by simp [hl])

theorem safe_writeVec (t : Ty) (w : Val t → M Unit) (v : List (Val t))
    (h : ∀ x ∈ v, Safe (w x) (fun _ => True)) : Safe (writeVec t w v) (fun _ => True) := by
  cases t with
  | simple n =>
    simp only [writeVec]
    apply safe_bind (safe_writeU32 _)
    intro _ _
    split
    · exact safe_pure _ _ trivial
    · apply safe_store
      simp only [List.length_take]
      exact Nat.min_le_left _ _
  | bool => exact safe_bind (safe_writeU32 _) (fun _ _ => safe_writeAll w v h)
  | string => exact safe_bind (safe_writeU32 _) (fun _ _ => safe_writeAll w v h)
  | vec t => exact safe_bind (safe_writeU32 _) (fun _ _ => safe_writeAll w v h)
  | arr t n => exact safe_bind (safe_writeU32 _) (fun _ _ => safe_writeAll w v h)

theorem safe_writeArr (t : Ty) (w : Val t → M Unit) (v : List (Val t))
    (h : ∀ x ∈ v, Safe (w x) (fun _ => True)) : Safe (writeArr t w v) (fun _ => True) := by
  cases t with
  | simple n =>
    simp only [writeArr]
    apply safe_store
    simp only [List.length_take]
    exact Nat.min_le_left _ _
  | bool => exact safe_writeAll w v h
  | string => exact safe_writeAll w v h
  | vec t => exact safe_writeAll w v h
  | arr t n => exact safe_writeAll w v h

theorem safe_write : (t : Ty) → (v : Val t) → SmallStrings t v → Safe (write t v) (fun _ => True)
  | .simple n, v, _ => safe_store n v.1 (Nat.le_of_eq v.2)
  | .bool, b, _ => safe_store 1 _ (Nat.le_refl _)
  | .string, s, h => by
    have h : List.length s < 2 ^ 32 := h
    simp only [write]
    apply safe_bind (safe_writeU32 _)
    intro _ _
    split
    · rw [u32_of_lt h]
      exact safe_store _ s (Nat.le_refl _)
    · exact safe_pure _ _ trivial
  | .vec t, v, h => safe_writeVec t (write t) v (fun x hx => safe_write t x (h x hx))
  | .arr t _, v, h => safe_writeArr t (write t) v.1 (fun x hx => safe_write t x (h x hx))

theorem safe_readVec (t : Ty) (r : M (Val t)) (h : Safe r (fun _ => True)) :
    Safe (readVec t r) (fun _ => True) := by
  have gen : Safe (readU32 >>= fun len => readAll r len) (fun _ => True) := by
    apply safe_bind safe_readU32
    intro n _
    exact safe_mono (safe_readAll r _ h n) (fun _ _ => trivial)
  cases t with
  | simple n =>
    simp only [readVec]
    apply safe_bind safe_readU32
    intro len _
    split
    · apply safe_load
      intro bs _
      have : u32 (n * len) ≤ len * n := by
        rw [Nat.mul_comm len n]; exact Nat.mod_le _ _
      rw [if_pos this]
      exact safe_pure _ _ trivial
    · exact safe_pure _ _ trivial
  | bool => exact gen
  | string => exact gen
  | vec t => exact gen
  | arr t n => exact gen

theorem safe_readArr (t : Ty) (r : M (Val t)) (h : Safe r (fun _ => True)) (N : Nat) :
    Safe (readArr t r N) (fun l => l.length = N) := by
  cases t with
  | simple n =>
    simp only [readArr]
    apply safe_load
    intro bs _
    exact safe_pure _ _ (elements_length n N bs)
  | bool => exact safe_readAll r _ h N
  | string => exact safe_readAll r _ h N
  | vec t => exact safe_readAll r _ h N
  | arr t n => exact safe_readAll r _ h N

theorem safe_read : (t : Ty) → Safe (read t) (fun _ => True)
  | .simple n => by
    simp only [read]
    apply safe_load
    intro bs hbs s
    unfold toPlain
    rw [dif_pos hbs]
    exact ⟨by simp, rfl, Nat.le_refl _, fun _ _ => trivial, rfl⟩
  | .bool => by
    simp only [read]
    apply safe_load
    intro bs hbs
    exact safe_pure _ _ trivial
  | .string => by
    simp only [read]
    apply safe_bind safe_readU32
    intro len _
    split
    · have := safe_load (β := List Byte) len M.pure (fun _ => True)
        (fun bs _ => safe_pure _ _ trivial)
      have hb : ∀ off n, (load off n >>= M.pure : M (List Byte)) = load off n := by
        intro off n
        funext st
        rw [bind_apply]
        rcases load off n st with ⟨r, s'⟩
        cases r <;> rfl
      simp only [hb] at this
      exact this
    · exact safe_pure (α := List Byte) _ _ trivial
  | .vec t => safe_readVec t (read t) (safe_read t)
  | .arr t N => by
    simp only [read]
    apply safe_bind (safe_readArr t (read t) (safe_read t) N)
    intro l hl s
    unfold toArr
    rw [dif_pos hl]
    exact ⟨by simp, rfl, Nat.le_refl _, fun _ _ => trivial, rfl⟩

end Ubitrack.Ros
