import Verif.Spec.XmlEdit
import Mathlib.Tactic.Tauto
import Mathlib.Order.WellFounded

/-!
# C100: editing XML trees in memory
-/

namespace Ubitrack.Props.XmlEdit

open Ubitrack.XmlEdit Spec.Dom

/-! ## Pointers -/

/-- `assign` where the node exists. -/
def upd (h : Heap) (a : ℕ) (f : Node → Node) : Heap := fun x => if x = a then (h x).map f else h x

lemma assign_eq {h : Heap} {a : ℕ} {n : Node} (ha : h a = some n) (f : Node → Node) : assign h a f = some (upd h a f) := by
  unfold assign upd
  rw [ha]
  simp only [Option.some.injEq]
  funext x
  by_cases hx : x = a
  · subst hx; simp [ha]
  · simp [hx]

lemma upd_same {h : Heap} {a : ℕ} {n : Node} (ha : h a = some n) (f : Node → Node) : upd h a f a = some (f n) := by
  simp [upd, ha]

lemma upd_ne {h : Heap} {a x : ℕ} (f : Node → Node) (hx : x ≠ a) : upd h a f x = h x := by
  simp [upd, hx]

/-- The children of `this`, `l ++ old ++ r`, become `l ++ mid ++ r`, where `mid` is at most one node. -/
def relink (h : Heap) (this : ℕ) (l mid r : List ℕ) : Heap := fun x =>
  if x = this then (h x).map fun n => { n with firstChild := (l ++ mid ++ r).head?, lastChild := (l ++ mid ++ r).getLast? }
  else if x ∈ mid then (h x).map fun n => { n with parent := some this, prev := l.getLast?, next := r.head? }
  else if l.getLast? = some x then (h x).map fun n => { n with next := (mid ++ r).head? }
  else if r.head? = some x then (h x).map fun n => { n with prev := (l ++ mid).getLast? }
  else h x

lemma alive_of {h : Heap} {p : ℕ} {cs : List ℕ} (hc : Children h p cs) {c : ℕ} (hm : c ∈ cs) :
    ∃ n, h c = some n ∧ n.parent = some p := by
  obtain ⟨l, r, rfl⟩ := List.append_of_mem hm
  obtain ⟨n, h1, h2, -⟩ := hc.2.2 l c r rfl
  exact ⟨n, h1, h2⟩

lemma linkEnd_eq {h : Heap} {this node : ℕ} {cs : List ℕ} {nd : Node} (hc : Children h this cs) (hn : h node = some nd) (h1 : node ∉ cs) (h2 : node ≠ this) (h3 : this ∉ cs) :
    linkEnd h this node = some (relink h this cs [node] []) := by
  obtain ⟨t, ht, hf, hl⟩ := hc.1
  unfold linkEnd
  rw [assign_eq hn]
  simp only [Option.bind_some]
  rw [upd_ne _ h2.symm, ht]
  simp only [Option.bind_some]
  rw [assign_eq (upd_same hn _)]
  simp only [Option.bind_some]
  rcases List.eq_nil_or_concat cs with rfl | ⟨l, c, rfl⟩
  · simp only [List.getLast?_nil] at hl
    rw [hl]
    simp only
    rw [assign_eq (n := t) (by rw [upd_ne _ h2.symm, upd_ne _ h2.symm, ht])]
    simp only [Option.bind_some]
    rw [assign_eq (upd_same (n := t) (by rw [upd_ne _ h2.symm, upd_ne _ h2.symm, ht]) _)]
    congr 1
    funext x
    unfold relink
    by_cases hx : x = this
    · subst hx
      simp [upd, h2.symm, ht]
    · by_cases hx' : x = node
      · subst hx'
        simp [upd, hx, hn]
      · simp [upd, hx, hx']
  · simp only [List.getLast?_append, List.getLast?_singleton, List.concat_eq_append, Option.some_or] at hl
    rw [hl]
    simp only
    simp only [List.concat_eq_append, List.mem_append, List.mem_singleton, not_or] at h1 h3 hc
    obtain ⟨cn, hcn, -⟩ := alive_of hc (c := c) (by simp)
    rw [assign_eq (n := cn) (by rw [upd_ne _ (Ne.symm h1.2), upd_ne _ (Ne.symm h1.2), hcn])]
    simp only [Option.bind_some]
    rw [assign_eq (n := t) (by rw [upd_ne _ h3.2, upd_ne _ h2.symm, upd_ne _ h2.symm, ht])]
    congr 1
    funext x
    unfold relink
    by_cases hx : x = this
    · subst hx
      simp [upd, h2.symm, ht, h3.2, hf]
    · by_cases hx' : x = node
      · subst hx'
        simp [upd, hx, hn, h1.2]
      · by_cases hx'' : x = c
        · subst hx''
          simp [upd, hx, hx', hcn]
        · simp [upd, hx, hx', hx'', Ne.symm hx'']

lemma linkBefore_eq {h : Heap} {this b node : ℕ} {l r : List ℕ} {nd : Node} (hc : Children h this (l ++ b :: r)) (hn : h node = some nd) (h1 : node ∉ l ++ b :: r) (h2 : node ≠ this)
    (h3 : this ∉ l ++ b :: r) : linkBefore h this b node = some (relink h this l [node] (b :: r)) := by
  obtain ⟨t, ht, hf, hl⟩ := hc.1
  obtain ⟨bn, hb, -, hbp, hbn⟩ := hc.2.2 l b r rfl
  have hnd := hc.2.1
  simp only [List.mem_append, List.mem_cons, not_or] at h1 h3
  have hbn' : b ≠ node := Ne.symm h1.2.1
  unfold linkBefore
  rw [assign_eq hn]
  simp only [Option.bind_some]
  rw [assign_eq (upd_same hn _)]
  simp only [Option.bind_some]
  rw [upd_ne _ hbn', upd_ne _ hbn', hb]
  simp only [Option.bind_some]
  rw [assign_eq (upd_same (upd_same hn _) _)]
  simp only [Option.bind_some]
  rcases List.eq_nil_or_concat l with rfl | ⟨l, c, rfl⟩
  · simp only [List.getLast?_nil] at hbp
    rw [hbp]
    simp only
    rw [assign_eq (n := t) (by rw [upd_ne _ h2.symm, upd_ne _ h2.symm, upd_ne _ h2.symm, ht])]
    simp only [Option.bind_some]
    rw [assign_eq (n := bn) (by rw [upd_ne _ (Ne.symm h3.2.1), upd_ne _ hbn', upd_ne _ hbn', upd_ne _ hbn', hb])]
    congr 1
    funext x
    unfold relink
    by_cases hx : x = this
    · subst hx
      simp [upd, h2.symm, ht, h3.2.1, hl]
    · by_cases hx' : x = node
      · subst hx'
        simp [upd, hx, hn, h1.2.1]
      · by_cases hx'' : x = b
        · subst hx''
          simp [upd, hx, hx', hb]
        · simp [upd, hx, hx', hx'', Ne.symm hx'']
  · simp only [List.concat_eq_append, List.mem_append, List.mem_singleton, not_or] at h1 h3 hc hbp hf hl hnd
    simp only [List.getLast?_append, List.getLast?_singleton, Option.some_or] at hbp
    rw [hbp]
    simp only
    obtain ⟨cn, hcn, -⟩ := alive_of hc (c := c) (by simp)
    have hcb : c ≠ b := by
      intro e
      subst e
      simp [List.nodup_append] at hnd
    rw [assign_eq (n := cn) (by rw [upd_ne _ (Ne.symm h1.1.2), upd_ne _ (Ne.symm h1.1.2), upd_ne _ (Ne.symm h1.1.2), hcn])]
    simp only [Option.bind_some]
    rw [assign_eq (n := bn) (by rw [upd_ne _ hcb.symm, upd_ne _ hbn', upd_ne _ hbn', upd_ne _ hbn', hb])]
    congr 1
    funext x
    unfold relink
    by_cases hx : x = this
    · subst hx
      obtain ⟨td, tp, tf, tl, tq, tn⟩ := t
      simp only at hf hl
      subst hf hl
      cases l <;> simp [upd, List.getLast?_cons, List.getLast?_append, h2.symm, ht, h3.2.1, h3.1.2]
    · by_cases hx' : x = node
      · subst hx'
        simp [upd, hx, hn, h1.2.1, h1.1.2]
      · by_cases hx'' : x = b
        · subst hx''
          simp [upd, hx, hx', hb, hcb.symm, hcb]
        · by_cases hxc : x = c
          · subst hxc
            simp [upd, hx, hx', hx'', hcn]
          · simp [upd, hx, hx', hx'', hxc, Ne.symm hx'', Ne.symm hxc]

lemma linkAfter_eq {h : Heap} {this b node : ℕ} {l r : List ℕ} {nd : Node} (hc : Children h this (l ++ b :: r)) (hn : h node = some nd) (h1 : node ∉ l ++ b :: r) (h2 : node ≠ this)
    (h3 : this ∉ l ++ b :: r) : linkAfter h this b node = some (relink h this (l ++ [b]) [node] r) := by
  obtain ⟨t, ht, hf, hl⟩ := hc.1
  obtain ⟨bn, hb, -, hbp, hbn⟩ := hc.2.2 l b r rfl
  have hnd := hc.2.1
  simp only [List.mem_append, List.mem_cons, not_or] at h1 h3
  have hbn' : b ≠ node := Ne.symm h1.2.1
  unfold linkAfter
  rw [assign_eq hn]
  simp only [Option.bind_some]
  rw [assign_eq (upd_same hn _)]
  simp only [Option.bind_some]
  rw [upd_ne _ hbn', upd_ne _ hbn', hb]
  simp only [Option.bind_some]
  rw [assign_eq (upd_same (upd_same hn _) _)]
  simp only [Option.bind_some]
  rcases r with _ | ⟨c, r⟩
  · simp only [List.head?_nil] at hbn
    rw [hbn]
    simp only
    rw [assign_eq (n := t) (by rw [upd_ne _ h2.symm, upd_ne _ h2.symm, upd_ne _ h2.symm, ht])]
    simp only [Option.bind_some]
    rw [assign_eq (n := bn) (by rw [upd_ne _ (Ne.symm h3.2.1), upd_ne _ hbn', upd_ne _ hbn', upd_ne _ hbn', hb])]
    congr 1
    funext x
    unfold relink
    by_cases hx : x = this
    · subst hx
      obtain ⟨td, tp, tf, tl, tq, tn⟩ := t
      simp only at hf hl
      subst hf hl
      cases l <;> simp [upd, List.getLast?_cons, List.getLast?_append, h2.symm, ht, h3.2.1]
    · by_cases hx' : x = node
      · subst hx'
        simp [upd, hx, hn, h1.2.1]
      · by_cases hx'' : x = b
        · subst hx''
          simp [upd, hx, hx', hb]
        · simp [upd, hx, hx', hx'', Ne.symm hx'']
  · simp only [List.head?_cons] at hbn
    simp only [List.mem_cons, not_or] at h1 h3
    rw [hbn]
    simp only
    obtain ⟨cn, hcn, -⟩ := alive_of hc (c := c) (by simp)
    have hcb : c ≠ b := by
      intro e
      subst e
      simp [List.nodup_append] at hnd
    rw [assign_eq (n := cn) (by rw [upd_ne _ (Ne.symm h1.2.2.1), upd_ne _ (Ne.symm h1.2.2.1), upd_ne _ (Ne.symm h1.2.2.1), hcn])]
    simp only [Option.bind_some]
    rw [assign_eq (n := bn) (by rw [upd_ne _ hcb.symm, upd_ne _ hbn', upd_ne _ hbn', upd_ne _ hbn', hb])]
    congr 1
    funext x
    unfold relink
    by_cases hx : x = this
    · subst hx
      obtain ⟨td, tp, tf, tl, tq, tn⟩ := t
      simp only at hf hl
      subst hf hl
      cases l <;> simp [upd, List.getLast?_cons, List.getLast?_append, h2.symm, ht, h3.2.1, h3.2.2.1]
    · by_cases hx' : x = node
      · subst hx'
        simp [upd, hx, hn, h1.2.1, h1.2.2.1]
      · by_cases hx'' : x = b
        · subst hx''
          simp [upd, hx, hx', hb, hcb.symm]
        · by_cases hxc : x = c
          · subst hxc
            simp [upd, hx, hx', hx'', hcn, Ne.symm hx'']
          · simp [upd, hx, hx', hx'', hxc, Ne.symm hx'', Ne.symm hxc]

lemma nodup_mid {l r : List ℕ} {b : ℕ} (h : (l ++ b :: r).Nodup) : b ∉ l ∧ b ∉ r ∧ l.Nodup ∧ r.Nodup ∧ ∀ x ∈ l, x ∉ r := by
  rw [List.nodup_append] at h
  obtain ⟨h1, h2, h3⟩ := h
  rw [List.nodup_cons] at h2
  refine ⟨fun hb => h3 b hb b (by simp) rfl, h2.1, h1, h2.2, fun x hx hr => h3 x hx x (by simp [hr]) rfl⟩

lemma linkInstead_eq {h : Heap} {this b node : ℕ} {l r : List ℕ} {nd : Node} (hc : Children h this (l ++ b :: r)) (hn : h node = some nd) (h1 : node ∉ l ++ b :: r) (h2 : node ≠ this)
    (h3 : this ∉ l ++ b :: r) : linkInstead h this b node = some (upd (relink h this l [node] r) node fun n => { n with parent := nd.parent }) := by
  obtain ⟨t, ht, hf, hl⟩ := hc.1
  obtain ⟨bn, hb, -, hbp, hbn⟩ := hc.2.2 l b r rfl
  obtain ⟨hd1, hd2, hd3, hd4, hd5⟩ := nodup_mid hc.2.1
  simp only [List.mem_append, List.mem_cons, not_or] at h1 h3
  unfold linkInstead
  rw [hb]
  simp only [Option.bind_some]
  rw [assign_eq hn]
  simp only [Option.bind_some]
  rw [assign_eq (upd_same hn _)]
  simp only [Option.bind_some]
  rw [hbn, hbp]
  rcases r with _ | ⟨c, r⟩
  · simp only [List.head?_nil]
    rw [assign_eq (n := t) (by rw [upd_ne _ h2.symm, upd_ne _ h2.symm, ht])]
    simp only [Option.bind_some]
    rcases List.eq_nil_or_concat l with rfl | ⟨l, d, rfl⟩
    · simp only [List.getLast?_nil]
      rw [assign_eq (upd_same (n := t) (by rw [upd_ne _ h2.symm, upd_ne _ h2.symm, ht]) _)]
      congr 1
      funext x
      unfold relink
      by_cases hx : x = this
      · subst hx
        simp [upd, h2.symm, ht]
      · by_cases hx' : x = node
        · subst hx'
          simp [upd, hx, hn]
        · simp [upd, hx, hx']
    · simp only [List.concat_eq_append, List.mem_append, List.mem_singleton, not_or] at h1 h3 hc hbp hf hl
      simp only [List.concat_eq_append, List.getLast?_append, List.getLast?_singleton, Option.some_or]
      obtain ⟨dn, hdn, -⟩ := alive_of hc (c := d) (by simp)
      rw [assign_eq (n := dn) (by rw [upd_ne _ (Ne.symm h3.1.2), upd_ne _ (Ne.symm h1.1.2), upd_ne _ (Ne.symm h1.1.2), hdn])]
      congr 1
      funext x
      unfold relink
      by_cases hx : x = this
      · subst hx
        obtain ⟨td, tp, tf, tl, tq, tn⟩ := t
        simp only at hf hl
        subst hf hl
        cases l <;> simp [upd, List.getLast?_cons, List.getLast?_append, h2.symm, ht, h3.1.2]
      · by_cases hx' : x = node
        · subst hx'
          simp [upd, hx, hn, h1.1.2]
        · by_cases hx'' : x = d
          · subst hx''
            simp [upd, hx, hx', hdn]
          · simp [upd, hx, hx', hx'', Ne.symm hx'']
  · simp only [List.mem_cons, not_or] at h1 h3 hd5 hd2
    simp only [List.head?_cons]
    obtain ⟨cn, hcn, -⟩ := alive_of hc (c := c) (by simp)
    rw [assign_eq (n := cn) (by rw [upd_ne _ (Ne.symm h1.2.2.1), upd_ne _ (Ne.symm h1.2.2.1), hcn])]
    simp only [Option.bind_some]
    rcases List.eq_nil_or_concat l with rfl | ⟨l, d, rfl⟩
    · simp only [List.getLast?_nil]
      rw [assign_eq (n := t) (by rw [upd_ne _ h3.2.2.1, upd_ne _ h2.symm, upd_ne _ h2.symm, ht])]
      congr 1
      funext x
      unfold relink
      by_cases hx : x = this
      · subst hx
        obtain ⟨td, tp, tf, tl, tq, tn⟩ := t
        simp only at hf hl
        subst hf hl
        simp [upd, h2.symm, ht, h3.2.2.1]
      · by_cases hx' : x = node
        · subst hx'
          simp [upd, hx, hn, h1.2.2.1]
        · by_cases hx'' : x = c
          · subst hx''
            simp [upd, hx, hx', hcn]
          · simp [upd, hx, hx', hx'', Ne.symm hx'']
    · simp only [List.concat_eq_append, List.mem_append, List.mem_singleton, not_or] at h1 h3 hc hbp hf hl hd5
      simp only [List.concat_eq_append, List.getLast?_append, List.getLast?_singleton, Option.some_or]
      obtain ⟨dn, hdn, -⟩ := alive_of hc (c := d) (by simp)
      have hdc : d ≠ c := (hd5 d (by simp)).1
      rw [assign_eq (n := dn) (by rw [upd_ne _ hdc, upd_ne _ (Ne.symm h1.1.2), upd_ne _ (Ne.symm h1.1.2), hdn])]
      congr 1
      funext x
      unfold relink
      by_cases hx : x = this
      · subst hx
        obtain ⟨td, tp, tf, tl, tq, tn⟩ := t
        simp only at hf hl
        subst hf hl
        cases l <;> simp [upd, List.getLast?_cons, List.getLast?_append, h2.symm, ht, h3.1.2, h3.2.2.1]
      · by_cases hx' : x = node
        · subst hx'
          simp [upd, hx, hn, h1.1.2, h1.2.2.1]
        · by_cases hx'' : x = d
          · subst hx''
            simp [upd, hx, hx', hdn, hdc]
          · by_cases hxc : x = c
            · subst hxc
              simp [upd, hx, hx', hx'', hcn, Ne.symm hx'']
            · simp [upd, hx, hx', hx'', hxc, Ne.symm hx'', Ne.symm hxc]

lemma unlink_eq {h : Heap} {this b : ℕ} {l r : List ℕ} (hc : Children h this (l ++ b :: r))
    (h3 : this ∉ l ++ b :: r) : unlink h this b = some (relink h this l [] r) := by
  obtain ⟨t, ht, hf, hl⟩ := hc.1
  obtain ⟨bn, hb, -, hbp, hbn⟩ := hc.2.2 l b r rfl
  obtain ⟨hd1, hd2, hd3, hd4, hd5⟩ := nodup_mid hc.2.1
  simp only [List.mem_append, List.mem_cons, not_or] at h3
  unfold unlink
  rw [hb]
  simp only [Option.bind_some]
  rw [hbn, hbp]
  rcases r with _ | ⟨c, r⟩
  · simp only [List.head?_nil]
    rw [assign_eq ht]
    simp only [Option.bind_some]
    rcases List.eq_nil_or_concat l with rfl | ⟨l, d, rfl⟩
    · simp only [List.getLast?_nil]
      rw [assign_eq (upd_same ht _)]
      congr 1
      funext x
      unfold relink
      by_cases hx : x = this
      · subst hx
        simp [upd, ht]
      · simp [upd, hx]
    · simp only [List.concat_eq_append, List.mem_append, List.mem_singleton, not_or] at h3 hc hbp hf hl
      simp only [List.concat_eq_append, List.getLast?_append, List.getLast?_singleton, Option.some_or]
      obtain ⟨dn, hdn, -⟩ := alive_of hc (c := d) (by simp)
      rw [assign_eq (n := dn) (by rw [upd_ne _ (Ne.symm h3.1.2), hdn])]
      congr 1
      funext x
      unfold relink
      by_cases hx : x = this
      · subst hx
        obtain ⟨td, tp, tf, tl, tq, tn⟩ := t
        simp only at hf hl
        subst hf hl
        cases l <;> simp [upd, List.getLast?_cons, List.getLast?_append, ht, h3.1.2]
      · by_cases hx'' : x = d
        · subst hx''
          simp [upd, hx, hdn]
        · simp [upd, hx, hx'', Ne.symm hx'']
  · simp only [List.mem_cons, not_or] at h3 hd5 hd2
    simp only [List.head?_cons]
    obtain ⟨cn, hcn, -⟩ := alive_of hc (c := c) (by simp)
    rw [assign_eq hcn]
    simp only [Option.bind_some]
    rcases List.eq_nil_or_concat l with rfl | ⟨l, d, rfl⟩
    · simp only [List.getLast?_nil]
      rw [assign_eq (n := t) (by rw [upd_ne _ h3.2.2.1, ht])]
      congr 1
      funext x
      unfold relink
      by_cases hx : x = this
      · subst hx
        obtain ⟨td, tp, tf, tl, tq, tn⟩ := t
        simp only at hf hl
        subst hf hl
        simp [upd, ht, h3.2.2.1]
      · by_cases hx'' : x = c
        · subst hx''
          simp [upd, hx, hcn]
        · simp [upd, hx, hx'', Ne.symm hx'']
    · simp only [List.concat_eq_append, List.mem_append, List.mem_singleton, not_or] at h3 hc hbp hf hl hd5
      simp only [List.concat_eq_append, List.getLast?_append, List.getLast?_singleton, Option.some_or]
      obtain ⟨dn, hdn, -⟩ := alive_of hc (c := d) (by simp)
      have hdc : d ≠ c := (hd5 d (by simp)).1
      rw [assign_eq (n := dn) (by rw [upd_ne _ hdc, hdn])]
      congr 1
      funext x
      unfold relink
      by_cases hx : x = this
      · subst hx
        obtain ⟨td, tp, tf, tl, tq, tn⟩ := t
        simp only at hf hl
        subst hf hl
        cases l <;> simp [upd, List.getLast?_cons, List.getLast?_append, ht, h3.1.2, h3.2.2.1]
      · by_cases hx'' : x = d
        · subst hx''
          simp [upd, hx, hdn, hdc]
        · by_cases hxc : x = c
          · subst hxc
            simp [upd, hx, hx'', hcn, Ne.symm hx'']
          · simp [upd, hx, hx'', hxc, Ne.symm hx'', Ne.symm hxc]

/-! ## Lists of children -/

lemma relink_down {h : Heap} {this x : ℕ} {l mid r : List ℕ} {n : Node} (hx : h x = some n) (h1 : x ≠ this) :
    ∃ n', relink h this l mid r x = some n' ∧ n'.data = n.data ∧ n'.firstChild = n.firstChild ∧ n'.lastChild = n.lastChild := by
  unfold relink
  rw [if_neg h1, hx]
  split_ifs <;> exact ⟨_, rfl, rfl, rfl, rfl⟩

lemma relink_side {h : Heap} {this x : ℕ} {l mid r : List ℕ} {n : Node} (hx : h x = some n) (h1 : x ∉ mid) (h2 : x ∉ l) (h3 : x ∉ r) :
    ∃ n', relink h this l mid r x = some n' ∧ n'.data = n.data ∧ n'.parent = n.parent ∧ n'.prev = n.prev ∧ n'.next = n.next := by
  unfold relink
  have e1 : l.getLast? ≠ some x := fun e => h2 (List.mem_of_getLast? e)
  have e2 : r.head? ≠ some x := fun e => h3 (List.mem_of_mem_head? e)
  rw [if_neg h1, if_neg e1, if_neg e2, hx]
  split_ifs <;> exact ⟨_, rfl, rfl, rfl, rfl, rfl⟩

lemma relink_parent {h : Heap} {this x : ℕ} {l mid r : List ℕ} {n : Node} (hx : h x = some n) (h1 : x ∉ mid) :
    ∃ n', relink h this l mid r x = some n' ∧ n'.data = n.data ∧ n'.parent = n.parent := by
  unfold relink
  rw [if_neg h1, hx]
  split_ifs <;> exact ⟨_, rfl, rfl, rfl⟩

lemma relink_same {h : Heap} {this x : ℕ} {l mid r : List ℕ} (h1 : x ∉ mid) (h2 : x ∉ l) (h3 : x ∉ r) (h4 : x ≠ this) : relink h this l mid r x = h x := by
  unfold relink
  have e1 : l.getLast? ≠ some x := fun e => h2 (List.mem_of_getLast? e)
  have e2 : r.head? ≠ some x := fun e => h3 (List.mem_of_mem_head? e)
  rw [if_neg h4, if_neg h1, if_neg e1, if_neg e2]

lemma relink_none {h : Heap} {this x : ℕ} {l mid r : List ℕ} : relink h this l mid r x = none ↔ h x = none := by
  unfold relink
  split_ifs <;> simp

lemma relink_mid {h : Heap} {this m : ℕ} {l r : List ℕ} {n : Node} (hm : h m = some n) (h1 : m ≠ this) :
    relink h this l [m] r m = some { n with parent := some this, prev := l.getLast?, next := r.head? } := by
  unfold relink
  rw [if_neg h1, if_pos (by simp), hm]
  rfl

lemma children_unique {h : Heap} {p : ℕ} {cs cs' : List ℕ} (hc : Children h p cs) (hc' : Children h p cs') : cs = cs' := by
  have key : ∀ r l l' r', cs = l ++ r → cs' = l' ++ r' → r.head? = r'.head? → r = r' := by
    intro r
    induction r with
    | nil =>
      intro l l' r' _ _ e
      cases r' with
      | nil => rfl
      | cons a t => simp at e
    | cons a t ih =>
      intro l l' r' e1 e2 e
      cases r' with
      | nil => simp at e
      | cons b t' =>
        simp only [List.head?_cons, Option.some.injEq] at e
        subst e
        obtain ⟨n, hn, -, -, h1⟩ := hc.2.2 l a t e1
        obtain ⟨n', hn', -, -, h2⟩ := hc'.2.2 l' a t' e2
        rw [hn] at hn'
        injection hn' with hn'
        subst hn'
        rw [ih (l ++ [a]) (l' ++ [a]) t' (by simp [e1]) (by simp [e2]) (by rw [← h1, ← h2])]
  obtain ⟨n, hn, h1, -⟩ := hc.1
  obtain ⟨n', hn', h2, -⟩ := hc'.1
  rw [hn] at hn'
  injection hn' with hn'
  subst hn'
  exact key cs [] [] cs' rfl rfl (by rw [← h1, ← h2])

lemma relink_this {h : Heap} {this : ℕ} {l old r mid : List ℕ} (hc : Children h this (l ++ old ++ r)) (h3 : this ∉ l ++ mid ++ r)
    (hm : mid = [] ∨ ∃ m n, mid = [m] ∧ h m = some n ∧ m ∉ l ∧ m ∉ r) : Children (relink h this l mid r) this (l ++ mid ++ r) := by
  obtain ⟨t, ht, hf, hl⟩ := hc.1
  have hnd := hc.2.1
  have hnd' : (l ++ r).Nodup := by
    rw [List.append_assoc, List.nodup_append] at hnd
    obtain ⟨n1, n2, n3⟩ := hnd
    rw [List.nodup_append] at n2 ⊢
    exact ⟨n1, n2.2.1, fun a ha b hb => n3 a ha b (by simp [hb])⟩
  have hdl : ∀ x ∈ l, x ∉ r := by
    intro x hx hr
    rw [List.nodup_append] at hnd'
    exact hnd'.2.2 x hx x hr rfl
  have hmm : ∀ m ∈ mid, (∃ n, h m = some n) ∧ m ∉ l ∧ m ∉ r ∧ mid = [m] := by
    intro m hm'
    rcases hm with rfl | ⟨a, n, rfl, h1, h2, h3⟩
    · simp at hm'
    · simp only [List.mem_singleton] at hm'
      subst hm'
      exact ⟨⟨n, h1⟩, h2, h3, rfl⟩
  refine ⟨⟨{ t with firstChild := (l ++ mid ++ r).head?, lastChild := (l ++ mid ++ r).getLast? }, ?_, rfl, rfl⟩, ?_, ?_⟩
  · unfold relink
    rw [if_pos rfl, ht]
    rfl
  · rcases hm with rfl | ⟨a, n, rfl, h1, h2, h3⟩
    · simpa using hnd'
    · rw [List.append_assoc, List.nodup_append]
      rw [List.nodup_append] at hnd'
      refine ⟨hnd'.1, ?_, ?_⟩
      · simp [h3, hnd'.2.1]
      · intro x hx y hy e
        subst e
        simp only [List.singleton_append, List.mem_cons] at hy
        rcases hy with rfl | hy
        · exact h2 hx
        · exact hdl x hx hy
  · intro l' c r' e
    have hct : c ≠ this := by
      rintro rfl
      exact h3 (by rw [e]; simp)
    rw [List.append_assoc, List.append_eq_append_iff] at e
    have incl : ∀ a' b', l = a' ++ c :: b' → l' = a' → r' = b' ++ (mid ++ r) →
        ∃ n, relink h this l mid r c = some n ∧ n.parent = some this ∧ n.prev = l'.getLast? ∧ n.next = r'.head? := by
      rintro a' b' rfl rfl rfl
      obtain ⟨n, hn, hp, hq, hx⟩ := hc.2.2 l' c (b' ++ old ++ r) (by simp)
      have hcm : c ∉ mid := fun hh => (hmm c hh).2.1 (by simp)
      unfold relink
      rw [if_neg hct, if_neg hcm]
      rcases List.eq_nil_or_concat b' with rfl | ⟨b', d, rfl⟩
      · rw [if_pos (by simp), hn]
        exact ⟨_, rfl, hp, hq, rfl⟩
      · have hdc : d ≠ c := by
          rintro rfl
          rw [List.append_assoc, List.nodup_append] at hnd
          have := hnd.1
          simp [List.nodup_append] at this
        have e1 : (l' ++ c :: b'.concat d).getLast? ≠ some c := by
          simp [List.getLast?_append, List.getLast?_cons]
          exact hdc
        have e2 : r.head? ≠ some c := fun e => hdl c (by simp) (List.mem_of_mem_head? e)
        rw [if_neg e1, if_neg e2]
        refine ⟨n, hn, hp, hq, ?_⟩
        rw [hx]
        cases b' <;> simp
    have incr : ∀ a' b', r = a' ++ c :: b' → l' = l ++ mid ++ a' → r' = b' →
        ∃ n, relink h this l mid r c = some n ∧ n.parent = some this ∧ n.prev = l'.getLast? ∧ n.next = r'.head? := by
      rintro a' b' rfl rfl rfl
      obtain ⟨n, hn, hp, hq, hx⟩ := hc.2.2 (l ++ old ++ a') c r' (by simp)
      have hcm : c ∉ mid := fun hh => (hmm c hh).2.2.1 (by simp)
      have hcl : l.getLast? ≠ some c := fun e => hdl c (List.mem_of_getLast? e) (by simp)
      unfold relink
      rw [if_neg hct, if_neg hcm, if_neg hcl]
      rcases a' with _ | ⟨d, a'⟩
      · rw [if_pos (by simp), hn]
        exact ⟨_, rfl, hp, by simp, hx⟩
      · have hdc : d ≠ c := by
          rintro rfl
          rw [List.nodup_append] at hnd
          have := hnd.2.1
          simp [List.nodup_append] at this
        rw [if_neg (by simpa using hdc)]
        refine ⟨n, hn, hp, ?_, hx⟩
        rw [hq]
        simp [List.getLast?_append, List.getLast?_cons]
    rcases e with ⟨a, e1, e2⟩ | ⟨a, e1, e2⟩
    · rcases hm with rfl | ⟨m, n, rfl, h1, h2, h4⟩
      · exact incr a r' (by simpa using e2) (by simp [e1]) rfl
      · rcases a with _ | ⟨b, a⟩
        · simp only [List.singleton_append, List.nil_append, List.cons.injEq] at e2
          obtain ⟨rfl, rfl⟩ := e2
          simp only [List.append_nil] at e1
          subst e1
          exact ⟨_, relink_mid h1 hct, rfl, rfl, rfl⟩
        · simp only [List.singleton_append, List.cons_append, List.cons.injEq] at e2
          obtain ⟨rfl, rfl⟩ := e2
          exact incr a r' rfl (by simp [e1]) rfl
    · rcases a with _ | ⟨b, a⟩
      · simp only [List.nil_append] at e2
        simp only [List.append_nil] at e1
        subst e1
        rcases hm with rfl | ⟨m, n, rfl, h1, h2, h4⟩
        · simp only [List.nil_append] at e2
          exact incr [] r' e2.symm (by simp) rfl
        · simp only [List.singleton_append, List.cons.injEq] at e2
          obtain ⟨rfl, rfl⟩ := e2
          exact ⟨_, relink_mid h1 hct, rfl, rfl, rfl⟩
      · simp only [List.cons_append, List.cons.injEq] at e2
        obtain ⟨rfl, rfl⟩ := e2
        exact incl l' a e1 rfl rfl

lemma relink_other {h : Heap} {this q : ℕ} {l mid r cs : List ℕ} (hc : Children h q cs) (hq : q ≠ this) (hd : ∀ x ∈ cs, x ∉ mid ∧ x ∉ l ∧ x ∉ r) :
    Children (relink h this l mid r) q cs := by
  obtain ⟨t, ht, hf, hl⟩ := hc.1
  obtain ⟨t', ht', -, h1, h2⟩ := relink_down (this := this) (l := l) (mid := mid) (r := r) ht hq
  refine ⟨⟨t', ht', by rw [h1, hf], by rw [h2, hl]⟩, hc.2.1, ?_⟩
  intro a c b e
  obtain ⟨n, hn, hp, hv, hx⟩ := hc.2.2 a c b e
  obtain ⟨d1, d2, d3⟩ := hd c (by rw [e]; simp)
  obtain ⟨n', hn', -, e1, e2, e3⟩ := relink_side (this := this) (l := l) (mid := mid) (r := r) hn d1 d2 d3
  exact ⟨n', hn', by rw [e1, hp], by rw [e2, hv], by rw [e3, hx]⟩

/-! ## Sound heaps -/

lemma parent_unique {h : Heap} {c p q : ℕ} (h1 : ChildOf h c p) (h2 : ChildOf h c q) : p = q := by
  obtain ⟨n, e1, e2⟩ := h1
  obtain ⟨n', e1', e2'⟩ := h2
  rw [e1] at e1'
  injection e1' with e1'
  subst e1'
  rw [e2] at e2'
  injection e2'

lemma not_self {h : Heap} (hs : Sound h) {c p : ℕ} (h1 : ChildOf h c p) (h2 : Within h p c) : False := by
  have : Relation.TransGen (ChildOf h) p p ∨ p = c := by
    rcases Relation.reflTransGen_iff_eq_or_transGen.mp h2 with e | t
    · exact Or.inr e.symm
    · exact Or.inl (t.tail h1)
  rcases this with t | rfl
  · exact hs.acyclic.transGen.irrefl.irrefl _ t
  · exact hs.acyclic.irrefl.irrefl _ h1

lemma this_not_child {h : Heap} (hs : Sound h) {p : ℕ} {cs : List ℕ} (hc : Children h p cs) : p ∉ cs := by
  intro hm
  exact not_self hs (alive_of hc hm) Relation.ReflTransGen.refl

lemma child_iff {h : Heap} (hs : Sound h) {p c : ℕ} {cs : List ℕ} (hc : Children h p cs) : c ∈ cs ↔ ChildOf h c p := by
  constructor
  · exact fun hm => alive_of hc hm
  · intro hh
    obtain ⟨cs', hc', hm⟩ := hs.parents c p hh
    rwa [children_unique hc hc']

/-- A new edge that closes no cycle. -/
lemma wf_edge {α : Type} {R R' : α → α → Prop} {m t : α} (hw : WellFounded R) (hr : ∀ x y, R' x y → R x y ∨ (x = m ∧ y = t)) (hn : ¬ Relation.ReflTransGen R t m) : WellFounded R' := by
  have hlow : ∀ x, Relation.ReflTransGen R x m → Acc R' x := by
    intro x
    induction x using hw.induction with
    | _ x ih =>
      intro hx
      constructor
      intro y hy
      rcases hr y x hy with h | ⟨rfl, rfl⟩
      · exact ih y h (Relation.ReflTransGen.head h hx)
      · exact absurd hx hn
  refine ⟨fun x => ?_⟩
  induction x using hw.induction with
  | _ x ih =>
    constructor
    intro y hy
    rcases hr y x hy with h | ⟨rfl, rfl⟩
    · exact ih y h
    · exact hlow y Relation.ReflTransGen.refl

/-- A new node. -/
lemma sound_alloc {h : Heap} (hs : Sound h) {m : ℕ} (hm : h m = none) (d : Data) :
    Sound (Function.update h m (some (newNode d))) ∧ Children (Function.update h m (some (newNode d))) m [] ∧
    ∀ q cs, Children h q cs → Children (Function.update h m (some (newNode d))) q cs := by
  have hne : ∀ x n, h x = some n → x ≠ m := by
    rintro x n hx rfl
    rw [hm] at hx
    cases hx
  have hold : ∀ q cs, Children h q cs → Children (Function.update h m (some (newNode d))) q cs := by
    intro q cs hc
    obtain ⟨t, ht, hf, hl⟩ := hc.1
    refine ⟨⟨t, by rw [Function.update_of_ne (hne q t ht), ht], hf, hl⟩, hc.2.1, ?_⟩
    intro a c b e
    obtain ⟨n, hn, hr⟩ := hc.2.2 a c b e
    exact ⟨n, by rw [Function.update_of_ne (hne c n hn), hn], hr⟩
  have hch : ∀ c p, ChildOf (Function.update h m (some (newNode d))) c p → ChildOf h c p := by
    rintro c p ⟨n, hn, hp⟩
    by_cases hcm : c = m
    · subst hcm
      simp only [Function.update_self, Option.some.injEq] at hn
      subst hn
      simp [newNode] at hp
    · rw [Function.update_of_ne hcm] at hn
      exact ⟨n, hn, hp⟩
  have hnew : Children (Function.update h m (some (newNode d))) m [] :=
    ⟨⟨newNode d, by simp, rfl, rfl⟩, by simp, by intro l c r e; simp at e⟩
  refine ⟨⟨?_, ?_, ?_, ?_, ?_⟩, hnew, hold⟩
  · obtain ⟨b, hb⟩ := hs.finite
    refine ⟨max b (m + 1), fun a ha => ?_⟩
    rw [Function.update_of_ne (by omega)]
    exact hb a (by omega)
  · intro p n hp
    by_cases hpm : p = m
    · subst hpm
      exact ⟨_, hnew⟩
    · rw [Function.update_of_ne hpm] at hp
      obtain ⟨cs, hc⟩ := hs.lists p n hp
      exact ⟨cs, hold p cs hc⟩
  · intro c p hh
    obtain ⟨cs, hc, hm'⟩ := hs.parents c p (hch c p hh)
    exact ⟨cs, hold p cs hc, hm'⟩
  · intro c n hn hp
    by_cases hcm : c = m
    · subst hcm
      simp only [Function.update_self, Option.some.injEq] at hn
      subst hn
      exact ⟨rfl, rfl⟩
    · rw [Function.update_of_ne hcm] at hn
      exact hs.roots c n hn hp
  · exact Subrelation.wf (fun {a b} hh => hch a b hh) hs.acyclic

/-- A root gets a place among the children of `this`. -/
lemma sound_insert {h : Heap} (hs : Sound h) {this m : ℕ} {l r : List ℕ} {nd : Node} (hc : Children h this (l ++ r)) (hm : h m = some nd) (hr : nd.parent = none)
    (hw : ¬ Within h this m) :
    Sound (relink h this l [m] r) ∧ Children (relink h this l [m] r) this (l ++ m :: r) ∧
    ∀ q cs, q ≠ this → Children h q cs → Children (relink h this l [m] r) q cs := by
  have hmt : m ≠ this := by
    rintro rfl
    exact hw Relation.ReflTransGen.refl
  have hroot : ∀ p, ¬ ChildOf h m p := by
    rintro p ⟨n, e1, e2⟩
    rw [hm] at e1
    injection e1 with e1
    subst e1
    rw [hr] at e2
    cases e2
  have hml : m ∉ l ++ r := fun hh => hroot this (alive_of hc hh)
  have ht := this_not_child hs hc
  simp only [List.mem_append, not_or] at hml ht
  have hthis : Children (relink h this l [m] r) this (l ++ m :: r) := by
    have := relink_this (h := h) (this := this) (l := l) (old := []) (r := r) (mid := [m]) (by simpa using hc) (by simp [ht, Ne.symm hmt]) (Or.inr ⟨m, nd, rfl, hm, hml.1, hml.2⟩)
    simpa using this
  have hother : ∀ q cs, q ≠ this → Children h q cs → Children (relink h this l [m] r) q cs := by
    intro q cs hq hcq
    refine relink_other hcq hq ?_
    intro x hx
    have hxq := alive_of hcq hx
    refine ⟨?_, ?_, ?_⟩
    · simp only [List.mem_singleton]
      rintro rfl
      exact hroot q hxq
    · intro hxl
      exact hq (parent_unique hxq (alive_of hc (by simp [hxl])))
    · intro hxl
      exact hq (parent_unique hxq (alive_of hc (by simp [hxl])))
  have hch : ∀ c p, ChildOf (relink h this l [m] r) c p → ChildOf h c p ∨ (c = m ∧ p = this) := by
    rintro c p ⟨n, hn, hp⟩
    by_cases hcm : c = m
    · subst hcm
      rw [relink_mid hm hmt] at hn
      injection hn with hn
      subst hn
      simp only [Option.some.injEq] at hp
      exact Or.inr ⟨rfl, hp.symm⟩
    · left
      cases hhc : h c with
      | none => rw [relink_none.mpr hhc] at hn; cases hn
      | some n0 =>
        obtain ⟨n', e1, -, e2⟩ := relink_parent (this := this) (l := l) (mid := [m]) (r := r) hhc (by simpa using hcm)
        rw [hn] at e1
        injection e1 with e1
        subst e1
        exact ⟨n0, hhc, by rw [← e2, hp]⟩
  refine ⟨⟨?_, ?_, ?_, ?_, ?_⟩, hthis, hother⟩
  · obtain ⟨b, hb⟩ := hs.finite
    exact ⟨b, fun a ha => relink_none.mpr (hb a ha)⟩
  · intro p n hp
    by_cases hpt : p = this
    · subst hpt
      exact ⟨_, hthis⟩
    · cases hhp : h p with
      | none => rw [relink_none.mpr hhp] at hp; cases hp
      | some n0 =>
        obtain ⟨cs, hcs⟩ := hs.lists p n0 hhp
        exact ⟨cs, hother p cs hpt hcs⟩
  · intro c p hh
    rcases hch c p hh with h1 | ⟨rfl, rfl⟩
    · by_cases hpt : p = this
      · subst hpt
        refine ⟨_, hthis, ?_⟩
        have := (child_iff hs hc).mpr h1
        simp only [List.mem_append, List.mem_cons] at this ⊢
        tauto
      · obtain ⟨cs, hcs, hm'⟩ := hs.parents c p h1
        exact ⟨cs, hother p cs hpt hcs, hm'⟩
    · exact ⟨_, hthis, by simp⟩
  · intro c n hn hp
    by_cases hcm : c = m
    · subst hcm
      rw [relink_mid hm hmt] at hn
      injection hn with hn
      subst hn
      cases hp
    · cases hhc : h c with
      | none => rw [relink_none.mpr hhc] at hn; cases hn
      | some n0 =>
        have hcp : n0.parent = none := by
          obtain ⟨n', e1, -, e2⟩ := relink_parent (this := this) (l := l) (mid := [m]) (r := r) hhc (by simpa using hcm)
          rw [hn] at e1
          injection e1 with e1
          subst e1
          rw [← e2, hp]
        have hnot : c ∉ l ++ r := by
          intro hh
          obtain ⟨n1, e1, e2⟩ := alive_of hc hh
          rw [hhc] at e1
          injection e1 with e1
          subst e1
          rw [hcp] at e2
          cases e2
        simp only [List.mem_append, not_or] at hnot
        obtain ⟨n', e1, -, -, e2, e3⟩ := relink_side (this := this) (l := l) (mid := [m]) (r := r) hhc (by simpa using hcm) hnot.1 hnot.2
        rw [hn] at e1
        injection e1 with e1
        subst e1
        have := hs.roots c n0 hhc hcp
        exact ⟨by rw [e2, this.1], by rw [e3, this.2]⟩
  · exact wf_edge hs.acyclic hch hw

/-- Nodes taken away. -/
def erase (h : Heap) (ids : List ℕ) : Heap := fun x => if x ∈ ids then none else h x

lemma erase_children {h : Heap} {ids cs : List ℕ} {q : ℕ} (hc : Children h q cs) (hq : q ∉ ids) (hd : ∀ c ∈ cs, c ∉ ids) : Children (erase h ids) q cs := by
  obtain ⟨t, ht, hf, hl⟩ := hc.1
  refine ⟨⟨t, by simp [erase, hq, ht], hf, hl⟩, hc.2.1, ?_⟩
  intro a c b e
  obtain ⟨n, hn, hr⟩ := hc.2.2 a c b e
  exact ⟨n, by simp [erase, hd c (by rw [e]; simp), hn], hr⟩

/-- A child of `this` is taken away with everything below it. -/
lemma sound_remove {h : Heap} (hs : Sound h) {this b : ℕ} {l r ids : List ℕ} (hc : Children h this (l ++ b :: r)) (hi : ∀ x, x ∈ ids ↔ Within h x b) :
    Sound (erase (relink h this l [] r) ids) ∧ Children (erase (relink h this l [] r) ids) this (l ++ r) ∧ this ∉ ids ∧
    ∀ q cs, q ≠ this → q ∉ ids → Children h q cs → Children (erase (relink h this l [] r) ids) q cs := by
  have hb : ChildOf h b this := alive_of hc (by simp)
  have ht := this_not_child hs hc
  have hti : this ∉ ids := fun hh => not_self hs hb ((hi this).mp hh)
  obtain ⟨hd1, hd2, hd3, hd4, hd5⟩ := nodup_mid hc.2.1
  have hsib : ∀ c ∈ l ++ r, c ∉ ids := by
    intro c hcm hh
    have hct : ChildOf h c this := alive_of hc (by simp only [List.mem_append, List.mem_cons] at hcm ⊢; tauto)
    rcases Relation.ReflTransGen.cases_head ((hi c).mp hh) with e | ⟨p, h1, h2⟩
    · subst e
      simp only [List.mem_append] at hcm
      tauto
    · have := parent_unique hct h1
      subst this
      exact not_self hs hb h2
  have hdown : ∀ c p, ChildOf h c p → p ≠ this → p ∉ ids → c ∉ ids := by
    intro c p hcp hpt hpi hh
    rcases Relation.ReflTransGen.cases_head ((hi c).mp hh) with e | ⟨q, h1, h2⟩
    · subst e
      exact hpt (parent_unique hcp hb)
    · have := parent_unique hcp h1
      subst this
      exact hpi ((hi p).mpr h2)
  have hthis : Children (erase (relink h this l [] r) ids) this (l ++ r) := by
    refine erase_children ?_ hti hsib
    have := relink_this (h := h) (this := this) (l := l) (old := [b]) (r := r) (mid := []) (by simpa using hc) (by
      simp only [List.mem_append, List.mem_cons] at ht ⊢
      simp only [List.not_mem_nil]
      tauto) (Or.inl rfl)
    simpa using this
  have hother : ∀ q cs, q ≠ this → q ∉ ids → Children h q cs → Children (erase (relink h this l [] r) ids) q cs := by
    intro q cs hq hqi hcq
    refine erase_children (relink_other hcq hq ?_) hqi ?_
    · intro x hx
      have hxq := alive_of hcq hx
      refine ⟨by simp, ?_, ?_⟩
      · intro hxl
        exact hq (parent_unique hxq (alive_of hc (by simp [hxl])))
      · intro hxl
        exact hq (parent_unique hxq (alive_of hc (by simp [hxl])))
    · intro c hcm
      exact hdown c q (alive_of hcq hcm) hq hqi
  have hback : ∀ x n, erase (relink h this l [] r) ids x = some n → x ∉ ids ∧ ∃ n0, h x = some n0 ∧ relink h this l [] r x = some n ∧ n.parent = n0.parent := by
    intro x n hx
    unfold erase at hx
    by_cases hxi : x ∈ ids
    · simp [hxi] at hx
    · rw [if_neg hxi] at hx
      cases hhx : h x with
      | none => rw [relink_none.mpr hhx] at hx; cases hx
      | some n0 =>
        obtain ⟨n', e1, -, e2⟩ := relink_parent (this := this) (l := l) (mid := []) (r := r) hhx (by simp)
        rw [hx] at e1
        injection e1 with e1
        subst e1
        exact ⟨hxi, n0, rfl, hx, e2⟩
  have hch : ∀ c p, ChildOf (erase (relink h this l [] r) ids) c p → ChildOf h c p ∧ c ∉ ids := by
    rintro c p ⟨n, hn, hp⟩
    obtain ⟨h1, n0, h2, -, h3⟩ := hback c n hn
    exact ⟨⟨n0, h2, by rw [← h3, hp]⟩, h1⟩
  refine ⟨⟨?_, ?_, ?_, ?_, ?_⟩, hthis, hti, hother⟩
  · obtain ⟨bd, hbd⟩ := hs.finite
    refine ⟨bd, fun a ha => ?_⟩
    unfold erase
    rw [relink_none.mpr (hbd a ha)]
    simp
  · intro p n hp
    obtain ⟨h1, n0, h2, -⟩ := hback p n hp
    by_cases hpt : p = this
    · subst hpt
      exact ⟨_, hthis⟩
    · obtain ⟨cs, hcs⟩ := hs.lists p n0 h2
      exact ⟨cs, hother p cs hpt h1 hcs⟩
  · intro c p hh
    obtain ⟨h1, h2⟩ := hch c p hh
    by_cases hpt : p = this
    · subst hpt
      refine ⟨_, hthis, ?_⟩
      have h3 := (child_iff hs hc).mpr h1
      have h4 : c ≠ b := by
        rintro rfl
        exact h2 ((hi c).mpr Relation.ReflTransGen.refl)
      simp only [List.mem_append, List.mem_cons] at h3 ⊢
      tauto
    · have hpi : p ∉ ids := fun hpi => h2 ((hi c).mpr (Relation.ReflTransGen.head h1 ((hi p).mp hpi)))
      obtain ⟨cs, hcs, hm'⟩ := hs.parents c p h1
      exact ⟨cs, hother p cs hpt hpi hcs, hm'⟩
  · intro c n hn hp
    obtain ⟨h1, n0, h2, h2', h3⟩ := hback c n hn
    have hcp : n0.parent = none := by rw [← h3, hp]
    have hnot : c ∉ l ++ r := by
      intro hh
      obtain ⟨n1, e1, e2⟩ := alive_of hc (c := c) (by simp only [List.mem_append, List.mem_cons] at hh ⊢; tauto)
      rw [h2] at e1
      injection e1 with e1
      subst e1
      rw [hcp] at e2
      cases e2
    simp only [List.mem_append, not_or] at hnot
    obtain ⟨n', e1, -, -, e2, e3⟩ := relink_side (this := this) (l := l) (mid := []) (r := r) h2 (by simp) hnot.1 hnot.2
    rw [h2'] at e1
    injection e1 with e1
    subst e1
    have := hs.roots c n0 h2 hcp
    exact ⟨by rw [e2, this.1], by rw [e3, this.2]⟩
  · exact Subrelation.wf (fun {a b} hh => (hch a b hh).1) hs.acyclic

/-! ## Destruction -/

inductive Nodes (h : Heap) : Option ℕ → List ℕ → Prop
  | nil : Nodes h none []
  | cons (a : ℕ) (n : Node) (k r : List ℕ) : h a = some n → Nodes h n.firstChild k → Nodes h n.next r → Nodes h (some a) (a :: (k ++ r))

lemma siblings_apart {h : Heap} (hs : Sound h) {x a b p : ℕ} (ha : ChildOf h a p) (hb : ChildOf h b p) (h1 : Within h x a) (h2 : Within h x b) : a = b := by
  have key : ∀ a b, ChildOf h a p → ChildOf h b p → Within h a b → a = b := by
    intro a b ha hb hw
    rcases Relation.ReflTransGen.cases_head hw with e | ⟨q, h1, h2⟩
    · exact e
    · have := parent_unique ha h1
      subst this
      exact absurd h2 (fun hh => not_self hs hb hh)
  have hru : Relator.RightUnique (ChildOf h) := fun a b c h1 h2 => parent_unique h1 h2
  rcases Relation.ReflTransGen.total_of_right_unique hru h1 h2 with h | h
  · exact key a b ha hb h
  · exact (key b a hb ha h).symm

lemma nodes_exist {h : Heap} (hs : Sound h) (p : ℕ) : ∀ cs l, Children h p (l ++ cs) →
    ∃ ids, Nodes h cs.head? ids ∧ ids.Nodup ∧ ∀ x, x ∈ ids ↔ ∃ c ∈ cs, Within h x c := by
  induction p using hs.acyclic.induction with
  | _ p ih =>
    intro cs
    induction cs with
    | nil => exact fun l _ => ⟨[], Nodes.nil, by simp, by simp⟩
    | cons c cs ihc =>
      intro l hc
      obtain ⟨n, hn, hp, -, hx⟩ := hc.2.2 l c cs rfl
      have hcp : ChildOf h c p := ⟨n, hn, hp⟩
      obtain ⟨ks, hks⟩ := hs.lists c n hn
      obtain ⟨k, k1, k2, k3⟩ := ih c hcp ks [] (by simpa using hks)
      obtain ⟨r, r1, r2, r3⟩ := ihc (l ++ [c]) (by simpa using hc)
      obtain ⟨n', hn', hf, -⟩ := hks.1
      rw [hn] at hn'
      injection hn' with hn'
      subst hn'
      have hsub : ∀ x, x ∈ k → Within h x c := by
        intro x hxk
        obtain ⟨d, hd, hw⟩ := (k3 x).mp hxk
        exact hw.tail (alive_of hks hd)
      have hsib : ∀ x, Within h x c → x ∉ r := by
        intro x hw hxr
        obtain ⟨d, hd, hw'⟩ := (r3 x).mp hxr
        have := siblings_apart hs hcp (alive_of hc (c := d) (by simp [hd])) hw hw'
        subst this
        exact (nodup_mid hc.2.1).2.1 hd
      refine ⟨c :: (k ++ r), Nodes.cons c n k r hn (hf ▸ k1) (hx ▸ r1), ?_, ?_⟩
      · rw [List.nodup_cons, List.mem_append, List.nodup_append]
        refine ⟨?_, k2, r2, ?_⟩
        · rintro (hk | hr)
          · obtain ⟨d, hd, hw⟩ := (k3 c).mp hk
            exact not_self hs (alive_of hks hd) hw
          · exact hsib c Relation.ReflTransGen.refl hr
        · rintro x hxk y hyr rfl
          exact hsib x (hsub x hxk) hyr
      · intro x
        simp only [List.mem_cons, List.mem_append, r3, exists_eq_or_imp]
        constructor
        · rintro (rfl | hk | hr)
          · exact Or.inl Relation.ReflTransGen.refl
          · exact Or.inl (hsub x hk)
          · exact Or.inr hr
        · rintro (hw | hr)
          · rcases Relation.ReflTransGen.cases_tail hw with e | ⟨d, h1, h2⟩
            · exact Or.inl e.symm
            · exact Or.inr (Or.inl ((k3 x).mpr ⟨d, (child_iff hs hks).mpr h2, h1⟩))
          · exact Or.inr (Or.inr hr)

lemma free_exists {h : Heap} {c : Option ℕ} {ids : List ℕ} (hn : Nodes h c ids) : ids.Nodup → ∀ h1 : Heap, (∀ x ∈ ids, h1 x = h x) → FreeChain h1 c (erase h1 ids) := by
  induction hn with
  | nil =>
    intro _ h1 _
    have : erase h1 [] = h1 := by
      funext x
      simp [erase]
    rw [this]
    exact FreeChain.nil h1
  | cons a n k r ha _ _ ih1 ih2 =>
    intro hnd h1 hag
    rw [List.nodup_cons, List.mem_append, not_or, List.nodup_append] at hnd
    obtain ⟨⟨ak, ar⟩, hk, hr, hkr⟩ := hnd
    have f1 := ih1 hk h1 (fun x hx => hag x (by simp [hx]))
    have e1 : erase h1 k a = some n := by
      unfold erase
      rw [if_neg ak, hag a (by simp), ha]
    have f2 := ih2 hr (Function.update (erase h1 k) a none) (by
      intro x hx
      have hxa : x ≠ a := by
        rintro rfl
        exact ar hx
      have hxk : x ∉ k := fun hh => hkr x hh x hx rfl
      rw [Function.update_of_ne hxa]
      unfold erase
      rw [if_neg hxk, hag x (by simp [hx])])
    have e2 : erase (Function.update (erase h1 k) a none) r = erase h1 (a :: (k ++ r)) := by
      funext x
      unfold erase
      by_cases hxa : x = a
      · subst hxa
        simp
      · by_cases hxk : x ∈ k <;> by_cases hxr : x ∈ r <;> simp [hxa, hxk, hxr]
    rw [e2] at f2
    exact FreeChain.cons h1 _ _ a n n (by rw [hag a (by simp), ha]) f1 e1 f2

lemma free_unique {h h' : Heap} {c : Option ℕ} (hf : FreeChain h c h') : ∀ h'', FreeChain h c h'' → h' = h'' := by
  induction hf with
  | nil h =>
    intro h'' hh
    cases hh
    rfl
  | cons h h1 h2 c n n1 hc f1 hc1 f2 ih1 ih2 =>
    intro h'' hh
    cases hh with
    | cons _ k1 _ _ m m1 kc g1 kc1 g2 =>
      rw [hc] at kc
      injection kc with kc
      subst kc
      have := ih1 k1 g1
      subst this
      exact ih2 h'' g2

/-- Destroying a node takes away exactly the node and what is below it. -/
lemma delete_eq {h : Heap} (hs : Sound h) {b : ℕ} {n : Node} (hb : h b = some n) :
    ∃ ids, (∀ x, x ∈ ids ↔ Within h x b) ∧ ∀ h1 : Heap, (∀ x ∈ ids, h1 x = h x) → Delete h1 b (erase h1 ids) ∧ ∀ h', Delete h1 b h' → h' = erase h1 ids := by
  obtain ⟨ks, hks⟩ := hs.lists b n hb
  obtain ⟨k, k1, k2, k3⟩ := nodes_exist hs b ks [] (by simpa using hks)
  obtain ⟨n', hn', hf, -⟩ := hks.1
  rw [hb] at hn'
  injection hn' with hn'
  subst hn'
  have hbk : b ∉ k := by
    intro hh
    obtain ⟨d, hd, hw⟩ := (k3 b).mp hh
    exact not_self hs (alive_of hks hd) hw
  refine ⟨b :: k, ?_, ?_⟩
  · intro x
    rw [List.mem_cons, k3]
    constructor
    · rintro (rfl | ⟨c, hc, hw⟩)
      · exact Relation.ReflTransGen.refl
      · exact hw.tail (alive_of hks hc)
    · intro hw
      rcases Relation.ReflTransGen.cases_tail hw with e | ⟨d, h1, h2⟩
      · exact Or.inl e.symm
      · exact Or.inr ⟨d, (child_iff hs hks).mpr h2, h1⟩
  · intro h1 hag
    have hb1 : h1 b = some n := by rw [hag b (by simp), hb]
    have f := free_exists k1 k2 h1 (fun x hx => hag x (by simp [hx]))
    rw [← hf] at f
    have e1 : erase h1 k b = some n := by
      unfold erase
      rw [if_neg hbk, hb1]
    have e2 : erase h1 (b :: k) = Function.update (erase h1 k) b none := by
      funext x
      unfold erase
      by_cases hxb : x = b
      · subst hxb
        simp
      · by_cases hxk : x ∈ k <;> simp [hxb, hxk]
    refine ⟨⟨n, n, erase h1 k, hb1, f, e1, e2⟩, ?_⟩
    rintro h' ⟨m, m1, h2, g1, g2, -, rfl⟩
    rw [hb1] at g1
    injection g1 with g1
    subst g1
    rw [e2, free_unique f h2 g2]

/-! ## Trees -/

lemma chain_of_forall {h : Heap} {p : ℕ} {cs : List ℕ} {ts : List Tree} : ∀ l, Children h p (l ++ cs) → List.Forall₂ (Shows h) cs ts → ShowsChain h cs.head? ts := by
  induction cs generalizing ts with
  | nil =>
    intro l _ hf
    cases hf
    exact ShowsChain.nil
  | cons c cs ih =>
    intro l hc hf
    cases hf with
    | cons h1 h2 =>
      obtain ⟨n, kids, hn, hk, rfl⟩ := h1
      obtain ⟨n', hn', -, -, hx⟩ := hc.2.2 l c cs rfl
      rw [hn] at hn'
      injection hn' with hn'
      subst hn'
      exact ShowsChain.cons c n kids _ hn hk (hx ▸ ih (l ++ [c]) (by simpa using hc) h2)

lemma forall_of_chain {h : Heap} {p : ℕ} {cs : List ℕ} {ts : List Tree} : ∀ l, Children h p (l ++ cs) → ShowsChain h cs.head? ts → List.Forall₂ (Shows h) cs ts := by
  induction cs generalizing ts with
  | nil =>
    intro l _ hf
    cases hf
    exact List.Forall₂.nil
  | cons c cs ih =>
    intro l hc hf
    cases hf with
    | cons _ n kids rest hn hk hr =>
      obtain ⟨n', hn', -, -, hx⟩ := hc.2.2 l c cs rfl
      rw [hn] at hn'
      injection hn' with hn'
      subst hn'
      exact List.Forall₂.cons ⟨n, kids, hn, hk, rfl⟩ (ih (l ++ [c]) (by simpa using hc) (hx ▸ hr))

lemma shows_iff {h : Heap} {a : ℕ} {n : Node} {cs : List ℕ} {d : Data} {ts : List Tree} (ha : h a = some n) (hc : Children h a cs) :
    Shows h a (.node d ts) ↔ d = n.data ∧ List.Forall₂ (Shows h) cs ts := by
  obtain ⟨n', hn', hf, -⟩ := hc.1
  rw [ha] at hn'
  injection hn' with hn'
  subst hn'
  constructor
  · rintro ⟨m, kids, hm, hk, e⟩
    rw [ha] at hm
    injection hm with hm
    subst hm
    injection e with e1 e2
    subst e1 e2
    exact ⟨rfl, forall_of_chain [] (by simpa using hc) (hf ▸ hk)⟩
  · rintro ⟨rfl, hh⟩
    exact ⟨n, ts, ha, hf ▸ chain_of_forall [] (by simpa using hc) hh, rfl⟩

/-- What a node shows depends on the data and the lists of children at and below it. -/
lemma chain_transfer {h h' : Heap} (P : ℕ → Prop) (hP : ∀ x, P x → ∃ n n' cs, h x = some n ∧ h' x = some n' ∧ n.data = n'.data ∧ Children h x cs ∧ Children h' x cs ∧ ∀ c ∈ cs, P c)
    {c : Option ℕ} {ts : List Tree} (hsh : ShowsChain h c ts) : ∀ p l cs, Children h p (l ++ cs) → Children h' p (l ++ cs) → cs.head? = c → (∀ x ∈ cs, P x) → ShowsChain h' c ts := by
  induction hsh with
  | nil => exact fun _ _ _ _ _ _ _ => ShowsChain.nil
  | cons a n kids rest ha _ _ ih1 ih2 =>
    intro p l cs hc hc' hh hp
    cases cs with
    | nil => simp at hh
    | cons b cs =>
      simp only [List.head?_cons, Option.some.injEq] at hh
      subst hh
      obtain ⟨m, m', ks, hm, hm', hd, k1, k2, k3⟩ := hP b (hp b (by simp))
      rw [ha] at hm
      injection hm with hm
      subst hm
      obtain ⟨q, hq, qf, -⟩ := k1.1
      obtain ⟨q', hq', qf', -⟩ := k2.1
      rw [ha] at hq
      injection hq with hq
      subst hq
      rw [hm'] at hq'
      injection hq' with hq'
      subst hq'
      obtain ⟨s, hs, -, -, sx⟩ := hc.2.2 l b cs rfl
      obtain ⟨s', hs', -, -, sx'⟩ := hc'.2.2 l b cs rfl
      rw [ha] at hs
      injection hs with hs
      subst hs
      rw [hm'] at hs'
      injection hs' with hs'
      subst hs'
      have i1 := ih1 b [] ks (by simpa using k1) (by simpa using k2) qf.symm k3
      have i2 := ih2 p (l ++ [b]) cs (by simpa using hc) (by simpa using hc') sx.symm (fun x hx => hp x (by simp [hx]))
      rw [hd]
      exact ShowsChain.cons b m' kids rest hm' (by rw [qf', ← qf]; exact i1) (by rw [sx', ← sx]; exact i2)

lemma shows_transfer {h h' : Heap} (P : ℕ → Prop) (hP : ∀ x, P x → ∃ n n' cs, h x = some n ∧ h' x = some n' ∧ n.data = n'.data ∧ Children h x cs ∧ Children h' x cs ∧ ∀ c ∈ cs, P c)
    {a : ℕ} {t : Tree} (hsh : Shows h a t) (ha : P a) : Shows h' a t := by
  obtain ⟨n, kids, hn, hk, rfl⟩ := hsh
  obtain ⟨m, m', ks, hm, hm', hd, k1, k2, k3⟩ := hP a ha
  rw [hn] at hm
  injection hm with hm
  subst hm
  obtain ⟨q, hq, qf, -⟩ := k1.1
  obtain ⟨q', hq', qf', -⟩ := k2.1
  rw [hn] at hq
  injection hq with hq
  subst hq
  rw [hm'] at hq'
  injection hq' with hq'
  subst hq'
  refine ⟨m', kids, hm', ?_, by rw [hd]⟩
  have := chain_transfer P hP hk a [] ks (by simpa using k1) (by simpa using k2) qf.symm k3
  rw [qf', ← qf]
  exact this

lemma shows_exists {h : Heap} (hs : Sound h) (a : ℕ) : ∀ n, h a = some n → ∃ t, Shows h a t := by
  induction a using hs.acyclic.induction with
  | _ a ih =>
    intro n hn
    obtain ⟨cs, hc⟩ := hs.lists a n hn
    have : ∀ l : List ℕ, (∀ c ∈ l, c ∈ cs) → ∃ ts, List.Forall₂ (Shows h) l ts := by
      intro l
      induction l with
      | nil => exact fun _ => ⟨[], List.Forall₂.nil⟩
      | cons c l ihl =>
        intro hl
        obtain ⟨ts, hts⟩ := ihl (fun x hx => hl x (by simp [hx]))
        have hcc := alive_of hc (hl c (by simp))
        obtain ⟨m, hm, hmp⟩ := hcc
        obtain ⟨t, ht⟩ := ih c ⟨m, hm, hmp⟩ m hm
        exact ⟨t :: ts, List.Forall₂.cons ht hts⟩
    obtain ⟨ts, hts⟩ := this cs (fun _ h => h)
    exact ⟨.node n.data ts, (shows_iff hn hc).mpr ⟨rfl, hts⟩⟩

/-! ## Copies -/

lemma setAttribute_new {as : List (Text × Text)} {k v : Text} (hk : k ∉ as.map Prod.fst) : setAttribute as k v = as ++ [(k, v)] := by
  induction as with
  | nil => rfl
  | cons a as ih =>
    simp only [List.map_cons, List.mem_cons, not_or] at hk
    simp only [setAttribute, if_neg (Ne.symm hk.1), ih hk.2, List.cons_append]

lemma takeWhile_all {α : Type} {p : α → Bool} {l : List α} (hl : ∀ x ∈ l, p x = true) : l.takeWhile p = l := by
  induction l with
  | nil => rfl
  | cons a l ih => rw [List.takeWhile_cons, hl a (by simp), ih (fun x hx => hl x (by simp [hx]))]; rfl

lemma copyAttributes_eq {as : List (Text × Text)} (hn : (as.map Prod.fst).Nodup) (he : ∀ a ∈ as, a.1 ≠ []) : copyAttributes as = as := by
  have hv : visited as = as := by
    cases as with
    | nil => rfl
    | cons a as =>
      simp only [visited, List.cons.injEq, true_and]
      refine takeWhile_all fun x hx => ?_
      simp [he x (by simp [hx])]
  have key : ∀ (l acc : List (Text × Text)), ((acc ++ l).map Prod.fst).Nodup → l.foldl (fun c a => setAttribute c a.1 a.2) acc = acc ++ l := by
    intro l
    induction l with
    | nil => simp
    | cons a l ih =>
      intro acc hnd
      rw [List.foldl_cons, setAttribute_new, ih]
      · simp
      · simpa using hnd
      · intro hh
        simp only [List.map_append, List.map_cons, List.nodup_append] at hnd
        exact hnd.2.2 a.1 hh a.1 (by simp) rfl
  unfold copyAttributes
  rw [hv, key as [] (by simpa using hn)]
  rfl

lemma plain_data {d : Data} {kids : List Tree} (hp : Plain (.node d kids)) : copyData d = d := by
  cases hp with
  | node _ _ h1 h2 h3 h4 h5 =>
    unfold copyData
    split_ifs with hk
    · rw [copyAttributes_eq h3 h4]
    · rw [← (h2 hk).2]

lemma plain_copied {h : Heap} {n : Node} {kids : List Tree} (hp : Plain (.node n.data kids)) (hk : ShowsChain h n.firstChild kids) : copied n = n.firstChild := by
  cases hp with
  | node _ _ h1 h2 h3 h4 h5 =>
    unfold copied
    by_cases he : n.data.kind = .element
    · rw [he]
    · have := (h2 he).1
      subst this
      cases hf : n.firstChild with
      | none => split <;> rfl
      | some a =>
        rw [hf] at hk
        cases hk

lemma root_within {h : Heap} {t m : ℕ} {n : Node} (ht : h t = some n) (hp : n.parent = none) (hw : Within h t m) : t = m := by
  rcases Relation.ReflTransGen.cases_head hw with e | ⟨q, ⟨n', h1, h2⟩, -⟩
  · exact e
  · rw [ht] at h1
    injection h1 with h1
    subst h1
    rw [hp] at h2
    cases h2

/-- What a loop of `Clone` over children has done. -/
structure Copied (h h' : Heap) (target : ℕ) (cs ms : List ℕ) (ts : List Tree) : Prop where
  sound : Sound h'
  same : ∀ x n, h x = some n → x ≠ target → x ∉ cs → h' x = some n
  data : ∀ x n, h x = some n → ∃ n', h' x = some n' ∧ n'.data = n.data ∧ n'.parent = n.parent
  lists : ∀ q ks, q ≠ target → Children h q ks → Children h' q ks
  list : Children h' target (cs ++ ms)
  new : ∀ x ∈ ms, h x = none
  shown : List.Forall₂ (Shows h') ms ts
  kept : ∀ x ∈ cs, ∀ t, Shows h x t → Shows h' x t
  only : ∀ x n, h' x = some n → h x = none → ∃ y ∈ ms, Within h' x y

lemma within_mono {h h' : Heap} (hd : ∀ x n, h x = some n → ∃ n', h' x = some n' ∧ n'.data = n.data ∧ n'.parent = n.parent) {a b : ℕ} (hw : Within h a b) : Within h' a b := by
  refine Relation.ReflTransGen.mono ?_ _ _ hw
  rintro c p ⟨n, hn, hp⟩
  obtain ⟨n', hn', -, hp'⟩ := hd c n hn
  exact ⟨n', hn', by rw [hp', hp]⟩

/-- The trees of roots that do not contain `this` stay. -/
lemma shows_insert {h h' : Heap} (hs : Sound h) {this m : ℕ} {t : Tree} (hw : ¬ Within h this m)
    (hd : ∀ x n, h x = some n → ∃ n', h' x = some n' ∧ n'.data = n.data) (ho : ∀ q cs, q ≠ this → Children h q cs → Children h' q cs) (hm : Shows h m t) : Shows h' m t := by
  refine shows_transfer (fun x => Within h x m ∧ ∃ n, h x = some n) ?_ hm ?_
  · rintro x ⟨hx, n, hn⟩
    obtain ⟨cs, hc⟩ := hs.lists x n hn
    obtain ⟨n', hn', hd'⟩ := hd x n hn
    refine ⟨n, n', cs, hn, hn', hd'.symm, hc, ho x cs ?_ hc, ?_⟩
    · rintro rfl
      exact hw hx
    · intro c hcm
      have hcx := alive_of hc hcm
      obtain ⟨k, hk, hkp⟩ := hcx
      exact ⟨Relation.ReflTransGen.head ⟨k, hk, hkp⟩ hx, k, hk⟩
  · obtain ⟨n, -, hn, -⟩ := hm
    exact ⟨Relation.ReflTransGen.refl, n, hn⟩

lemma relink_data {h : Heap} {this x : ℕ} {l mid r : List ℕ} {n : Node} (hx : h x = some n) :
    ∃ n', relink h this l mid r x = some n' ∧ n'.data = n.data := by
  unfold relink
  rw [hx]
  split_ifs <;> exact ⟨_, rfl, rfl⟩

lemma clone_chain {h0 : Heap} {c : Option ℕ} {ts : List Tree} (hsh : ShowsChain h0 c ts) : (∀ t ∈ ts, Plain t) →
    ∀ (h h' : Heap) (target : ℕ) (tn : Node) (cs : List ℕ), Sound h → (∀ x n, h0 x = some n → h x = some n) → h0 target = none → h target = some tn → tn.parent = none →
      Children h target cs → (∀ x ∈ cs, h0 x = none) → CloneChain h c target h' → ∃ ms, Copied h h' target cs ms ts := by
  induction hsh with
  | nil =>
    intro _ h h' target tn cs hs h0h ht0 ht htp hc hcs hcl
    cases hcl
    exact ⟨[], hs, fun x n hx _ _ => hx, fun x n hx => ⟨n, hx, rfl, rfl⟩, fun q ks _ hq => hq, by simpa using hc, by simp, List.Forall₂.nil, fun x _ t ht => ht, fun x n hx hx' => by rw [hx'] at hx; cases hx⟩
  | cons a n kids rest ha hk hr ih1 ih2 =>
    intro hpl h h' target tn cs hs h0h ht0 ht htp hc hcs hcl
    cases hcl with
    | cons _ h1 h2 _ _ m _ n1 n2 hn1 hkind hm hcc hlink hn2 hrest =>
      have hP : Plain (.node n.data kids) := hpl _ (by simp)
      have hkp : ∀ t ∈ kids, Plain t := by
        cases hP with
        | node _ _ _ _ _ _ h5 => exact h5
      rw [h0h a n ha] at hn1
      injection hn1 with hn1
      subst hn1
      rw [plain_copied hP hk, plain_data hP] at hcc
      have ne_m : ∀ x k, h x = some k → x ≠ m := by
        rintro x k hx rfl
        rw [hm] at hx
        cases hx
      obtain ⟨s1, c1, o1⟩ := sound_alloc hs hm n.data
      -- the children of the copy
      obtain ⟨ms1, C1⟩ := ih1 hkp _ h1 m (newNode n.data) [] s1 (fun x k hx => by
        rw [Function.update_of_ne (ne_m x k (h0h x k hx))]
        exact h0h x k hx) (by
        cases e : h0 m with
        | none => rfl
        | some k => exact absurd (h0h m k e) (by rw [hm]; simp)) (by simp) rfl c1 (by simp) hcc
      have htm : target ≠ m := ne_m _ _ ht
      have ht1 : h1 target = some tn := C1.same target tn (by rw [Function.update_of_ne htm, ht]) htm (by simp)
      obtain ⟨mn, hmn, hmd, hmp⟩ := C1.data m (newNode n.data) (by simp)
      have hct : Children h1 target cs := C1.lists target cs htm (o1 target cs hc)
      have hw : ¬ Within h1 target m := fun hh => htm (root_within ht1 htp hh)
      have hmcs : m ∉ cs := by
        intro hh
        obtain ⟨k, hk, -⟩ := alive_of hc hh
        rw [hm] at hk
        cases hk
      have htcs := this_not_child C1.sound hct
      rw [linkEnd_eq hct hmn hmcs (Ne.symm htm) htcs] at hlink
      injection hlink with hlink
      obtain ⟨s2, c2, o2⟩ := sound_insert C1.sound (l := cs) (r := []) (by simpa using hct) hmn hmp hw
      rw [hlink] at s2 c2 o2
      have d2 : ∀ x k, h1 x = some k → ∃ k', h2 x = some k' ∧ k'.data = k.data := by
        intro x k hx
        rw [← hlink]
        exact relink_data hx
      have h02 : ∀ x k, h0 x = some k → h2 x = some k := by
        intro x k hx
        have hxm := ne_m x k (h0h x k hx)
        have hxt : x ≠ target := by
          rintro rfl
          rw [ht0] at hx
          cases hx
        have hxc : x ∉ cs := by
          intro hh
          rw [hcs x hh] at hx
          cases hx
        rw [← hlink, relink_same (by simpa using hxm) hxc (by simp) hxt]
        exact C1.same x k (by rw [Function.update_of_ne hxm]; exact h0h x k hx) hxm (by simp)
      rw [h02 a n ha] at hn2
      injection hn2 with hn2
      subst hn2
      have ht2 : ∃ tn2, h2 target = some tn2 ∧ tn2.parent = none := by
        obtain ⟨k, hk, -, hkp⟩ := relink_parent (this := target) (l := cs) (mid := [m]) (r := []) ht1 (by simpa using htm)
        exact ⟨k, by rw [← hlink, hk], by rw [hkp, htp]⟩
      obtain ⟨tn2, ht2, htp2⟩ := ht2
      have hm0 : h0 m = none := by
        cases e : h0 m with
        | none => rfl
        | some k => exact absurd (h0h m k e) (by rw [hm]; simp)
      obtain ⟨ms2, C2⟩ := ih2 (fun t ht => hpl t (by simp [ht])) h2 h' target tn2 (cs ++ [m]) s2 h02 ht0 ht2 htp2 c2 (by
        intro x hx
        simp only [List.mem_append, List.mem_singleton] at hx
        rcases hx with hx | rfl
        · exact hcs x hx
        · exact hm0) hrest
      have old1 : ∀ x k, h x = some k → ∃ k', h1 x = some k' ∧ k'.data = k.data ∧ k'.parent = k.parent := by
        intro x k hx
        exact C1.data x k (by rw [Function.update_of_ne (ne_m x k hx), hx])
      have old2 : ∀ x k, h x = some k → ∃ k', h2 x = some k' ∧ k'.data = k.data ∧ k'.parent = k.parent := by
        intro x k hx
        obtain ⟨k1, e1, e2, e3⟩ := old1 x k hx
        obtain ⟨k2, f1, f2, f3⟩ := relink_parent (this := target) (l := cs) (mid := [m]) (r := []) e1 (by simpa using ne_m x k hx)
        exact ⟨k2, by rw [← hlink, f1], by rw [f2, e2], by rw [f3, e3]⟩
      have lists2 : ∀ q ks, q ≠ target → Children h q ks → Children h2 q ks := by
        intro q ks hq hqk
        have hqm : q ≠ m := by
          obtain ⟨k, hk, -⟩ := hqk.1
          exact ne_m q k hk
        exact o2 q ks hq (C1.lists q ks hqm (o1 q ks hqk))
      have showm : Shows h2 m (.node n.data kids) := by
        refine shows_insert C1.sound hw d2 o2 ?_
        refine (shows_iff hmn C1.list).mpr ⟨?_, C1.shown⟩
        rw [hmd]
        rfl
      refine ⟨m :: ms2, C2.sound, ?_, ?_, ?_, ?_, ?_, ?_, ?_, ?_⟩
      · intro x k hx hxt hxc
        have hxm := ne_m x k hx
        refine C2.same x k ?_ hxt (by simp [hxc, hxm])
        rw [← hlink, relink_same (by simpa using hxm) hxc (by simp) hxt]
        exact C1.same x k (by rw [Function.update_of_ne hxm, hx]) hxm (by simp)
      · intro x k hx
        obtain ⟨k1, e1, e2, e3⟩ := old2 x k hx
        obtain ⟨k2, f1, f2, f3⟩ := C2.data x k1 e1
        exact ⟨k2, f1, by rw [f2, e2], by rw [f3, e3]⟩
      · intro q ks hq hqk
        exact C2.lists q ks hq (lists2 q ks hq hqk)
      · have := C2.list
        rwa [List.append_assoc, List.singleton_append] at this
      · intro x hx
        simp only [List.mem_cons] at hx
        rcases hx with rfl | hx
        · exact hm
        · cases e : h x with
          | none => rfl
          | some k =>
            obtain ⟨k1, e1, -⟩ := old2 x k e
            rw [C2.new x hx] at e1
            cases e1
      · exact List.Forall₂.cons (C2.kept m (by simp) _ showm) C2.shown
      · intro x hx t hsx
        refine C2.kept x (by simp [hx]) t ?_
        refine shows_insert hs (this := target) ?_ (fun y k hy => ?_) lists2 hsx
        · intro hh
          have := root_within ht htp hh
          subst this
          exact this_not_child hs hc hx
        · obtain ⟨k', e1, e2, -⟩ := old2 y k hy
          exact ⟨k', e1, e2⟩
      · intro x k hx hxn
        cases e : h2 x with
        | none =>
          obtain ⟨y, hy, hyw⟩ := C2.only x k hx e
          exact ⟨y, by simp [hy], hyw⟩
        | some k2 =>
          refine ⟨m, by simp, within_mono C2.data ?_⟩
          by_cases hxm : x = m
          · subst hxm
            exact Relation.ReflTransGen.refl
          · cases e1 : h1 x with
            | none =>
              rw [← hlink, relink_none.mpr e1] at e
              cases e
            | some k1 =>
              obtain ⟨y, hy, hyw⟩ := C1.only x k1 e1 (by rw [Function.update_of_ne hxm, hxn])
              have hxw : Within h1 x m := hyw.tail (alive_of C1.list (by simpa using hy))
              refine Relation.ReflTransGen.mono ?_ _ _ hxw
              rintro c p ⟨u, hu, hup⟩
              have hcm : c ≠ m := by
                rintro rfl
                rw [hmn] at hu
                injection hu with hu
                subst hu
                rw [hmp] at hup
                cases hup
              obtain ⟨u', f1, -, f3⟩ := relink_parent (this := target) (l := cs) (mid := [m]) (r := []) hu (by simpa using hcm)
              exact ⟨u', by rw [← hlink, f1], by rw [f3, hup]⟩

lemma fresh {h : Heap} (hs : Sound h) : ∃ m, h m = none := by
  obtain ⟨b, hb⟩ := hs.finite
  exact ⟨b, hb b le_rfl⟩

lemma clone_chain_exists {h0 : Heap} {c : Option ℕ} {ts : List Tree} (hsh : ShowsChain h0 c ts) : (∀ t ∈ ts, Plain t) →
    ∀ (h : Heap) (target : ℕ) (tn : Node) (cs : List ℕ), Sound h → (∀ x n, h0 x = some n → h x = some n) → h0 target = none → h target = some tn → tn.parent = none →
      Children h target cs → (∀ x ∈ cs, h0 x = none) → ∃ h', CloneChain h c target h' := by
  induction hsh with
  | nil =>
    intro _ h target tn cs hs h0h ht0 ht htp hc hcs
    exact ⟨h, CloneChain.nil h target⟩
  | cons a n kids rest ha hk hr ih1 ih2 =>
    intro hpl h target tn cs hs h0h ht0 ht htp hc hcs
    have hP : Plain (.node n.data kids) := hpl _ (by simp)
    have hkp : (∀ t ∈ kids, Plain t) ∧ n.data.kind ≠ .document := by
      cases hP with
      | node _ _ h1 _ _ _ h5 => exact ⟨h5, h1⟩
    obtain ⟨m, hm⟩ := fresh hs
    have ne_m : ∀ x k, h x = some k → x ≠ m := by
      rintro x k hx rfl
      rw [hm] at hx
      cases hx
    have hm0 : h0 m = none := by
      cases e : h0 m with
      | none => rfl
      | some k => exact absurd (h0h m k e) (by rw [hm]; simp)
    obtain ⟨s1, c1, o1⟩ := sound_alloc hs hm n.data
    have h01 : ∀ x k, h0 x = some k → Function.update h m (some (newNode n.data)) x = some k := fun x k hx => by
      rw [Function.update_of_ne (ne_m x k (h0h x k hx))]
      exact h0h x k hx
    obtain ⟨h1, hcc⟩ := ih1 hkp.1 _ m (newNode n.data) [] s1 h01 hm0 (by simp) rfl c1 (by simp)
    obtain ⟨ms1, C1⟩ := clone_chain hk hkp.1 _ h1 m (newNode n.data) [] s1 h01 hm0 (by simp) rfl c1 (by simp) hcc
    have htm : target ≠ m := ne_m _ _ ht
    have ht1 : h1 target = some tn := C1.same target tn (by rw [Function.update_of_ne htm, ht]) htm (by simp)
    obtain ⟨mn, hmn, hmd, hmp⟩ := C1.data m (newNode n.data) (by simp)
    have hct : Children h1 target cs := C1.lists target cs htm (o1 target cs hc)
    have hw : ¬ Within h1 target m := fun hh => htm (root_within ht1 htp hh)
    have hmcs : m ∉ cs := by
      intro hh
      obtain ⟨k, hk, -⟩ := alive_of hc hh
      rw [hm] at hk
      cases hk
    have htcs := this_not_child C1.sound hct
    have hlink := linkEnd_eq hct hmn hmcs (Ne.symm htm) htcs
    obtain ⟨s2, c2, o2⟩ := sound_insert C1.sound (l := cs) (r := []) (by simpa using hct) hmn hmp hw
    have h02 : ∀ x k, h0 x = some k → relink h1 target cs [m] [] x = some k := by
      intro x k hx
      have hxm := ne_m x k (h0h x k hx)
      have hxt : x ≠ target := by
        rintro rfl
        rw [ht0] at hx
        cases hx
      have hxc : x ∉ cs := by
        intro hh
        rw [hcs x hh] at hx
        cases hx
      rw [relink_same (by simpa using hxm) hxc (by simp) hxt]
      exact C1.same x k (h01 x k hx) hxm (by simp)
    obtain ⟨tn2, ht2, -, hkp2⟩ := relink_parent (this := target) (l := cs) (mid := [m]) (r := []) ht1 (by simpa using htm)
    obtain ⟨h3, hrest⟩ := ih2 (fun t ht => hpl t (by simp [ht])) _ target tn2 (cs ++ [m]) s2 h02 ht0 ht2 (by rw [hkp2, htp]) c2 (by
      intro x hx
      simp only [List.mem_append, List.mem_singleton] at hx
      rcases hx with hx | rfl
      · exact hcs x hx
      · exact hm0)
    exact ⟨h3, CloneChain.cons h h1 _ h3 a m target n n (h0h a n ha) hkp.2 hm (by rw [plain_copied hP hk, plain_data hP]; exact hcc) hlink (h02 a n ha) hrest⟩

/-- A tree that `Clone` copies faithfully: a plain tree or a document over plain trees. -/
lemma clone_main {h : Heap} (hs : Sound h) {s : ℕ} {n : Node} {kids : List Tree} (hn : h s = some n) (hk : ShowsChain h n.firstChild kids) (hd : copyData n.data = n.data)
    (hco : copied n = n.firstChild) (hpl : ∀ t ∈ kids, Plain t) :
    (∃ h' m, Clone h s h' m) ∧ ∀ h' m, Clone h s h' m → Sound h' ∧ h m = none ∧ (∀ x n, h x = some n → h' x = some n) ∧ (∃ mn, h' m = some mn ∧ mn.parent = none) ∧
      Shows h' m (.node n.data kids) ∧ (∀ q ks, Children h q ks → Children h' q ks) ∧ ∀ x, h x = none → h' x ≠ none → Within h' x m := by
  have ne_m : ∀ m, h m = none → ∀ x k, h x = some k → x ≠ m := by
    rintro m hm x k hx rfl
    rw [hm] at hx
    cases hx
  have h01 : ∀ m, h m = none → ∀ x k, h x = some k → Function.update h m (some (newNode n.data)) x = some k := fun m hm x k hx => by
    rw [Function.update_of_ne (ne_m m hm x k hx), hx]
  constructor
  · obtain ⟨m, hm⟩ := fresh hs
    obtain ⟨s1, c1, o1⟩ := sound_alloc hs hm n.data
    obtain ⟨h1, hcc⟩ := clone_chain_exists hk hpl _ m (newNode n.data) [] s1 (h01 m hm) hm (by simp) rfl c1 (by simp)
    exact ⟨h1, m, n, hn, hm, by rw [hd, hco]; exact hcc⟩
  · rintro h' m ⟨n', hn', hm, hcc⟩
    rw [hn] at hn'
    injection hn' with hn'
    subst hn'
    rw [hd, hco] at hcc
    obtain ⟨s1, c1, o1⟩ := sound_alloc hs hm n.data
    obtain ⟨ms1, C1⟩ := clone_chain hk hpl _ h' m (newNode n.data) [] s1 (h01 m hm) hm (by simp) rfl c1 (by simp) hcc
    obtain ⟨mn, hmn, hmd, hmp⟩ := C1.data m (newNode n.data) (by simp)
    refine ⟨C1.sound, hm, ?_, ⟨mn, hmn, hmp⟩, ?_, ?_, ?_⟩
    · intro x k hx
      exact C1.same x k (h01 m hm x k hx) (ne_m m hm x k hx) (by simp)
    · refine (shows_iff hmn C1.list).mpr ⟨?_, C1.shown⟩
      rw [hmd]
      rfl
    · intro q ks hq
      obtain ⟨k, hk', -⟩ := hq.1
      exact C1.lists q ks (ne_m m hm q k hk') (o1 q ks hq)
    · intro x hx hx'
      by_cases hxm : x = m
      · subst hxm
        exact Relation.ReflTransGen.refl
      · cases e : h' x with
        | none => exact absurd e hx'
        | some k =>
          obtain ⟨y, hy, hyw⟩ := C1.only x k e (by rw [Function.update_of_ne hxm, hx])
          exact hyw.tail (alive_of C1.list (by simpa using hy))

/-! ## The functions -/

lemma plain_parts {h : Heap} {a : ℕ} {t : Tree} (hsh : Shows h a t) (hp : Plain t) :
    ∃ n kids, h a = some n ∧ n.data.kind ≠ .document ∧ t = .node n.data kids ∧ ShowsChain h n.firstChild kids ∧ copyData n.data = n.data ∧ copied n = n.firstChild ∧ ∀ t ∈ kids, Plain t := by
  obtain ⟨n, kids, hn, hk, rfl⟩ := hsh
  refine ⟨n, kids, hn, ?_, rfl, hk, plain_data hp, plain_copied hp hk, ?_⟩
  · cases hp with
    | node _ _ h1 => exact h1
  · cases hp with
    | node _ _ _ _ _ _ h5 => exact h5

/-- From the copy to its place among the children of `this`. -/
lemma insert_result {h h1 : Heap} {this m : ℕ} {l r : List ℕ} {t : Tree} (s1 : Sound h1) (hm : h m = none) (old : ∀ x n, h x = some n → h1 x = some n) (hmr : ∃ mn, h1 m = some mn ∧ mn.parent = none)
    (sh : Shows h1 m t) (lists : ∀ q ks, Children h q ks → Children h1 q ks) (only : ∀ x, h x = none → h1 x ≠ none → Within h1 x m) (hs : Sound h) (hc : Children h this (l ++ r)) :
    Sound (relink h1 this l [m] r) ∧ Children (relink h1 this l [m] r) this (l ++ m :: r) ∧ NewCopy h (relink h1 this l [m] r) m t ∧
      Untouched h (relink h1 this l [m] r) this (fun _ => False) ∧ m ∉ l ++ r ∧ m ≠ this ∧ this ∉ l ++ r := by
  obtain ⟨mn, hmn, hmp⟩ := hmr
  have ne_m : ∀ x k, h x = some k → x ≠ m := by
    rintro x k hx rfl
    rw [hm] at hx
    cases hx
  obtain ⟨tn, htn, -⟩ := hc.1
  have hw : ¬ Within h1 this m := by
    intro hh
    have up : ∀ x, Within h1 this x → ∃ k, h x = some k := by
      intro x hx
      induction hx with
      | refl => exact ⟨tn, htn⟩
      | tail _ hst ih =>
        obtain ⟨k, hk⟩ := ih
        obtain ⟨k1, hk1, hkp⟩ := hst
        rw [old _ k hk] at hk1
        injection hk1 with hk1
        subst hk1
        obtain ⟨cs, hcs, -⟩ := hs.parents _ _ ⟨k, hk, hkp⟩
        obtain ⟨k', hk', -⟩ := hcs.1
        exact ⟨k', hk'⟩
    obtain ⟨k, hk⟩ := up m hh
    rw [hm] at hk
    cases hk
  obtain ⟨s2, c2, o2⟩ := sound_insert s1 (lists this _ hc) hmn hmp hw
  refine ⟨s2, c2, ⟨hm, ?_, ?_⟩, ?_, ?_, ?_, ?_⟩
  · exact shows_insert s1 hw (fun x n hx => relink_data hx) o2 sh
  · intro x hx hx'
    have hxo := only x hx (fun e => hx' (relink_none.mpr e))
    refine Relation.ReflTransGen.mono ?_ _ _ hxo
    rintro c p ⟨u, hu, hup⟩
    have hcm : c ≠ m := by
      rintro rfl
      rw [hmn] at hu
      injection hu with hu
      subst hu
      rw [hmp] at hup
      cases hup
    obtain ⟨u', f1, -, f3⟩ := relink_parent (this := this) (l := l) (mid := [m]) (r := r) hu (by simpa using hcm)
    exact ⟨u', f1, by rw [f3, hup]⟩
  · intro x n hx _
    refine ⟨relink_parent (old x n hx) (by simpa using ne_m x n hx), ?_⟩
    intro hxt cs hcs
    exact o2 x cs hxt (lists x cs hcs)
  · intro hh
    obtain ⟨k, hk, -⟩ := alive_of hc hh
    rw [hm] at hk
    cases hk
  · exact Ne.symm (ne_m this tn htn)
  · exact this_not_child hs hc

/-- C100: `Clone` gives a new tree that shows what the original shows, and leaves everything else as it was. The same holds for documents, see `C100_clone_document`. -/
theorem C100_clone {h : Heap} (hs : Sound h) {s : ℕ} {t : Tree} (hsh : Shows h s t) (hp : Plain t) :
    (∃ h' m, Clone h s h' m) ∧ ∀ h' m, Clone h s h' m → Sound h' ∧ NewCopy h h' m t ∧ ∀ x n, h x = some n → h' x = some n := by
  obtain ⟨n, kids, hn, -, rfl, hk, hd, hco, hpl⟩ := plain_parts hsh hp
  obtain ⟨h1, h2⟩ := clone_main hs hn hk hd hco hpl
  refine ⟨h1, fun h' m hcl => ?_⟩
  obtain ⟨a1, a2, a3, -, a5, -, a7⟩ := h2 h' m hcl
  exact ⟨a1, ⟨a2, a5, a7⟩, a3⟩

/-- C100: `Clone` of a document. -/
theorem C100_clone_document {h : Heap} (hs : Sound h) {s : ℕ} {value : Text} {kids : List Tree} (hsh : Shows h s (.node ⟨.document, value, []⟩ kids)) (hp : ∀ t ∈ kids, Plain t) :
    (∃ h' m, Clone h s h' m) ∧ ∀ h' m, Clone h s h' m → Sound h' ∧ NewCopy h h' m (.node ⟨.document, value, []⟩ kids) ∧ ∀ x n, h x = some n → h' x = some n := by
  obtain ⟨n, kids', hn, hk, e⟩ := hsh
  injection e with e1 e2
  subst e2
  obtain ⟨h1, h2⟩ := clone_main hs hn hk (by rw [← e1]; rfl) (by unfold copied; rw [← e1]) hp
  refine ⟨h1, fun h' m hcl => ?_⟩
  obtain ⟨a1, a2, a3, -, a5, -, a7⟩ := h2 h' m hcl
  exact ⟨a1, ⟨a2, by rw [e1]; exact a5, a7⟩, a3⟩

/-- C100: `InsertEndChild` adds a copy of the tree behind the children. -/
theorem C100_insert_end {h : Heap} (hs : Sound h) {this a : ℕ} {cs : List ℕ} {t : Tree} (hc : Children h this cs) (hsh : Shows h a t) (hp : Plain t) :
    (∃ h' r, InsertEndChild h this a h' r) ∧ ∀ h' r, InsertEndChild h this a h' r →
      ∃ m, r = some m ∧ Sound h' ∧ Children h' this (cs ++ [m]) ∧ NewCopy h h' m t ∧ Untouched h h' this (fun _ => False) := by
  obtain ⟨n, kids, hn, hkind, rfl, hk, hd, hco, hpl⟩ := plain_parts hsh hp
  obtain ⟨⟨h1, m, hcl⟩, h2⟩ := clone_main hs hn hk hd hco hpl
  have key : ∀ h1 m, Clone h a h1 m → ∃ mn, h1 m = some mn ∧ mn.data.kind ≠ .document ∧ linkEnd h1 this m = some (relink h1 this cs [m] []) ∧
      Sound (relink h1 this cs [m] []) ∧ Children (relink h1 this cs [m] []) this (cs ++ [m]) ∧ NewCopy h (relink h1 this cs [m] []) m (.node n.data kids) ∧
      Untouched h (relink h1 this cs [m] []) this (fun _ => False) := by
    intro h1 m hcl
    obtain ⟨a1, a2, a3, a4, a5, a6, a7⟩ := h2 h1 m hcl
    obtain ⟨b1, b2, b3, b4, b5, b6, b7⟩ := insert_result (l := cs) (r := []) a1 a2 a3 a4 a5 a6 a7 hs (by simpa using hc)
    obtain ⟨mn, hmn, -⟩ := a4
    refine ⟨mn, hmn, ?_, ?_, b1, b2, b3, b4⟩
    · obtain ⟨mn', k', e1, -, e2⟩ := a5
      rw [hmn] at e1
      injection e1 with e1
      subst e1
      injection e2 with e2
      rwa [← e2]
    · exact linkEnd_eq (a6 this cs hc) hmn (by simpa using b5) b6 (by simpa using b7)
  constructor
  · obtain ⟨mn, hmn, hmk, hl, -⟩ := key h1 m hcl
    refine ⟨relink h1 this cs [m] [], some m, n, hn, ?_⟩
    rw [if_neg hkind]
    refine ⟨h1, m, hcl, mn, hmn, ?_⟩
    rw [if_neg hmk]
    exact ⟨hl, rfl⟩
  · rintro h' r ⟨n', hn', hh⟩
    rw [hn] at hn'
    injection hn' with hn'
    subst hn'
    rw [if_neg hkind] at hh
    obtain ⟨h3, m', hcl', mn', hmn', hh⟩ := hh
    obtain ⟨mn, hmn, hmk, hl, b1, b2, b3, b4⟩ := key h3 m' hcl'
    rw [hmn] at hmn'
    injection hmn' with hmn'
    subst hmn'
    rw [if_neg hmk, hl] at hh
    obtain ⟨e1, rfl⟩ := hh
    injection e1 with e1
    subst e1
    exact ⟨m', rfl, b1, b2, b3, b4⟩

/-- C100: `InsertBeforeChild` adds a copy of the tree before the given child. -/
theorem C100_insert_before {h : Heap} (hs : Sound h) {this b a : ℕ} {l r : List ℕ} {t : Tree} (hc : Children h this (l ++ b :: r)) (hsh : Shows h a t) (hp : Plain t) :
    (∃ h' p, InsertBeforeChild h this (some b) a h' p) ∧ ∀ h' p, InsertBeforeChild h this (some b) a h' p →
      ∃ m, p = some m ∧ Sound h' ∧ Children h' this (l ++ m :: b :: r) ∧ NewCopy h h' m t ∧ Untouched h h' this (fun _ => False) := by
  obtain ⟨n, kids, hn, hkind, rfl, hk, hd, hco, hpl⟩ := plain_parts hsh hp
  obtain ⟨⟨h1, m, hcl⟩, h2⟩ := clone_main hs hn hk hd hco hpl
  obtain ⟨bn, hbn, hbp⟩ := alive_of hc (c := b) (by simp)
  have key : ∀ h1 m, Clone h a h1 m → linkBefore h1 this b m = some (relink h1 this l [m] (b :: r)) ∧
      Sound (relink h1 this l [m] (b :: r)) ∧ Children (relink h1 this l [m] (b :: r)) this (l ++ m :: b :: r) ∧ NewCopy h (relink h1 this l [m] (b :: r)) m (.node n.data kids) ∧
      Untouched h (relink h1 this l [m] (b :: r)) this (fun _ => False) := by
    intro h1 m hcl
    obtain ⟨a1, a2, a3, a4, a5, a6, a7⟩ := h2 h1 m hcl
    obtain ⟨b1, b2, b3, b4, b5, b6, b7⟩ := insert_result a1 a2 a3 a4 a5 a6 a7 hs hc
    obtain ⟨mn, hmn, -⟩ := a4
    exact ⟨linkBefore_eq (a6 this _ hc) hmn b5 b6 b7, b1, b2, b3, b4⟩
  constructor
  · refine ⟨relink h1 this l [m] (b :: r), some m, bn, hbn, ?_⟩
    rw [if_neg (by simp [hbp])]
    refine ⟨n, hn, ?_⟩
    rw [if_neg hkind]
    exact ⟨h1, m, hcl, (key h1 m hcl).1, rfl⟩
  · rintro h' p ⟨bn', hbn', hh⟩
    rw [hbn] at hbn'
    injection hbn' with hbn'
    subst hbn'
    rw [if_neg (by simp [hbp])] at hh
    obtain ⟨n', hn', hh⟩ := hh
    rw [hn] at hn'
    injection hn' with hn'
    subst hn'
    rw [if_neg hkind] at hh
    obtain ⟨h3, m', hcl', e1, rfl⟩ := hh
    obtain ⟨hl, b1, b2, b3, b4⟩ := key h3 m' hcl'
    rw [hl] at e1
    injection e1 with e1
    subst e1
    exact ⟨m', rfl, b1, b2, b3, b4⟩

/-- C100: `InsertAfterChild` adds a copy of the tree behind the given child. -/
theorem C100_insert_after {h : Heap} (hs : Sound h) {this b a : ℕ} {l r : List ℕ} {t : Tree} (hc : Children h this (l ++ b :: r)) (hsh : Shows h a t) (hp : Plain t) :
    (∃ h' p, InsertAfterChild h this (some b) a h' p) ∧ ∀ h' p, InsertAfterChild h this (some b) a h' p →
      ∃ m, p = some m ∧ Sound h' ∧ Children h' this (l ++ b :: m :: r) ∧ NewCopy h h' m t ∧ Untouched h h' this (fun _ => False) := by
  obtain ⟨n, kids, hn, hkind, rfl, hk, hd, hco, hpl⟩ := plain_parts hsh hp
  obtain ⟨⟨h1, m, hcl⟩, h2⟩ := clone_main hs hn hk hd hco hpl
  obtain ⟨bn, hbn, hbp⟩ := alive_of hc (c := b) (by simp)
  have hc' : Children h this ((l ++ [b]) ++ r) := by simpa using hc
  have key : ∀ h1 m, Clone h a h1 m → linkAfter h1 this b m = some (relink h1 this (l ++ [b]) [m] r) ∧
      Sound (relink h1 this (l ++ [b]) [m] r) ∧ Children (relink h1 this (l ++ [b]) [m] r) this (l ++ b :: m :: r) ∧ NewCopy h (relink h1 this (l ++ [b]) [m] r) m (.node n.data kids) ∧
      Untouched h (relink h1 this (l ++ [b]) [m] r) this (fun _ => False) := by
    intro h1 m hcl
    obtain ⟨a1, a2, a3, a4, a5, a6, a7⟩ := h2 h1 m hcl
    obtain ⟨b1, b2, b3, b4, b5, b6, b7⟩ := insert_result a1 a2 a3 a4 a5 a6 a7 hs hc'
    obtain ⟨mn, hmn, -⟩ := a4
    exact ⟨linkAfter_eq (a6 this _ hc) hmn (by simpa using b5) b6 (by simpa using b7), b1, by simpa using b2, b3, b4⟩
  constructor
  · refine ⟨relink h1 this (l ++ [b]) [m] r, some m, bn, hbn, ?_⟩
    rw [if_neg (by simp [hbp])]
    refine ⟨n, hn, ?_⟩
    rw [if_neg hkind]
    exact ⟨h1, m, hcl, (key h1 m hcl).1, rfl⟩
  · rintro h' p ⟨bn', hbn', hh⟩
    rw [hbn] at hbn'
    injection hbn' with hbn'
    subst hbn'
    rw [if_neg (by simp [hbp])] at hh
    obtain ⟨n', hn', hh⟩ := hh
    rw [hn] at hn'
    injection hn' with hn'
    subst hn'
    rw [if_neg hkind] at hh
    obtain ⟨h3, m', hcl', e1, rfl⟩ := hh
    obtain ⟨hl, b1, b2, b3, b4⟩ := key h3 m' hcl'
    rw [hl] at e1
    injection e1 with e1
    subst e1
    exact ⟨m', rfl, b1, b2, b3, b4⟩

/-- C100: `RemoveChild` takes the child out of the list and destroys it with everything below it, and nothing else. -/
theorem C100_remove {h : Heap} (hs : Sound h) {this b : ℕ} {l r : List ℕ} (hc : Children h this (l ++ b :: r)) :
    (∃ h' ok, RemoveChild h this b h' ok) ∧ ∀ h' ok, RemoveChild h this b h' ok →
      ok = true ∧ Sound h' ∧ Children h' this (l ++ r) ∧ (∀ x, h' x = none ↔ h x = none ∨ Within h x b) ∧ Untouched h h' this (fun x => Within h x b) := by
  obtain ⟨bn, hbn, hbp⟩ := alive_of hc (c := b) (by simp)
  have ht := this_not_child hs hc
  obtain ⟨ids, hi, hdel⟩ := delete_eq hs hbn
  obtain ⟨s2, c2, ti, o2⟩ := sound_remove hs hc hi
  have hb : ChildOf h b this := ⟨bn, hbn, hbp⟩
  have hag : ∀ x ∈ ids, relink h this l [] r x = h x := by
    intro x hx
    have hw := (hi x).mp hx
    have apart : ∀ c ∈ l ++ r, x ≠ c := by
      rintro c hcm rfl
      have hxc : ChildOf h x this := alive_of hc (by simp only [List.mem_append, List.mem_cons] at hcm ⊢; tauto)
      have := siblings_apart hs hxc hb Relation.ReflTransGen.refl hw
      subst this
      obtain ⟨d1, d2, -⟩ := nodup_mid hc.2.1
      simp only [List.mem_append] at hcm
      tauto
    refine relink_same (by simp) (fun hh => apart x (by simp [hh]) rfl) (fun hh => apart x (by simp [hh]) rfl) ?_
    rintro rfl
    exact ti hx
  obtain ⟨d1, d2⟩ := hdel _ hag
  constructor
  · refine ⟨erase (relink h this l [] r) ids, true, bn, hbn, ?_⟩
    rw [if_neg (by simp [hbp])]
    exact ⟨_, unlink_eq hc ht, d1, rfl⟩
  · rintro h' ok ⟨bn', hbn', hh⟩
    rw [hbn] at hbn'
    injection hbn' with hbn'
    subst hbn'
    rw [if_neg (by simp [hbp])] at hh
    obtain ⟨h1, e1, e2, rfl⟩ := hh
    rw [unlink_eq hc ht] at e1
    injection e1 with e1
    subst e1
    have := d2 h' e2
    subst this
    refine ⟨rfl, s2, c2, ?_, ?_⟩
    · intro x
      unfold erase
      by_cases hx : x ∈ ids
      · simp [hx, (hi x).mp hx]
      · simp [hx, relink_none, ← hi]
    · intro x n hx hxw
      have hxi : x ∉ ids := fun hh => hxw ((hi x).mp hh)
      refine ⟨?_, fun hxt cs hcs => o2 x cs hxt hxi hcs⟩
      unfold erase
      rw [if_neg hxi]
      exact relink_parent hx (by simp)

/-- C100: `ReplaceChild` puts a copy of the tree in the place of the child, and destroys the child with everything below it. The tree may be the one replaced, or part of it. -/
theorem C100_replace {h : Heap} (hs : Sound h) {this b a : ℕ} {l r : List ℕ} {t : Tree} (hc : Children h this (l ++ b :: r)) (hsh : Shows h a t) (hp : Plain t) :
    (∃ h' p, ReplaceChild h this b a h' p) ∧ ∀ h' p, ReplaceChild h this b a h' p →
      ∃ m, p = some m ∧ Sound h' ∧ Children h' this (l ++ m :: r) ∧ NewCopy h h' m t ∧ (∀ x n, h x = some n → (h' x = none ↔ Within h x b)) ∧
        Untouched h h' this (fun x => Within h x b) := by
  obtain ⟨n, kids, hn, hkind, rfl, hk, hd, hco, hpl⟩ := plain_parts hsh hp
  obtain ⟨⟨h1, m, hcl⟩, h2⟩ := clone_main hs hn hk hd hco hpl
  obtain ⟨bn, hbn, hbp⟩ := alive_of hc (c := b) (by simp)
  have hb : ChildOf h b this := ⟨bn, hbn, hbp⟩
  have key : ∀ h1 m, Clone h a h1 m → ∃ (mn : Node) (ids : List ℕ), linkInstead h1 this b m = some (upd (relink h1 this l [m] r) m fun x => { x with parent := mn.parent }) ∧
      Delete (upd (relink h1 this l [m] r) m fun x => { x with parent := mn.parent }) b (erase (upd (relink h1 this l [m] r) m fun x => { x with parent := mn.parent }) ids) ∧
      (∀ h', Delete (upd (relink h1 this l [m] r) m fun x => { x with parent := mn.parent }) b h' → h' = erase (upd (relink h1 this l [m] r) m fun x => { x with parent := mn.parent }) ids) ∧
      (assign (erase (upd (relink h1 this l [m] r) m fun x => { x with parent := mn.parent }) ids) m fun x => { x with parent := some this }) = some (erase (relink h1 this l [m] r) ids) ∧
      Sound (erase (relink h1 this l [m] r) ids) ∧ Children (erase (relink h1 this l [m] r) ids) this (l ++ m :: r) ∧ NewCopy h (erase (relink h1 this l [m] r) ids) m (.node n.data kids) ∧
      (∀ x n, h x = some n → (erase (relink h1 this l [m] r) ids x = none ↔ Within h x b)) ∧
      Untouched h (erase (relink h1 this l [m] r) ids) this (fun x => Within h x b) := by
    intro h1 m hcl
    obtain ⟨a1, a2, a3, ⟨mn, hmn, hmp⟩, a5, a6, a7⟩ := h2 h1 m hcl
    have ne_m : ∀ x k, h x = some k → x ≠ m := by
      rintro x k hx rfl
      rw [a2] at hx
      cases hx
    have hc1 := a6 this _ hc
    have ht := this_not_child a1 hc1
    obtain ⟨tn, htn, -⟩ := hc.1
    have hmt : m ≠ this := Ne.symm (ne_m this tn htn)
    have hml : m ∉ l ++ b :: r := by
      intro hh
      obtain ⟨k, hk, -⟩ := alive_of hc hh
      rw [a2] at hk
      cases hk
    have hb1 : ChildOf h1 b this := ⟨bn, a3 b bn hbn, hbp⟩
    obtain ⟨ids, hi, hdel⟩ := delete_eq a1 (a3 b bn hbn)
    obtain ⟨s2, c2, ti, o2⟩ := sound_remove a1 hc1 hi
    have wup : ∀ x y, Within h x y → Within h1 x y := by
      intro x y hw
      refine Relation.ReflTransGen.mono ?_ _ _ hw
      rintro c p ⟨k, hk, hkp⟩
      exact ⟨k, a3 c k hk, hkp⟩
    have wdown : ∀ x k, h x = some k → ∀ y, Within h1 x y → Within h x y ∧ ∃ k', h y = some k' := by
      intro x k hx y hw
      induction hw with
      | refl => exact ⟨Relation.ReflTransGen.refl, k, hx⟩
      | tail _ hst ih =>
        obtain ⟨w, k', hk'⟩ := ih
        obtain ⟨u, hu, hup⟩ := hst
        rw [a3 _ k' hk'] at hu
        injection hu with hu
        subst hu
        obtain ⟨cs, hcs, -⟩ := hs.parents _ _ ⟨k', hk', hup⟩
        obtain ⟨v, hv, -⟩ := hcs.1
        exact ⟨w.tail ⟨k', hk', hup⟩, v, hv⟩
    have hmi : m ∉ ids := by
      intro hh
      have := root_within hmn hmp ((hi m).mp hh)
      subst this
      exact hml (by simp)
    have newids : ∀ x, h x = none → h1 x ≠ none → x ∉ ids := by
      intro x hx hx1 hxi
      have w1 := a7 x hx hx1
      have w2 := (hi x).mp hxi
      have hru : Relator.RightUnique (ChildOf h1) := fun a b c h1 h2 => parent_unique h1 h2
      rcases Relation.ReflTransGen.total_of_right_unique hru w1 w2 with w | w
      · exact hmi ((hi m).mpr w)
      · obtain ⟨-, k', hk'⟩ := wdown b bn hbn m w
        rw [a2] at hk'
        cases hk'
    have apart : ∀ x ∈ ids, x ∉ l ∧ x ∉ r := by
      intro x hx
      have hw := (hi x).mp hx
      have : ∀ c ∈ l ++ r, x ≠ c := by
        rintro c hcm rfl
        have hxc : ChildOf h1 x this := alive_of hc1 (by simp only [List.mem_append, List.mem_cons] at hcm ⊢; tauto)
        have := siblings_apart a1 hxc hb1 Relation.ReflTransGen.refl hw
        subst this
        obtain ⟨d1, d2, -⟩ := nodup_mid hc.2.1
        simp only [List.mem_append] at hcm
        tauto
      exact ⟨fun hh => this x (by simp [hh]) rfl, fun hh => this x (by simp [hh]) rfl⟩
    have hag : ∀ x ∈ ids, upd (relink h1 this l [m] r) m (fun x => { x with parent := mn.parent }) x = h1 x := by
      intro x hx
      have hxm : x ≠ m := by
        rintro rfl
        exact hmi hx
      rw [upd_ne _ hxm]
      refine relink_same (by simpa using hxm) (apart x hx).1 (apart x hx).2 ?_
      rintro rfl
      exact ti hx
    obtain ⟨d1, d2⟩ := hdel _ hag
    -- the same heap, by removing first
    have hsame : relink (erase (relink h1 this l [] r) ids) this l [m] r = erase (relink h1 this l [m] r) ids := by
      have hli : ∀ x, l.getLast? = some x → x ∉ ids := fun x e hx => (apart x hx).1 (List.mem_of_getLast? e)
      have hri : ∀ x, r.head? = some x → x ∉ ids := fun x e hx => (apart x hx).2 (List.mem_of_mem_head? e)
      have hm' := hml
      simp only [List.mem_append, List.mem_cons, not_or] at hm'
      have hml' : l.getLast? ≠ some m := fun e => hm'.1 (List.mem_of_getLast? e)
      have hmr' : r.head? ≠ some m := fun e => hm'.2.2 (List.mem_of_mem_head? e)
      funext x
      unfold relink erase
      by_cases hxi : x ∈ ids
      · simp [hxi]
      · by_cases hxt : x = this
        · subst hxt
          cases hh1 : h1 x <;> simp [hh1, hxi]
        · by_cases hxm : x = m
          · subst hxm
            simp [hxi, hxt, hml', hmr']
          · by_cases hxl : l.getLast? = some x
            · cases hh1 : h1 x <;> simp [hh1, hxi, hxt, hxm, hxl]
            · by_cases hxr : r.head? = some x
              · cases hh1 : h1 x <;> simp [hh1, hxi, hxt, hxm, hxl, hxr]
              · simp [hxi, hxt, hxm, hxl, hxr]
    have hm2 : erase (relink h1 this l [] r) ids m = some mn := by
      unfold erase
      simp only [List.mem_append, List.mem_cons, not_or] at hml
      rw [if_neg hmi, relink_same (by simp) hml.1 hml.2.2 hmt, hmn]
    have hback : ∀ c p, ChildOf (erase (relink h1 this l [] r) ids) c p → ChildOf h1 c p := by
      rintro c p ⟨k, hk, hkp⟩
      unfold erase at hk
      by_cases hci : c ∈ ids
      · simp [hci] at hk
      · rw [if_neg hci] at hk
        cases e : h1 c with
        | none => rw [relink_none.mpr e] at hk; cases hk
        | some k0 =>
          obtain ⟨k1, e1, -, e2⟩ := relink_parent (this := this) (l := l) (mid := []) (r := r) e (by simp)
          rw [hk] at e1
          injection e1 with e1
          subst e1
          exact ⟨k0, e, by rw [← e2, hkp]⟩
    have hw2 : ¬ Within (erase (relink h1 this l [] r) ids) this m := by
      intro hh
      have hh1 : Within h1 this m := Relation.ReflTransGen.mono hback _ _ hh
      obtain ⟨-, k', hk'⟩ := wdown this tn htn m hh1
      rw [a2] at hk'
      cases hk'
    obtain ⟨s3, c3, o3⟩ := sound_insert s2 c2 hm2 hmp hw2
    rw [hsame] at s3 c3 o3
    have old : ∀ x k, h x = some k → x ∉ ids → ∃ k', erase (relink h1 this l [m] r) ids x = some k' ∧ k'.data = k.data ∧ k'.parent = k.parent := by
      intro x k hx hxi
      unfold erase
      rw [if_neg hxi]
      exact relink_parent (a3 x k hx) (by simpa using ne_m x k hx)
    refine ⟨mn, ids, linkInstead_eq hc1 hmn hml hmt ht, d1, d2, ?_, s3, c3, ⟨a2, ?_, ?_⟩, ?_, ?_⟩
    · have e0 : relink h1 this l [m] r m = some { mn with parent := some this, prev := l.getLast?, next := r.head? } := relink_mid hmn hmt
      have e1 : erase (upd (relink h1 this l [m] r) m fun x => { x with parent := mn.parent }) ids m = some { mn with prev := l.getLast?, next := r.head? } := by
        unfold erase
        rw [if_neg hmi, upd_same e0]
      rw [assign_eq e1]
      congr 1
      funext x
      by_cases hxm : x = m
      · subst hxm
        rw [upd_same e1]
        unfold erase
        rw [if_neg hmi, e0]
      · rw [upd_ne _ hxm]
        unfold erase
        by_cases hxi : x ∈ ids
        · rw [if_pos hxi, if_pos hxi]
        · rw [if_neg hxi, if_neg hxi, upd_ne _ hxm]
    · refine shows_transfer (fun x => Within h1 x m ∧ ∃ k, h1 x = some k) ?_ a5 ⟨Relation.ReflTransGen.refl, mn, hmn⟩
      rintro x ⟨hxw, k, hk⟩
      have hxo : h x = none := by
        cases e : h x with
        | none => rfl
        | some k' =>
          obtain ⟨-, v, hv⟩ := wdown x k' e m hxw
          rw [a2] at hv
          cases hv
      have hxi : x ∉ ids := newids x hxo (by rw [hk]; simp)
      have hxt : x ≠ this := by
        rintro rfl
        rw [hxo] at htn
        cases htn
      obtain ⟨cs, hcs⟩ := a1.lists x k hk
      obtain ⟨k', e1, e2⟩ := relink_data (this := this) (l := l) (mid := [m]) (r := r) hk
      refine ⟨k, k', cs, hk, ?_, e2.symm, hcs, o3 x cs hxt (o2 x cs hxt hxi hcs), ?_⟩
      · unfold erase
        rw [if_neg hxi, e1]
      · intro c hcm
        obtain ⟨u, hu, hup⟩ := alive_of hcs hcm
        exact ⟨Relation.ReflTransGen.head ⟨u, hu, hup⟩ hxw, u, hu⟩
    · intro x hx hx'
      have hx1 : h1 x ≠ none := by
        intro e
        apply hx'
        unfold erase
        rw [relink_none.mpr e]
        simp
      have hw1 := a7 x hx hx1
      -- all nodes on the way are new
      have : ∀ y, Within h1 x y → Within h1 y m → Within (erase (relink h1 this l [m] r) ids) x y := by
        intro y hxy
        induction hxy with
        | refl => exact fun _ => Relation.ReflTransGen.refl
        | tail _ hst ih =>
          rename_i y z _
          intro hzm
          have hym : Within h1 y m := Relation.ReflTransGen.head hst hzm
          refine (ih hym).tail ?_
          obtain ⟨u, hu, hup⟩ := hst
          have hyo : h y = none := by
            cases e : h y with
            | none => rfl
            | some k' =>
              obtain ⟨-, v, hv⟩ := wdown y k' e m hym
              rw [a2] at hv
              cases hv
          have hyi : y ∉ ids := newids y hyo (by rw [hu]; simp)
          have hynm : y ≠ m := by
            rintro rfl
            rw [hmn] at hu
            injection hu with hu
            subst hu
            rw [hmp] at hup
            cases hup
          obtain ⟨u', f1, -, f3⟩ := relink_parent (this := this) (l := l) (mid := [m]) (r := r) hu (by simpa using hynm)
          refine ⟨u', ?_, by rw [f3, hup]⟩
          unfold erase
          rw [if_neg hyi, f1]
      exact this m hw1 Relation.ReflTransGen.refl
    · intro x k hx
      constructor
      · intro hxn
        by_contra hxw
        have hxi : x ∉ ids := fun hh => hxw (wdown x k hx b ((hi x).mp hh)).1
        obtain ⟨k', e, -⟩ := old x k hx hxi
        rw [hxn] at e
        cases e
      · intro hw
        unfold erase
        rw [if_pos ((hi x).mpr (wup x b hw))]
    · intro x k hx hxw
      have hxi : x ∉ ids := fun hh => hxw (wdown x k hx b ((hi x).mp hh)).1
      refine ⟨old x k hx hxi, fun hxt cs hcs => ?_⟩
      exact o3 x cs hxt (o2 x cs hxt hxi (a6 x cs hcs))
  constructor
  · obtain ⟨mn, ids, k1, k2, k3, k4, -⟩ := key h1 m hcl
    refine ⟨erase (relink h1 this l [m] r) ids, some m, bn, hbn, ?_⟩
    rw [if_neg (by simp [hbp])]
    exact ⟨h1, m, _, _, hcl, k1, k2, k4, rfl⟩
  · rintro h' p ⟨bn', hbn', hh⟩
    rw [hbn] at hbn'
    injection hbn' with hbn'
    subst hbn'
    rw [if_neg (by simp [hbp])] at hh
    obtain ⟨g1, m', g2, g3, hcl', e1, e2, e3, rfl⟩ := hh
    obtain ⟨mn, ids, k1, k2, k3, k4, k5⟩ := key g1 m' hcl'
    rw [k1] at e1
    injection e1 with e1
    subst e1
    have := k3 g3 e2
    subst this
    rw [k4] at e3
    injection e3 with e3
    subst e3
    exact ⟨m', rfl, k5⟩

/-- C100: `LinkEndChild` makes a tree of its own (not a document, and not one that contains `this`) the last child, without a copy. -/
theorem C100_link {h : Heap} (hs : Sound h) {this m : ℕ} {cs : List ℕ} {n : Node} (hc : Children h this cs) (hm : h m = some n) (hr : n.parent = none) (hk : n.data.kind ≠ .document)
    (hw : ¬ Within h this m) :
    (∃ h' r, LinkEndChild h this m h' r) ∧ ∀ h' r, LinkEndChild h this m h' r →
      r = some m ∧ Sound h' ∧ Children h' this (cs ++ [m]) ∧ (∀ x, h' x = none ↔ h x = none) ∧ (∀ t, Shows h m t → Shows h' m t) ∧ Untouched h h' this (fun x => x = m) := by
  have hmt : m ≠ this := by
    rintro rfl
    exact hw Relation.ReflTransGen.refl
  have hml : m ∉ cs := by
    intro hh
    obtain ⟨k, hk, hkp⟩ := alive_of hc hh
    rw [hm] at hk
    injection hk with hk
    subst hk
    rw [hr] at hkp
    cases hkp
  have hl := linkEnd_eq hc hm hml hmt (this_not_child hs hc)
  obtain ⟨s2, c2, o2⟩ := sound_insert hs (l := cs) (r := []) (by simpa using hc) hm hr hw
  constructor
  · refine ⟨relink h this cs [m] [], some m, n, hm, ?_⟩
    rw [if_neg hk]
    exact ⟨hl, rfl⟩
  · rintro h' r ⟨n', hn', hh⟩
    rw [hm] at hn'
    injection hn' with hn'
    subst hn'
    rw [if_neg hk, hl] at hh
    obtain ⟨e1, rfl⟩ := hh
    injection e1 with e1
    subst e1
    refine ⟨rfl, s2, c2, fun x => relink_none, fun t ht => shows_insert hs hw (fun x k hx => relink_data hx) o2 ht, ?_⟩
    intro x k hx hxm
    exact ⟨relink_parent hx (by simpa using hxm), fun hxt ks hks => o2 x ks hxt hks⟩

/-- C100: what is refused leaves everything as it was: places that are not children of `this`, and documents. -/
theorem C100_refused {h : Heap} {this b a : ℕ} {bn an : Node} (hb : h b = some bn) (ha : h a = some an) :
    (bn.parent ≠ some this → (∀ h' r, InsertBeforeChild h this (some b) a h' r ↔ h' = h ∧ r = none) ∧ (∀ h' r, InsertAfterChild h this (some b) a h' r ↔ h' = h ∧ r = none) ∧
      (∀ h' r, ReplaceChild h this b a h' r ↔ h' = h ∧ r = none) ∧ (∀ h' ok, RemoveChild h this b h' ok ↔ h' = h ∧ ok = false)) ∧
    (an.data.kind = .document → (∀ h' r, InsertEndChild h this a h' r ↔ h' = h ∧ r = none) ∧ (∀ h' r, InsertBeforeChild h this (some b) a h' r ↔ h' = h ∧ r = none) ∧
      (∀ h' r, InsertAfterChild h this (some b) a h' r ↔ h' = h ∧ r = none)) := by
  constructor
  · intro hp
    refine ⟨fun h' r => ?_, fun h' r => ?_, fun h' r => ?_, fun h' ok => ?_⟩
    · simp [InsertBeforeChild, hb, hp]
    · simp [InsertAfterChild, hb, hp]
    · simp [ReplaceChild, hb, hp]
    · simp [RemoveChild, hb, hp]
  · intro hk
    refine ⟨fun h' r => ?_, fun h' r => ?_, fun h' r => ?_⟩
    · simp [InsertEndChild, ha, hk]
    · by_cases hp : bn.parent = some this <;> simp [InsertBeforeChild, hb, ha, hk, hp]
    · by_cases hp : bn.parent = some this <;> simp [InsertAfterChild, hb, ha, hk, hp]

/-! ## Finding children -/

lemma search_forward {h : Heap} {p : ℕ} {test : Node → Bool} {P : ℕ → Bool} (hP : ∀ c n, h c = some n → P c = test n) {cs : List ℕ} : ∀ l, Children h p (l ++ cs) →
    ∀ r, Search h Node.next test cs.head? r ↔ r = cs.find? P := by
  induction cs with
  | nil =>
    intro l _ r
    constructor
    · rintro ⟨⟩
      rfl
    · rintro rfl
      exact Search.stop
  | cons c cs ih =>
    intro l hc r
    obtain ⟨n, hn, -, -, hx⟩ := hc.2.2 l c cs rfl
    have ih' := ih (l ++ [c]) (by simpa using hc)
    rw [List.find?_cons, hP c n hn]
    cases ht : test n with
    | true =>
      constructor
      · intro hh
        cases hh with
        | found _ m hm _ => rfl
        | further _ m _ hm hf _ =>
          rw [hn] at hm
          injection hm with hm
          subst hm
          rw [ht] at hf
          cases hf
      · rintro rfl
        exact Search.found c n hn ht
    | false =>
      constructor
      · intro hh
        cases hh with
        | found _ m hm hf =>
          rw [hn] at hm
          injection hm with hm
          subst hm
          rw [ht] at hf
          cases hf
        | further _ m _ hm hf hr =>
          rw [hn] at hm
          injection hm with hm
          subst hm
          rw [hx] at hr
          exact (ih' r).mp hr
      · intro hr
        exact Search.further c n r hn ht (hx ▸ (ih' r).mpr hr)

lemma search_backward {h : Heap} {p : ℕ} {test : Node → Bool} {P : ℕ → Bool} (hP : ∀ c n, h c = some n → P c = test n) {cs : List ℕ} : ∀ l, Children h p (cs.reverse ++ l) →
    ∀ r, Search h Node.prev test cs.head? r ↔ r = cs.find? P := by
  induction cs with
  | nil =>
    intro l _ r
    constructor
    · rintro ⟨⟩
      rfl
    · rintro rfl
      exact Search.stop
  | cons c cs ih =>
    intro l hc r
    obtain ⟨n, hn, -, hx, -⟩ := hc.2.2 cs.reverse c l (by simp)
    rw [List.getLast?_reverse] at hx
    have ih' := ih (c :: l) (by simpa using hc)
    rw [List.find?_cons, hP c n hn]
    cases ht : test n with
    | true =>
      constructor
      · intro hh
        cases hh with
        | found _ m hm _ => rfl
        | further _ m _ hm hf _ =>
          rw [hn] at hm
          injection hm with hm
          subst hm
          rw [ht] at hf
          cases hf
      · rintro rfl
        exact Search.found c n hn ht
    | false =>
      constructor
      · intro hh
        cases hh with
        | found _ m hm hf =>
          rw [hn] at hm
          injection hm with hm
          subst hm
          rw [ht] at hf
          cases hf
        | further _ m _ hm hf hr =>
          rw [hn] at hm
          injection hm with hm
          subst hm
          rw [hx] at hr
          exact (ih' r).mp hr
      · intro hr
        exact Search.further c n r hn ht (hx ▸ (ih' r).mpr hr)

lemma valued_eq {h : Heap} (v : Text) : ∀ c n, h c = some n → valued h v c = hasValue v n := by
  intro c n hc
  simp [valued, hc, hasValue]

lemma element_eq {h : Heap} : ∀ c n, h c = some n → isElement h c = toElement n := by
  intro c n hc
  simp [isElement, hc, toElement]

lemma element_search {h : Heap} {p : ℕ} {v : Text} {cs : List ℕ} : ∀ l, Children h p (l ++ cs) →
    ∀ r, (∃ b, Search h Node.next (hasValue v) cs.head? b ∧ ElementSearch h v b r) ↔ r = cs.find? fun c => valued h v c && isElement h c := by
  induction cs with
  | nil =>
    intro l _ r
    constructor
    · rintro ⟨b, ⟨⟩, ⟨⟩⟩
      rfl
    · rintro rfl
      exact ⟨none, Search.stop, ElementSearch.stop⟩
  | cons c cs ih =>
    intro l hc r
    obtain ⟨n, hn, -, -, hx⟩ := hc.2.2 l c cs rfl
    have ih' := ih (l ++ [c]) (by simpa using hc) r
    have fw := search_forward (valued_eq v) l hc
    have fw' := search_forward (valued_eq v) (l ++ [c]) (cs := cs) (by simpa using hc)
    rw [List.find?_cons]
    have e1 := valued_eq v c n hn
    have e2 := element_eq c n hn
    cases hv : valued h v c with
    | false =>
      simp only [Bool.false_and]
      rw [← ih']
      refine exists_congr fun b => and_congr_left fun _ => ?_
      rw [fw, fw', List.find?_cons, hv]
    | true =>
      simp only [Bool.true_and]
      have : ∀ b, Search h Node.next (hasValue v) (c :: cs).head? b ↔ b = some c := by
        intro b
        rw [fw, List.find?_cons, hv]
      cases he : isElement h c with
      | true =>
        constructor
        · rintro ⟨b, h1, h2⟩
          rw [this] at h1
          subst h1
          cases h2 with
          | found _ _ _ _ => rfl
          | further _ m _ _ hm hf _ _ =>
            rw [hn] at hm
            injection hm with hm
            subst hm
            rw [← e2, he] at hf
            cases hf
        · rintro rfl
          exact ⟨some c, (this _).mpr rfl, ElementSearch.found c n hn (by rw [← e2, he])⟩
      | false =>
        rw [← ih']
        constructor
        · rintro ⟨b, h1, h2⟩
          rw [this] at h1
          subst h1
          cases h2 with
          | found _ m hm hf =>
            rw [hn] at hm
            injection hm with hm
            subst hm
            rw [← e2, he] at hf
            cases hf
          | further _ m b _ hm hf hs hr =>
            rw [hn] at hm
            injection hm with hm
            subst hm
            exact ⟨b, hx ▸ hs, hr⟩
        · rintro ⟨b, h1, h2⟩
          exact ⟨some c, (this _).mpr rfl, ElementSearch.further c n b r hn (by rw [← e2, he]) (hx ▸ h1) h2⟩

/-- C100: `FirstChild`, `LastChild`, `NextSibling` and `PreviousSibling` with a value, and the functions for elements, end and find the first that fits, in the order of the children. -/
theorem C100_find {h : Heap} {p : ℕ} {n : Node} {cs : List ℕ} (hn : h p = some n) (hc : Children h p cs) (v : Text) :
    (∀ r, Search h Node.next (hasValue v) n.firstChild r ↔ r = cs.find? (valued h v)) ∧
    (∀ r, Search h Node.prev (hasValue v) n.lastChild r ↔ r = cs.reverse.find? (valued h v)) ∧
    (∀ r, Search h Node.next toElement n.firstChild r ↔ r = cs.find? (isElement h)) ∧
    (∀ r, (∃ b, Search h Node.next (hasValue v) n.firstChild b ∧ ElementSearch h v b r) ↔ r = cs.find? fun c => valued h v c && isElement h c) ∧
    ∀ l c k, cs = l ++ c :: k → ∃ m, h c = some m ∧
      (∀ r, Search h Node.next (hasValue v) m.next r ↔ r = k.find? (valued h v)) ∧
      (∀ r, Search h Node.prev (hasValue v) m.prev r ↔ r = l.reverse.find? (valued h v)) ∧
      (∀ r, Search h Node.next toElement m.next r ↔ r = k.find? (isElement h)) ∧
      (∀ r, (∃ b, Search h Node.next (hasValue v) m.next b ∧ ElementSearch h v b r) ↔ r = k.find? fun c => valued h v c && isElement h c) := by
  obtain ⟨n', hn', hf, hl⟩ := hc.1
  rw [hn] at hn'
  injection hn' with hn'
  subst hn'
  rw [hf, hl, ← List.head?_reverse]
  refine ⟨search_forward (valued_eq v) [] hc, search_backward (valued_eq v) (cs := cs.reverse) [] (by simpa using hc), search_forward element_eq [] hc, element_search [] hc, ?_⟩
  intro l c k e
  obtain ⟨m, hm, -, hq, hx⟩ := hc.2.2 l c k e
  refine ⟨m, hm, ?_⟩
  rw [hq, hx, ← List.head?_reverse]
  refine ⟨search_forward (valued_eq v) (l ++ [c]) (by rw [e] at hc; simpa using hc), search_backward (valued_eq v) (cs := l.reverse) (c :: k) (by rw [e] at hc; simpa using hc),
    search_forward element_eq (l ++ [c]) (by rw [e] at hc; simpa using hc), element_search (l ++ [c]) (by rw [e] at hc; simpa using hc)⟩

/-! ## Histories -/

lemma sound_set {h : Heap} (hs : Sound h) {a : ℕ} {n : Node} (ha : h a = some n) (d : Data) : Sound (Function.update h a (some { n with data := d })) := by
  have fw : ∀ x k, h x = some k → ∃ k', Function.update h a (some { n with data := d }) x = some k' ∧ k'.parent = k.parent ∧ k'.firstChild = k.firstChild ∧ k'.lastChild = k.lastChild ∧
      k'.prev = k.prev ∧ k'.next = k.next := by
    intro x k hx
    by_cases hxa : x = a
    · subst hxa
      rw [ha] at hx
      injection hx with hx
      subst hx
      exact ⟨{ n with data := d }, by simp, rfl, rfl, rfl, rfl, rfl⟩
    · exact ⟨k, by rw [Function.update_of_ne hxa, hx], rfl, rfl, rfl, rfl, rfl⟩
  have bw : ∀ x k', Function.update h a (some { n with data := d }) x = some k' → ∃ k, h x = some k ∧ k'.parent = k.parent ∧ k'.prev = k.prev ∧ k'.next = k.next := by
    intro x k' hx
    by_cases hxa : x = a
    · subst hxa
      simp only [Function.update_self, Option.some.injEq] at hx
      subst hx
      exact ⟨n, ha, rfl, rfl, rfl⟩
    · rw [Function.update_of_ne hxa] at hx
      exact ⟨k', hx, rfl, rfl, rfl⟩
  have ch : ∀ q cs, Children h q cs → Children (Function.update h a (some { n with data := d })) q cs := by
    intro q cs hc
    obtain ⟨t, ht, hf, hl⟩ := hc.1
    obtain ⟨t', ht', -, e1, e2, -⟩ := fw q t ht
    refine ⟨⟨t', ht', by rw [e1, hf], by rw [e2, hl]⟩, hc.2.1, ?_⟩
    intro l c r e
    obtain ⟨m, hm, m1, m2, m3⟩ := hc.2.2 l c r e
    obtain ⟨m', hm', f1, -, -, f2, f3⟩ := fw c m hm
    exact ⟨m', hm', by rw [f1, m1], by rw [f2, m2], by rw [f3, m3]⟩
  have cb : ∀ c p, ChildOf (Function.update h a (some { n with data := d })) c p → ChildOf h c p := by
    rintro c p ⟨k', hk', hp⟩
    obtain ⟨k, hk, e, -⟩ := bw c k' hk'
    exact ⟨k, hk, by rw [← e, hp]⟩
  refine ⟨?_, ?_, ?_, ?_, ?_⟩
  · obtain ⟨b, hb⟩ := hs.finite
    refine ⟨b, fun x hx => ?_⟩
    have hxa : x ≠ a := by
      rintro rfl
      rw [hb x hx] at ha
      cases ha
    rw [Function.update_of_ne hxa, hb x hx]
  · intro p k' hp
    obtain ⟨k, hk, -⟩ := bw p k' hp
    obtain ⟨cs, hc⟩ := hs.lists p k hk
    exact ⟨cs, ch p cs hc⟩
  · intro c p hcp
    obtain ⟨cs, hc, hm⟩ := hs.parents c p (cb c p hcp)
    exact ⟨cs, ch p cs hc, hm⟩
  · intro c k' hc hp
    obtain ⟨k, hk, e1, e2, e3⟩ := bw c k' hc
    have := hs.roots c k hk (by rw [← e1, hp])
    exact ⟨by rw [e2, this.1], by rw [e3, this.2]⟩
  · exact Subrelation.wf (fun {a b} hh => cb a b hh) hs.acyclic

/-- C100: destroying a tree of its own takes away exactly its nodes. -/
theorem C100_delete {h : Heap} (hs : Sound h) {b : ℕ} {n : Node} (hb : h b = some n) (hr : n.parent = none) :
    (∃ h', Delete h b h') ∧ ∀ h', Delete h b h' → Sound h' ∧ (∀ x, Within h x b → h' x = none) ∧ ∀ x, ¬ Within h x b → h' x = h x := by
  obtain ⟨ids, hi, hdel⟩ := delete_eq hs hb
  obtain ⟨d1, d2⟩ := hdel h (fun _ _ => rfl)
  refine ⟨⟨_, d1⟩, fun h' hd => ?_⟩
  have := d2 h' hd
  subst this
  have bw : ∀ x k, erase h ids x = some k → x ∉ ids ∧ h x = some k := by
    intro x k hx
    unfold erase at hx
    by_cases hxi : x ∈ ids
    · simp [hxi] at hx
    · exact ⟨hxi, by rwa [if_neg hxi] at hx⟩
  have down : ∀ c p, ChildOf h c p → c ∈ ids → p ∈ ids := by
    intro c p hcp hci
    rcases Relation.ReflTransGen.cases_head ((hi c).mp hci) with e | ⟨q, h1, h2⟩
    · subst e
      obtain ⟨k, hk, hkp⟩ := hcp
      rw [hb] at hk
      injection hk with hk
      subst hk
      rw [hr] at hkp
      cases hkp
    · have := parent_unique hcp h1
      subst this
      exact (hi p).mpr h2
  have ch : ∀ q cs, q ∉ ids → Children h q cs → Children (erase h ids) q cs := by
    intro q cs hq hc
    exact erase_children hc hq (fun c hcm hci => hq (down c q (alive_of hc hcm) hci))
  have cb : ∀ c p, ChildOf (erase h ids) c p → ChildOf h c p ∧ c ∉ ids := by
    rintro c p ⟨k, hk, hp⟩
    obtain ⟨h1, h2⟩ := bw c k hk
    exact ⟨⟨k, h2, hp⟩, h1⟩
  refine ⟨⟨?_, ?_, ?_, ?_, ?_⟩, ?_, ?_⟩
  · obtain ⟨bd, hbd⟩ := hs.finite
    refine ⟨bd, fun x hx => ?_⟩
    unfold erase
    rw [hbd x hx]
    simp
  · intro p k hp
    obtain ⟨h1, h2⟩ := bw p k hp
    obtain ⟨cs, hc⟩ := hs.lists p k h2
    exact ⟨cs, ch p cs h1 hc⟩
  · intro c p hcp
    obtain ⟨h1, h2⟩ := cb c p hcp
    obtain ⟨cs, hc, hm⟩ := hs.parents c p h1
    exact ⟨cs, ch p cs (fun hpi => h2 ((hi c).mpr (Relation.ReflTransGen.head h1 ((hi p).mp hpi)))) hc, hm⟩
  · intro c k hc hp
    exact hs.roots c k (bw c k hc).2 hp
  · exact Subrelation.wf (fun {a b} hh => (cb a b hh).1) hs.acyclic
  · intro x hx
    unfold erase
    rw [if_pos ((hi x).mpr hx)]
  · intro x hx
    unfold erase
    rw [if_neg (fun hh => hx ((hi x).mp hh))]

lemma sound_empty : Sound (fun _ => none) := by
  refine ⟨⟨0, fun _ _ => rfl⟩, ?_, ?_, ?_, ?_⟩
  · intro p n hp
    cases hp
  · rintro c p ⟨n, hn, -⟩
    cases hn
  · intro c n hn
    cases hn
  · exact ⟨fun a => ⟨a, fun b hb => by obtain ⟨n, hn, -⟩ := hb; cases hn⟩⟩

lemma split_child {h : Heap} (hs : Sound h) {b this : ℕ} {bn : Node} (hb : h b = some bn) (hp : bn.parent = some this) : ∃ l r, Children h this (l ++ b :: r) := by
  obtain ⟨cs, hc, hm⟩ := hs.parents b this ⟨bn, hb, hp⟩
  obtain ⟨l, r, rfl⟩ := List.append_of_mem hm
  exact ⟨l, r, hc⟩

lemma step_sound {h h' : Heap} (hst : Step h h') (hs : Sound h) : Sound h' := by
  cases hst with
  | create m d hm => exact (sound_alloc hs hm d).1
  | set a n d ha => exact sound_set hs ha d
  | insertEnd _ this a t r ht hsh hp hi =>
    obtain ⟨tn, htn⟩ := Option.ne_none_iff_exists'.mp ht
    obtain ⟨cs, hc⟩ := hs.lists this tn htn
    obtain ⟨m, -, s, -⟩ := (C100_insert_end hs hc hsh hp).2 h' r hi
    exact s
  | insertBefore _ this a b t r ht hsh hp hi =>
    cases b with
    | none =>
      obtain ⟨rfl, -⟩ := hi
      exact hs
    | some b =>
      have hi' := hi
      obtain ⟨bn, hb, hh⟩ := hi
      by_cases hbp : bn.parent = some this
      · obtain ⟨l, k, hc⟩ := split_child hs hb hbp
        obtain ⟨m, -, s, -⟩ := (C100_insert_before hs hc hsh hp).2 h' r hi'
        exact s
      · rw [if_pos hbp] at hh
        rw [hh.1]
        exact hs
  | insertAfter _ this a b t r ht hsh hp hi =>
    cases b with
    | none =>
      obtain ⟨rfl, -⟩ := hi
      exact hs
    | some b =>
      have hi' := hi
      obtain ⟨bn, hb, hh⟩ := hi
      by_cases hbp : bn.parent = some this
      · obtain ⟨l, k, hc⟩ := split_child hs hb hbp
        obtain ⟨m, -, s, -⟩ := (C100_insert_after hs hc hsh hp).2 h' r hi'
        exact s
      · rw [if_pos hbp] at hh
        rw [hh.1]
        exact hs
  | replace _ this a b t r ht hsh hp hi =>
    have hi' := hi
    obtain ⟨bn, hb, hh⟩ := hi
    by_cases hbp : bn.parent = some this
    · obtain ⟨l, k, hc⟩ := split_child hs hb hbp
      obtain ⟨m, -, s, -⟩ := (C100_replace hs hc hsh hp).2 h' r hi'
      exact s
    · rw [if_pos hbp] at hh
      rw [hh.1]
      exact hs
  | remove _ this b ok ht hi =>
    have hi' := hi
    obtain ⟨bn, hb, hh⟩ := hi
    by_cases hbp : bn.parent = some this
    · obtain ⟨l, k, hc⟩ := split_child hs hb hbp
      exact ((C100_remove hs hc).2 h' ok hi').2.1
    · rw [if_pos hbp] at hh
      rw [hh.1]
      exact hs
  | link _ this m n r ht hm hr hw hi =>
    obtain ⟨tn, htn⟩ := Option.ne_none_iff_exists'.mp ht
    obtain ⟨cs, hc⟩ := hs.lists this tn htn
    by_cases hk : n.data.kind = .document
    · obtain ⟨n', hn', hh⟩ := hi
      rw [hm] at hn'
      injection hn' with hn'
      subst hn'
      rw [if_pos hk] at hh
      exact ((C100_delete hs hm hr).2 h' hh.1).1
    · exact ((C100_link hs hc hm hr hk hw).2 h' r hi).2.1
  | delete _ a n ha hr hd => exact ((C100_delete hs ha hr).2 h' hd).1

/-- C100: whatever a program does with trees, step by step, all pointers fit together. -/
theorem C100_history {h : Heap} (hr : Relation.ReflTransGen Step (fun _ => none) h) : Sound h := by
  induction hr with
  | refl => exact sound_empty
  | tail _ hst ih => exact step_sound hst ih

/-! ## Examples, and what does not hold -/

def elementNode (name : String) : Data := ⟨.element, name.toList, []⟩

/-- An element 0 with two children 1 and 2, and an element 3 of its own with an attribute. -/
def sample : Heap := fun x => match x with
  | 0 => some ⟨elementNode "poses", none, some 1, some 2, none, none⟩
  | 1 => some ⟨elementNode "first", some 0, none, none, none, some 2⟩
  | 2 => some ⟨elementNode "second", some 0, none, none, some 1, none⟩
  | 3 => some ⟨⟨.element, "third".toList, [("id".toList, "7".toList)]⟩, none, none, none, none, none⟩
  | _ => none

lemma sample_children : Children sample 0 [1, 2] := by
  refine ⟨⟨_, rfl, rfl, rfl⟩, by decide, ?_⟩
  intro l c r e
  rcases l with _ | ⟨a, _ | ⟨b, l⟩⟩
  · simp only [List.nil_append, List.cons.injEq] at e
    obtain ⟨rfl, rfl⟩ := e
    exact ⟨_, rfl, rfl, rfl, rfl⟩
  · simp only [List.cons_append, List.nil_append, List.cons.injEq] at e
    obtain ⟨rfl, rfl, rfl⟩ := e
    exact ⟨_, rfl, rfl, rfl, rfl⟩
  · simp at e

lemma sample_leaf {a : ℕ} (ha : a = 1 ∨ a = 2 ∨ a = 3) : Children sample a [] := by
  refine ⟨?_, by simp, by intro l c r e; simp at e⟩
  rcases ha with rfl | rfl | rfl <;> exact ⟨_, rfl, rfl, rfl⟩

lemma sample_alive {x : ℕ} {n : Node} (hx : sample x = some n) : x = 0 ∨ x = 1 ∨ x = 2 ∨ x = 3 := by
  rcases x with _ | _ | _ | _ | x
  · exact Or.inl rfl
  · exact Or.inr (Or.inl rfl)
  · exact Or.inr (Or.inr (Or.inl rfl))
  · exact Or.inr (Or.inr (Or.inr rfl))
  · cases hx

lemma sample_child {c p : ℕ} (hc : ChildOf sample c p) : (c = 1 ∨ c = 2) ∧ p = 0 := by
  obtain ⟨n, hn, hp⟩ := hc
  rcases sample_alive hn with rfl | rfl | rfl | rfl <;> (injection hn with hn; subst hn; simp at hp)
  · exact ⟨Or.inl rfl, hp.symm⟩
  · exact ⟨Or.inr rfl, hp.symm⟩

lemma sample_sound : Sound sample := by
  refine ⟨⟨4, ?_⟩, ?_, ?_, ?_, ?_⟩
  · intro a ha
    cases e : sample a with
    | none => rfl
    | some n => rcases sample_alive e with rfl | rfl | rfl | rfl <;> omega
  · intro p n hp
    rcases sample_alive hp with rfl | rfl | rfl | rfl
    · exact ⟨_, sample_children⟩
    · exact ⟨_, sample_leaf (Or.inl rfl)⟩
    · exact ⟨_, sample_leaf (Or.inr (Or.inl rfl))⟩
    · exact ⟨_, sample_leaf (Or.inr (Or.inr rfl))⟩
  · intro c p hc
    obtain ⟨h1, rfl⟩ := sample_child hc
    exact ⟨_, sample_children, by rcases h1 with rfl | rfl <;> simp⟩
  · intro c n hn hp
    rcases sample_alive hn with rfl | rfl | rfl | rfl <;> (injection hn with hn; subst hn; simp at hp ⊢)
  · have leaf : ∀ c p, ChildOf sample c p → Acc (ChildOf sample) c := by
      intro c p hc
      refine ⟨c, fun b hb => ?_⟩
      obtain ⟨h1, -⟩ := sample_child hc
      obtain ⟨-, h2⟩ := sample_child hb
      rcases h1 with rfl | rfl <;> omega
    exact ⟨fun a => ⟨a, fun b hb => leaf b a hb⟩⟩

lemma sample_third : Shows sample 3 (.node ⟨.element, "third".toList, [("id".toList, "7".toList)]⟩ []) := ⟨_, [], rfl, ShowsChain.nil, rfl⟩

lemma third_plain : Plain (.node ⟨.element, "third".toList, [("id".toList, "7".toList)]⟩ []) := by
  refine Plain.node _ _ (by decide) (fun h => absurd rfl h) (by simp) ?_ (by simp)
  simp

/-- The hypotheses of the theorems are met by an element with two children and a tree to insert. -/
example : Sound sample ∧ Children sample 0 ([1] ++ 2 :: []) ∧ Shows sample 3 (.node ⟨.element, "third".toList, [("id".toList, "7".toList)]⟩ []) ∧
    Plain (.node ⟨.element, "third".toList, [("id".toList, "7".toList)]⟩ []) ∧ (∃ n, sample 3 = some n ∧ n.parent = none ∧ n.data.kind ≠ .document) ∧ ¬ Within sample 0 3 :=
  ⟨sample_sound, sample_children, sample_third, third_plain, ⟨_, rfl, rfl, by decide⟩, fun hh => by cases root_within (t := 0) (h := sample) rfl rfl hh⟩

/-- So the third element can be inserted between the two. -/
example : ∃ h' m, InsertAfterChild sample 0 (some 1) 3 h' (some m) ∧ Children h' 0 [1, m, 2] := by
  obtain ⟨⟨h', p, hi⟩, h2⟩ := C100_insert_after sample_sound (l := []) (r := [2]) sample_children sample_third third_plain
  obtain ⟨m, rfl, -, hc, -⟩ := h2 h' p hi
  exact ⟨h', m, hi, hc⟩

/-- And histories are not empty: a node is made, another, and linked. -/
example : ∃ h, Relation.ReflTransGen Step (fun _ => none) h ∧ Children h 0 [1] := by
  obtain ⟨s1, c1, o1⟩ := sound_alloc sound_empty (m := 0) rfl (elementNode "a")
  obtain ⟨s2, c2, o2⟩ := sound_alloc s1 (m := 1) (by simp) (elementNode "b")
  have hw : ¬ Within (Function.update (Function.update (fun _ => none) 0 (some (newNode (elementNode "a")))) 1 (some (newNode (elementNode "b")))) 0 1 := by
    intro hh
    have := root_within (t := 0) (n := newNode (elementNode "a")) (by simp) rfl hh
    cases this
  obtain ⟨⟨h', r, hl⟩, h2⟩ := C100_link s2 (o2 0 [] c1) (m := 1) (n := newNode (elementNode "b")) (by simp) rfl (by decide) hw
  refine ⟨h', ?_, (h2 h' r hl).2.2.1⟩
  refine ((Relation.ReflTransGen.single (Step.create _ 0 (elementNode "a") rfl)).tail (Step.create _ 1 (elementNode "b") (by simp))).tail ?_
  exact Step.link _ h' 0 1 (newNode (elementNode "b")) r (by simp) (by simp) rfl hw hl

/-- Linking a node again to its parent passes the assertion `node->parent == 0 || node->parent == this`, but the node becomes its own successor: going through the children does not end. -/
theorem C100_link_again_refuted : ∃ h' n r, (∃ m, sample 2 = some m ∧ m.parent = some 0) ∧ LinkEndChild sample 0 2 h' r ∧ h' 2 = some n ∧ n.next = some 2 ∧
    (∀ cs, ¬ Children h' 0 cs) := by
  refine ⟨(linkEnd sample 0 2).get rfl, ⟨elementNode "second", some 0, none, none, some 2, some 2⟩, some 2, ⟨_, rfl, rfl⟩, ⟨_, rfl, ?_⟩, ?_, rfl, ?_⟩
  · rw [if_neg (by decide)]
    exact ⟨(Option.some_get _).symm, rfl⟩
  · rfl
  · intro cs hc
    obtain ⟨n, hn, hf, hl⟩ := hc.1
    have hl' : some 2 = cs.getLast? := by
      rw [← hl]
      injection hn with hn
      rw [← hn]
    have hm : 2 ∈ cs := List.mem_of_getLast? hl'.symm
    obtain ⟨l, r, rfl⟩ := List.append_of_mem hm
    obtain ⟨k, hk, -, -, hx⟩ := hc.2.2 l 2 r rfl
    have hk' : k.next = some 2 := by
      injection hk with hk
      rw [← hk]
    rw [hk'] at hx
    have h2r : 2 ∈ r := List.mem_of_mem_head? hx.symm
    exact (nodup_mid hc.2.1).2.1 h2r

/-- Linking a tree below itself passes the assertions as well, and gives a node that is below itself. -/
theorem C100_link_below_refuted : ∃ h' r, (∃ m, sample 0 = some m ∧ m.parent = none) ∧ LinkEndChild sample 1 0 h' r ∧ ChildOf h' 0 1 ∧ ChildOf h' 1 0 := by
  refine ⟨(linkEnd sample 1 0).get rfl, some 0, ⟨_, rfl, rfl⟩, ⟨_, rfl, ?_⟩, ?_, ?_⟩
  · rw [if_neg (by decide)]
    exact ⟨(Option.some_get _).symm, rfl⟩
  · exact ⟨_, rfl, rfl⟩
  · exact ⟨_, rfl, rfl⟩

/-- `sample` with a document instead of the element 3. -/
def sampleDocument : Heap := Function.update sample 3 (some ⟨⟨.document, [], []⟩, none, none, none, none, none⟩)

/-- The copy of the document, and the copy in the place of the child. -/
def replaced1 : Heap := Function.update sampleDocument 4 (some (newNode ⟨.document, [], []⟩))
def replaced2 : Heap := (linkInstead replaced1 0 1 4).get rfl
def replaced3 : Heap := Function.update replaced2 1 none

/-- `ReplaceChild` puts documents into elements, which all other functions refuse. -/
theorem C100_document_refuted : ∃ h' m n, ReplaceChild sampleDocument 0 1 3 h' (some m) ∧ h' m = some n ∧ n.parent = some 0 ∧ n.data.kind = .document ∧
    (∀ g r, InsertBeforeChild sampleDocument 0 (some 1) 3 g r → r = none) := by
  refine ⟨(assign replaced3 4 fun x => { x with parent := some 0 }).get rfl, 4, ⟨⟨.document, [], []⟩, some 0, none, none, none, some 2⟩, ⟨_, rfl, ?_⟩, ?_, rfl, rfl, ?_⟩
  · rw [if_neg (by decide)]
    exact ⟨replaced1, 4, replaced2, replaced3, ⟨_, rfl, rfl, CloneChain.nil _ _⟩, (Option.some_get _).symm,
      ⟨_, _, replaced2, rfl, FreeChain.nil _, rfl, rfl⟩, (Option.some_get _).symm, rfl⟩
  · rfl
  · intro g r hh
    exact ((((C100_refused (h := sampleDocument) (this := 0) (b := 1) (a := 3) rfl rfl).2 rfl).2.1 g r).mp hh).2

end Ubitrack.Props.XmlEdit
