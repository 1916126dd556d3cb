import Verif.Spec.XmlHandle
import Verif.Props.XmlEdit

/-!
# C109: handles of XML nodes
-/

namespace Ubitrack.XmlHandleProps

open XmlEdit XmlHandle Spec.Dom Spec.Handles Props.XmlEdit

lemma find_true (l : List ℕ) : l.find? (fun _ => true) = l.head? := by
  cases l <;> rfl

lemma first_iff {h : Heap} {p : ℕ} {n : Node} {cs : List ℕ} (hn : h p = some n) (hc : Children h p cs) (nav : Nav) (r : Option ℕ) :
    From h nav n.firstChild r ↔ r = cs.find? (about h nav) := by
  cases nav with
  | any =>
    obtain ⟨n', hn', hf, -⟩ := hc.1
    rw [hn] at hn'
    injection hn' with hn'
    subst hn'
    show r = n.firstChild ↔ r = cs.find? (fun _ => true)
    rw [find_true, hf]
  | value v => exact (C100_find hn hc v).1 r
  | element => exact (C100_find hn hc []).2.2.1 r
  | elementValue v => exact (C100_find hn hc v).2.2.2.1 r

lemma next_iff {h : Heap} {p : ℕ} {n : Node} {cs : List ℕ} (hn : h p = some n) (hc : Children h p cs) (nav : Nav) (l : List ℕ) (c : ℕ) (k : List ℕ)
    (hcs : cs = l ++ c :: k) : ∃ m, h c = some m ∧ ∀ r, From h nav m.next r ↔ r = k.find? (about h nav) := by
  obtain ⟨m, hm, -, -, hx⟩ := hc.2.2 l c k hcs
  refine ⟨m, hm, ?_⟩
  intro r
  have use : ∀ v, _ := fun v => (C100_find hn hc v).2.2.2.2 l c k hcs
  cases nav with
  | any =>
    show r = m.next ↔ r = k.find? (fun _ => true)
    rw [find_true, hx]
  | value v =>
    obtain ⟨m', hm', h1, -⟩ := use v
    rw [hm] at hm'
    injection hm' with hm'
    subst hm'
    exact h1 r
  | element =>
    obtain ⟨m', hm', -, -, h1, -⟩ := use []
    rw [hm] at hm'
    injection hm' with hm'
    subst hm'
    exact h1 r
  | elementValue v =>
    obtain ⟨m', hm', -, -, -, h1⟩ := use v
    rw [hm] at hm'
    injection hm' with hm'
    subst hm'
    exact h1 r

lemma loop_iff {h : Heap} {p : ℕ} {n : Node} {cs : List ℕ} (hn : h p = some n) (hc : Children h p cs) (nav : Nav) (j : ℕ) :
    ∀ (l k : List ℕ) (r : Option ℕ), cs = l ++ k → (Loop h nav (k.find? (about h nav)) j r ↔ r = (k.filter (about h nav))[j]?) := by
  induction j with
  | zero =>
    intro l k r hcs
    rw [← List.head?_eq_getElem?, List.head?_filter]
    cases hf : k.find? (about h nav) with
    | none =>
      constructor
      · intro hl; cases hl; rfl
      · rintro rfl; exact .stop 0
    | some a =>
      constructor
      · intro hl; cases hl; rfl
      · rintro rfl; exact .done a
  | succ j ih =>
    intro l k r hcs
    cases hf : k.find? (about h nav) with
    | none =>
      have : k.filter (about h nav) = [] := by
        rw [List.filter_eq_nil_iff]
        rw [List.find?_eq_none] at hf
        exact hf
      rw [this]
      constructor
      · intro hl; cases hl; rfl
      · rintro rfl; exact .stop _
    | some a =>
      obtain ⟨ha, as, bs, hk, has⟩ := List.find?_eq_some_iff_append.mp hf
      have hfil : k.filter (about h nav) = a :: bs.filter (about h nav) := by
        have : as.filter (about h nav) = [] := by
          rw [List.filter_eq_nil_iff]
          intro x hx
          simpa using has x hx
        rw [hk, List.filter_append, this, List.nil_append, List.filter_cons_of_pos ha]
      obtain ⟨m, hm, hnext⟩ := next_iff hn hc nav (l ++ as) a bs (by rw [hcs, hk, List.append_assoc])
      have hrec := ih (l ++ as ++ [a]) bs r (by rw [hcs, hk]; simp)
      rw [hfil, List.getElem?_cons_succ, ← hrec]
      constructor
      · intro hl
        cases hl with
        | further _ n' b _ _ h1 h2 h3 =>
          rw [hm] at h1
          injection h1 with h1
          subst h1
          rw [← (hnext b).mp h2]
          exact h3
      · intro hl
        exact .further a m _ j r hm ((hnext _).mpr rfl) hl

/-- **C109**: `Child` and `ChildElement` of a handle lead to the child of the given index among those with the given value or kind, in their order,
and to null if there are not so many; `FirstChild` and `FirstChildElement` to the first of them. -/
theorem C109_child {h : Heap} {p : ℕ} {cs : List ℕ} (hc : Children h p cs) (nav : Nav) (count : ℤ) (r : Option ℕ) :
    (Child h nav count (some p) r ↔ r = (cs.filter (about h nav))[count.toNat]?) ∧
      (FirstChild h nav (some p) r ↔ r = (cs.filter (about h nav)).head?) := by
  obtain ⟨n, hn, -, -⟩ := hc.1
  constructor
  · have hl := loop_iff hn hc nav count.toNat [] cs r rfl
    rw [← hl]
    constructor
    · rintro ⟨n', b, h1, h2, h3⟩
      rw [hn] at h1
      injection h1 with h1
      subst h1
      rw [← (first_iff hn hc nav b).mp h2]
      exact h3
    · intro hlo
      exact ⟨n, _, hn, (first_iff hn hc nav _).mpr rfl, hlo⟩
  · rw [List.head?_filter, ← first_iff hn hc nav r]
    constructor
    · rintro ⟨n', h1, h2⟩
      rw [hn] at h1
      injection h1 with h1
      subst h1
      exact h2
    · intro h1
      exact ⟨n, hn, h1⟩

lemma calls_leads {h : Heap} (hs : Sound h) (path : List (Nav × Option ℤ)) : ∀ (node r : Option ℕ), (∀ p, node = some p → h p ≠ none) →
    (Calls h path node r ↔ Leads h path node r) := by
  induction path with
  | nil =>
    intro node r _
    constructor
    · intro hc; cases hc; exact .nil _
    · intro hc; cases hc; exact .nil _
  | cons x rest ih =>
    intro node r hnode
    obtain ⟨nav, index⟩ := x
    cases node with
    | none =>
      have hrest : ∀ path : List (Nav × Option ℤ), Leads h path none none := by
        intro path
        cases path with
        | nil => exact .nil _
        | cons x path => exact .null x path
      constructor
      · intro hc
        cases hc with
        | first _ _ _ b _ h1 h2 =>
          cases h1
          rw [ih none r (by simp)] at h2
          have : r = none := by cases h2 <;> rfl
          subst this
          exact hrest _
        | child _ _ _ _ b _ h1 h2 =>
          cases h1
          rw [ih none r (by simp)] at h2
          have : r = none := by cases h2 <;> rfl
          subst this
          exact hrest _
      · intro hc
        cases hc
        have h2 := (ih none none (by simp)).mpr (hrest rest)
        cases index with
        | none => exact .first _ _ _ none _ rfl h2
        | some i => exact .child _ _ _ _ none _ rfl h2
    | some p =>
      obtain ⟨n, hn⟩ := Option.ne_none_iff_exists'.mp (hnode p rfl)
      obtain ⟨cs, hc⟩ := hs.lists p n hn
      have halive : ∀ (j : ℕ) (q : ℕ), (cs.filter (about h nav))[j]? = some q → h q ≠ none := by
        intro j q hq
        have hmem : q ∈ cs := List.mem_of_mem_filter (List.mem_of_getElem? hq)
        obtain ⟨l, k, hlk⟩ := List.append_of_mem hmem
        obtain ⟨m, hm, -⟩ := hc.2.2 l q k hlk
        rw [hm]
        simp
      have huniq : ∀ cs', Children h p cs' → cs' = cs := by
        intro cs' hc'
        exact children_unique hc' hc
      have hfirst := fun b => (C109_child hc nav 0 b).2
      constructor
      · intro hcalls
        cases hcalls with
        | first _ _ _ b _ h1 h2 =>
          rw [hfirst b] at h1
          rw [List.head?_eq_getElem?] at h1
          subst h1
          exact .cons nav none rest p cs r hc ((ih _ r (fun q hq => halive _ q hq)).mp h2)
        | child _ count _ _ b _ h1 h2 =>
          rw [(C109_child hc nav count b).1] at h1
          subst h1
          exact .cons nav (some count) rest p cs r hc ((ih _ r (fun q hq => halive _ q hq)).mp h2)
      · intro hl
        cases hl with
        | cons _ _ _ _ cs' _ hc' h2 =>
          obtain rfl := huniq cs' hc'
          have h3 := (ih _ r (fun q hq => halive _ q hq)).mpr h2
          cases index with
          | none => exact .first _ _ _ _ _ ((hfirst _).mpr (List.head?_eq_getElem? ..).symm) h3
          | some i => exact .child _ _ _ _ _ _ ((C109_child hc nav i _).1.mpr rfl) h3

/-- **C109**: in any tree, a row of calls on a handle, whether or not the nodes exist, has exactly one result, that given by the lists of children; a null handle
stays null. -/
theorem C109_calls {h : Heap} (hs : Sound h) (path : List (Nav × Option ℤ)) (node : Option ℕ) (hnode : ∀ p, node = some p → h p ≠ none) :
    (∃! r, Calls h path node r) ∧ (∀ r, Calls h path node r ↔ Leads h path node r) ∧ (node = none → Calls h path node none) := by
  have hall : ∀ node : Option ℕ, (∀ p, node = some p → h p ≠ none) → ∃ r, Leads h path node r := by
    induction path with
    | nil => exact fun node _ => ⟨node, .nil _⟩
    | cons x rest ih =>
      intro node hnode
      cases node with
      | none => exact ⟨none, .null _ _⟩
      | some p =>
        obtain ⟨n, hn⟩ := Option.ne_none_iff_exists'.mp (hnode p rfl)
        obtain ⟨cs, hc⟩ := hs.lists p n hn
        obtain ⟨r, hr⟩ := ih ((cs.filter (about h x.1))[(x.2.getD 0).toNat]?) (by
          intro q hq
          have hmem : q ∈ cs := List.mem_of_mem_filter (List.mem_of_getElem? hq)
          obtain ⟨l, k, hlk⟩ := List.append_of_mem hmem
          obtain ⟨m, hm, -⟩ := hc.2.2 l q k hlk
          rw [hm]
          simp)
        exact ⟨r, .cons x.1 x.2 rest p cs r hc hr⟩
  have huni : ∀ (node r r' : Option ℕ), Leads h path node r → Leads h path node r' → r = r' := by
    clear hnode hall
    induction path with
    | nil => intro node r r' h1 h2; cases h1; cases h2; rfl
    | cons x rest ih =>
      intro node r r' h1 h2
      cases h1 with
      | null => cases h2; rfl
      | cons nav index _ p cs _ hc h3 =>
        cases h2 with
        | cons _ _ _ _ cs' _ hc' h4 =>
          obtain rfl := children_unique hc' hc
          exact ih _ _ _ h3 h4
  obtain ⟨r, hr⟩ := hall node hnode
  refine ⟨⟨r, (calls_leads hs path node r hnode).mpr hr, ?_⟩, fun r => calls_leads hs path node r hnode, ?_⟩
  · intro r' hr'
    exact huni node r' r ((calls_leads hs path node r' hnode).mp hr') hr
  · rintro rfl
    rw [calls_leads hs path none none (by simp)]
    cases path with
    | nil => exact .nil _
    | cons x path => exact .null x path

/-- **C109**, refuted: a negative index is not an index beyond the children, it leads to the first one. -/
theorem C109_negative_refuted {h : Heap} {p c : ℕ} {cs : List ℕ} (hc : Children h p (c :: cs)) (count : ℤ) (hn : count < 0) :
    Child h .any count (some p) (some c) := by
  rw [(C109_child hc .any count (some c)).1]
  have : count.toNat = 0 := by omega
  rw [this]
  rfl

/-- **C109**: the handle leads to an element exactly if its node is one. -/
theorem C109_element {h : Heap} (p : ℕ) (hp : h p ≠ none) (r : Option ℕ) :
    (ToElement h (some p) r ↔ r = if isElement h p then some p else none) ∧ (ToElement h none r ↔ r = none) := by
  obtain ⟨n, hn⟩ := Option.ne_none_iff_exists'.mp hp
  refine ⟨?_, Iff.rfl⟩
  unfold ToElement isElement XmlEdit.toElement
  simp only [hn]
  constructor
  · rintro ⟨n', h1, h2⟩
    injection h1 with h1
    subst h1
    exact h2
  · intro h2
    exact ⟨n, rfl, h2⟩

/-- In a tree with two children, the second element has index 1, there is no third, and no element called `third` among the children. -/
example : Sound sample ∧ Calls sample [(.element, some 1)] (some 0) (some 2) ∧ Calls sample [(.any, some 2), (.any, none)] (some 0) none ∧
    Calls sample [(.value "third".toList, none)] (some 0) none := by
  have hn : ∀ p, some 0 = some p → sample p ≠ none := by
    intro p hp
    injection hp with hp
    subst hp
    simp [sample]
  refine ⟨sample_sound, ?_, ?_, ?_⟩
  · exact ((C109_calls sample_sound _ _ hn).2.1 _).mpr (.cons _ _ _ _ _ _ sample_children (.nil _))
  · exact ((C109_calls sample_sound _ _ hn).2.1 _).mpr (.cons _ _ _ _ _ _ sample_children (.null _ _))
  · exact ((C109_calls sample_sound _ _ hn).2.1 _).mpr (.cons _ _ _ _ _ _ sample_children (.nil _))

end Ubitrack.XmlHandleProps
