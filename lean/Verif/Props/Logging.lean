import Verif.Model.Logging
import Verif.Spec.Logging

/-!
# C90: which log messages reach which appenders
-/

namespace Ubitrack.Logging

open Ubitrack.Spec

/-! ## Names -/

lemma parentName_append (p last : Name) (h : '.' ∉ last) : parentName (p ++ '.' :: last) = p := by
  unfold parentName
  have h1 : (p ++ '.' :: last).reverse = last.reverse ++ '.' :: p.reverse := by simp
  rw [h1]
  have h2 : (last.reverse ++ '.' :: p.reverse).dropWhile (fun c => decide (c ≠ '.')) = '.' :: p.reverse := by
    rw [List.dropWhile_append_of_pos]
    · simp
    · intro a ha
      simp only [List.mem_reverse] at ha
      simp only [ne_eq, decide_not, Bool.not_eq_eq_eq_not, Bool.not_true, decide_eq_false_iff_not]
      rintro rfl
      exact h ha
  rw [h2]
  simp

lemma parentName_noDot (name : Name) (h : '.' ∉ name) : parentName name = [] := by
  unfold parentName
  have : name.reverse.dropWhile (fun c => decide (c ≠ '.')) = [] := by
    have hall : ∀ l : Name, '.' ∉ l → l.dropWhile (fun c => decide (c ≠ '.')) = [] := by
      intro l
      induction l with
      | nil => intro _; rfl
      | cons a l ih =>
        intro hl
        simp only [List.mem_cons, not_or] at hl
        rw [List.dropWhile_cons, if_pos (by simpa using fun e => hl.1 e.symm)]
        exact ih hl.2
    exact hall _ (by simpa using h)
  rw [this]
  rfl

lemma exists_last_dot (name : Name) (h : '.' ∈ name) : ∃ p last, name = p ++ '.' :: last ∧ '.' ∉ last := by
  induction name with
  | nil => cases h
  | cons a l ih =>
    by_cases hl : '.' ∈ l
    · obtain ⟨p, last, h1, h2⟩ := ih hl
      exact ⟨a :: p, last, by rw [h1]; rfl, h2⟩
    · have : a = '.' := by
        rcases List.mem_cons.mp h with h1 | h1
        · exact h1.symm
        · exact absurd h1 hl
      exact ⟨[], l, by rw [this]; rfl, hl⟩

lemma isAbove_iff (p name : Name) (h : name ≠ []) : IsAbove p name ↔ p = parentName name := by
  by_cases hd : '.' ∈ name
  · obtain ⟨q, last, rfl, hlast⟩ := exists_last_dot name hd
    rw [parentName_append q last hlast]
    constructor
    · rintro (⟨last', h1, h2⟩ | ⟨_, h1, _⟩)
      · have := parentName_append p last' h2
        rw [← h1, parentName_append q last hlast] at this
        exact this.symm
      · exact absurd hd h1
    · rintro rfl
      exact Or.inl ⟨last, rfl, hlast⟩
  · rw [parentName_noDot name hd]
    constructor
    · rintro (⟨last', h1, -⟩ | ⟨h1, -⟩)
      · exact absurd (by rw [h1]; simp) hd
      · exact h1
    · rintro rfl
      exact Or.inr ⟨rfl, hd, h⟩

lemma isAbove_ne_nil {p name : Name} (h : IsAbove p name) : name ≠ [] := by
  rcases h with ⟨last, rfl, -⟩ | ⟨-, -, h⟩
  · simp
  · exact h

/-! ## Well-formed heaps -/

structure Wf (h : Heap) : Prop where
  map_lt : ∀ n i, h.map n = some i → i < h.size ∧ (h.cat i).name = n
  map_name : ∀ i < h.size, h.map (h.cat i).name = some i
  par_none : ∀ i < h.size, (h.cat i).parent = none → (h.cat i).name = []
  par_some : ∀ i < h.size, ∀ p, (h.cat i).parent = some p →
    p < i ∧ (h.cat p).name = parentName (h.cat i).name ∧ (h.cat i).name ≠ []
  kids : ∀ i < h.size, ∀ j, j ∈ (h.cat i).children ↔ j < h.size ∧ (h.cat j).parent = some i
  nodup : ∀ i < h.size, (h.cat i).appenders.Nodup

structure Good (h : Heap) : Prop extends Wf h where
  prio_le : ∀ i < h.size, (h.cat i).priority ≤ NOTSET
  root : ∀ i < h.size, (h.cat i).parent = none → (h.cat i).priority < NOTSET
  cons : ∀ i < h.size, ∀ p, (h.cat i).parent = some p → (h.cat i).priority = NOTSET → (h.cat i).chained = (h.cat p).chained
  own : ∀ i < h.size, (h.cat i).priority < NOTSET → (h.cat i).chained = (h.cat i).priority

/-- The objects represent what has been set. -/
def Sem (h : Heap) (c : LogConfig) : Prop := ∀ name,
  match h.map name with
  | some i => c.priority name = (if (h.cat i).priority < NOTSET then some (h.cat i).priority else none) ∧
      c.additive name = (h.cat i).additive ∧ c.appenders name = (h.cat i).appenders.toFinset
  | none => c.priority name = (if name = [] then some INFO else none) ∧ c.additive name = true ∧ c.appenders name = ∅

lemma Sem.some {h : Heap} {c : LogConfig} (hs : Sem h c) {name : Name} {i : ℕ} (hi : h.map name = some i) :
    c.priority name = (if (h.cat i).priority < NOTSET then some (h.cat i).priority else none) ∧
      c.additive name = (h.cat i).additive ∧ c.appenders name = (h.cat i).appenders.toFinset := by
  have := hs name
  rw [hi] at this
  exact this

lemma Sem.none {h : Heap} {c : LogConfig} (hs : Sem h c) {name : Name} (hi : h.map name = none) :
    c.priority name = (if name = [] then Option.some INFO else Option.none) ∧ c.additive name = true ∧ c.appenders name = ∅ := by
  have := hs name
  rw [hi] at this
  exact this

lemma good_empty : Good Heap.empty where
  map_lt := by intro n i h; cases h
  map_name := by intro i h; cases h
  par_none := by intro i h; cases h
  par_some := by intro i h; cases h
  kids := by intro i h; cases h
  nodup := by intro i h; cases h
  prio_le := by intro i h; cases h
  root := by intro i h; cases h
  cons := by intro i h; cases h
  own := by intro i h; cases h

lemma sem_empty : Sem Heap.empty .init := fun _ => ⟨rfl, rfl, rfl⟩

/-! ## Creation -/

/-- The category object `j` after `create`, for `j` among the old ones: only the list of children of the parent changes. -/
lemma create_old (h : Heap) (name : Name) (parent : Option ℕ) (v : ℤ) (j : ℕ) (hj : j < h.size) :
    ((create h name parent v).1.cat j) = { h.cat j with
      children := if parent = some j then (h.cat j).children ++ [h.size] else (h.cat j).children } := by
  unfold create Heap.modify
  rcases parent with _ | p
  · simp only
    rw [Function.update_of_ne (by omega)]
    simp
  · simp only
    rw [Function.update_of_ne (by omega)]
    by_cases hjp : j = p
    · subst hjp
      rw [Function.update_self]
      simp
    · rw [Function.update_of_ne hjp, if_neg (by simpa using fun e => hjp e.symm)]

lemma create_new (h : Heap) (name : Name) (parent : Option ℕ) (v : ℤ) :
    ((create h name parent v).1.cat h.size) = ⟨name, parent, v, (match parent with
      | some p => if v = NOTSET then (h.cat p).chained else v
      | none => v), true, [], []⟩ := by
  unfold create
  simp only
  rw [Function.update_self]
  rcases parent with _ | p <;> rfl

lemma create_map (h : Heap) (name : Name) (parent : Option ℕ) (v : ℤ) (n : Name) :
    (create h name parent v).1.map n = if n = name then some h.size else h.map n := by
  unfold create Heap.modify
  rcases parent with _ | p <;> simp [Function.update_apply]

lemma create_size (h : Heap) (name : Name) (parent : Option ℕ) (v : ℤ) :
    (create h name parent v).1.size = h.size + 1 ∧ (create h name parent v).2 = h.size := ⟨rfl, rfl⟩

lemma create_good (h : Heap) (name : Name) (parent : Option ℕ) (v : ℤ) (hg : Good h) (hn : h.map name = none)
    (hp : (parent = none ∧ name = [] ∧ v = INFO) ∨
      ∃ p, parent = some p ∧ p < h.size ∧ (h.cat p).name = parentName name ∧ name ≠ [] ∧ v = NOTSET) :
    Good (create h name parent v).1 := by
  have hsz := (create_size h name parent v).1
  have old := create_old h name parent v
  have new := create_new h name parent v
  have hmap := create_map h name parent v
  have hlt : ∀ i, i < (create h name parent v).1.size → i < h.size ∨ i = h.size := by
    intro i hi; rw [hsz] at hi; omega
  have hpar : ∀ p, parent = some p → p < h.size := by
    intro p hpp
    rcases hp with ⟨h1, -⟩ | ⟨q, h1, h2, -⟩
    · rw [h1] at hpp; cases hpp
    · rw [h1] at hpp; cases hpp; exact h2
  have hne : ∀ i < h.size, (h.cat i).name ≠ name := by
    intro i hi he
    have := hg.map_name i hi
    rw [he, hn] at this
    cases this
  refine ⟨⟨?_, ?_, ?_, ?_, ?_, ?_⟩, ?_, ?_, ?_, ?_⟩
  · intro n i hni
    rw [hmap] at hni
    split at hni
    · rename_i he
      cases hni
      rw [hsz, new]
      exact ⟨by omega, he.symm⟩
    · obtain ⟨h1, h2⟩ := hg.map_lt n i hni
      rw [hsz, old i h1]
      exact ⟨by omega, h2⟩
  · intro i hi
    rcases hlt i hi with h1 | rfl
    · rw [old i h1, hmap, if_neg (hne i h1)]
      exact hg.map_name i h1
    · rw [new, hmap, if_pos rfl]
  · intro i hi
    rcases hlt i hi with h1 | rfl
    · rw [old i h1]; exact hg.par_none i h1
    · rw [new]
      intro he
      rcases hp with ⟨-, h2, -⟩ | ⟨q, h2, -⟩
      · exact h2
      · simp only at he; rw [h2] at he; cases he
  · intro i hi p hpi
    rcases hlt i hi with h1 | rfl
    · rw [old i h1] at hpi ⊢
      obtain ⟨g1, g2, g3⟩ := hg.par_some i h1 p hpi
      rw [old p (by omega)]
      exact ⟨g1, g2, g3⟩
    · rw [new] at hpi ⊢
      simp only at hpi
      rcases hp with ⟨h2, -⟩ | ⟨q, h2, h3, h4, h5, -⟩
      · rw [h2] at hpi; cases hpi
      · rw [h2] at hpi; cases hpi
        rw [old p h3]
        exact ⟨h3, h4, h5⟩
  · intro i hi j
    rw [hsz]
    rcases hlt i hi with h1 | rfl
    · rw [old i h1]
      simp only
      have hk := hg.kids i h1 j
      rcases Nat.lt_trichotomy j h.size with h2 | rfl | h2
      · rw [old j h2]
        simp only
        split
        · rw [List.mem_append, hk, List.mem_singleton]
          constructor
          · rintro (⟨g1, g2⟩ | g1)
            · exact ⟨by omega, g2⟩
            · omega
          · rintro ⟨g1, g2⟩; exact Or.inl ⟨h2, g2⟩
        · rw [hk]
          constructor
          · rintro ⟨g1, g2⟩; exact ⟨by omega, g2⟩
          · rintro ⟨g1, g2⟩; exact ⟨h2, g2⟩
      · rw [new]
        simp only
        have hnk : h.size ∉ (h.cat i).children := by rw [hk]; omega
        split
        · rename_i he
          simp [he]
        · rename_i he
          simp [he, hnk]
      · have hnk : j ∉ (h.cat i).children := by rw [hk]; omega
        split
        · rw [List.mem_append, List.mem_singleton]
          constructor
          · rintro (g1 | g1)
            · exact absurd g1 hnk
            · omega
          · rintro ⟨g1, -⟩; omega
        · constructor
          · intro g1; exact absurd g1 hnk
          · rintro ⟨g1, -⟩; omega
    · rw [new]
      simp only [List.not_mem_nil, false_iff, not_and]
      intro hj he
      rcases hlt j (by rw [hsz]; exact hj) with h1 | rfl
      · rw [old j h1] at he
        have := (hg.par_some j h1 _ he).1
        omega
      · rw [new] at he
        have := hpar _ he
        omega
  · intro i hi
    rcases hlt i hi with h1 | rfl
    · rw [old i h1]; exact hg.nodup i h1
    · rw [new]; exact List.nodup_nil
  · intro i hi
    rcases hlt i hi with h1 | rfl
    · rw [old i h1]; exact hg.prio_le i h1
    · rw [new]
      rcases hp with ⟨-, -, rfl⟩ | ⟨q, -, -, -, -, rfl⟩ <;> simp [INFO, NOTSET]
  · intro i hi
    rcases hlt i hi with h1 | rfl
    · rw [old i h1]; exact hg.root i h1
    · rw [new]
      intro he
      rcases hp with ⟨-, -, rfl⟩ | ⟨q, h2, -⟩
      · simp [INFO, NOTSET]
      · simp only at he; rw [h2] at he; cases he
  · intro i hi p hpi hni
    rcases hlt i hi with h1 | rfl
    · rw [old i h1] at hpi hni ⊢
      rw [old p (by have := (hg.par_some i h1 p hpi).1; omega)]
      exact hg.cons i h1 p hpi hni
    · rw [new] at hpi hni ⊢
      simp only at hpi hni ⊢
      rw [old p (hpar p hpi), hpi]
      simp only
      rw [if_pos hni]
  · intro i hi hlt'
    rcases hlt i hi with h1 | rfl
    · rw [old i h1] at hlt' ⊢
      exact hg.own i h1 hlt'
    · rw [new] at hlt' ⊢
      simp only at hlt' ⊢
      rcases parent with _ | p
      · rfl
      · simp only; rw [if_neg (by omega)]

lemma create_sem (h : Heap) (name : Name) (parent : Option ℕ) (v : ℤ) (hg : Wf h) (hn : h.map name = none)
    (hp : (parent = none ∧ name = [] ∧ v = INFO) ∨
      ∃ p, parent = some p ∧ p < h.size ∧ (h.cat p).name = parentName name ∧ name ≠ [] ∧ v = NOTSET)
    (c : LogConfig) (hs : Sem h c) : Sem (create h name parent v).1 c := by
  intro n
  rw [create_map]
  by_cases hnn : n = name
  · subst hnn
    rw [if_pos rfl]
    have := hs.none hn
    simp only
    rw [create_new, this.1, this.2.1, this.2.2]
    simp only [List.toFinset_nil, and_true]
    rcases hp with ⟨-, rfl, rfl⟩ | ⟨q, -, -, -, h5, rfl⟩
    · simp [INFO, NOTSET]
    · simp [h5]
  · rw [if_neg hnn]
    rcases hm : h.map n with _ | i
    · exact hs.none hm
    · simp only
      rw [create_old h name parent v i (hg.map_lt n i hm).1]
      exact hs.some hm

lemma getInstance_spec (h : Heap) (hg : Good h) (name : Name) :
    Good (getInstance h name).1 ∧ (getInstance h name).1.map name = some (getInstance h name).2 ∧
      (∀ c, Sem h c → Sem (getInstance h name).1 c) ∧
      ∀ n : Name, name.length < n.length → (getInstance h name).1.map n = h.map n := by
  induction hl : name.length using Nat.strong_induction_on generalizing name with
  | _ k ih =>
    subst hl
    rw [getInstance]
    split
    · rename_i i hi
      exact ⟨hg, hi, fun c hc => hc, fun _ _ => rfl⟩
    · rename_i hi
      split
      · rename_i hn
        have hp : ((none : Option ℕ) = none ∧ name = [] ∧ INFO = INFO) ∨
            ∃ p, (none : Option ℕ) = some p ∧ p < h.size ∧ (h.cat p).name = parentName name ∧ name ≠ [] ∧ INFO = NOTSET :=
          Or.inl ⟨rfl, hn, rfl⟩
        refine ⟨create_good h name none INFO hg hi hp, ?_, create_sem h name none INFO hg.toWf hi hp, ?_⟩
        · rw [create_map, if_pos rfl]; rfl
        · intro n hlt
          rw [create_map, if_neg (by rintro rfl; omega)]
      · rename_i hn
        have hlen := parentName_length name hn
        obtain ⟨g1, g2, g3, g4⟩ := ih _ hlen (parentName name) rfl
        have hmn : (getInstance h (parentName name)).1.map name = none := by rw [g4 name hlen, hi]
        obtain ⟨g5, g6⟩ := g1.map_lt _ _ g2
        have hp : (some (getInstance h (parentName name)).2 = none ∧ name = [] ∧ NOTSET = INFO) ∨
            ∃ p, some (getInstance h (parentName name)).2 = some p ∧ p < (getInstance h (parentName name)).1.size ∧
              ((getInstance h (parentName name)).1.cat p).name = parentName name ∧ name ≠ [] ∧ NOTSET = NOTSET :=
          Or.inr ⟨_, rfl, g5, g6, hn, rfl⟩
        refine ⟨create_good _ name _ NOTSET g1 hmn hp, ?_, fun c hc => create_sem _ name _ NOTSET g1.toWf hmn hp c (g3 c hc), ?_⟩
        · rw [create_map, if_pos rfl]; rfl
        · intro n hlt
          rw [create_map, if_neg (by rintro rfl; omega), g4 n (by omega)]

/-! ## Setting a priority -/

/-- The two heaps differ in the cached priorities only. -/
structure Same (h h' : Heap) : Prop where
  size : h'.size = h.size
  map : h'.map = h.map
  cat : ∀ i, h'.cat i = { h.cat i with chained := (h'.cat i).chained }

lemma Same.refl (h : Heap) : Same h h := ⟨rfl, rfl, fun _ => rfl⟩

lemma Same.trans {h h' h'' : Heap} (a : Same h h') (b : Same h' h'') : Same h h'' :=
  ⟨b.size.trans a.size, b.map.trans a.map, fun i => by rw [b.cat i, a.cat i]⟩

/-- `j` has no priority of its own, nor has any category between `j` and `i`, nor `i`, which is above `j` or `j` itself. -/
inductive Inh (h : Heap) (i : ℕ) : ℕ → Prop
  | base : (h.cat i).priority = NOTSET → Inh h i i
  | step (j q : ℕ) : (h.cat j).priority = NOTSET → (h.cat j).parent = some q → j < h.size → Inh h i q → Inh h i j

lemma Inh.prio {h : Heap} {i j : ℕ} (hi : Inh h i j) : (h.cat i).priority = NOTSET ∧ (h.cat j).priority = NOTSET := by
  induction hi with
  | base h => exact ⟨h, h⟩
  | step j q h1 _ _ _ ih => exact ⟨ih.1, h1⟩

lemma Inh.le {h : Heap} (hw : Wf h) {i j : ℕ} (hi : Inh h i j) : i ≤ j := by
  induction hi with
  | base h => exact le_rfl
  | step j q _ h2 h3 _ ih => exact ih.trans (hw.par_some j h3 q h2).1.le

lemma Inh.same {h h' : Heap} (hs : Same h h') {i j : ℕ} (hi : Inh h i j) : Inh h' i j := by
  induction hi with
  | base h1 => exact .base (by rw [hs.cat]; exact h1)
  | step j q h1 h2 h3 _ ih => exact .step j q (by rw [hs.cat]; exact h1) (by rw [hs.cat]; exact h2) (by rw [hs.size]; exact h3) ih

lemma Same.symm {h h' : Heap} (hs : Same h h') : Same h' h :=
  ⟨hs.size.symm, hs.map.symm, fun i => by
    have := hs.cat i
    rw [this]⟩

lemma inh_same_iff {h h' : Heap} (hs : Same h h') (i j : ℕ) : Inh h' i j ↔ Inh h i j :=
  ⟨fun x => x.same hs.symm, fun x => x.same hs⟩

lemma Wf.same {h h' : Heap} (hs : Same h h') (hw : Wf h) : Wf h' where
  map_lt := by
    intro n i hi
    rw [hs.map] at hi
    rw [hs.size, hs.cat]
    exact hw.map_lt n i hi
  map_name := by
    intro i hi
    rw [hs.size] at hi
    rw [hs.cat, hs.map]
    exact hw.map_name i hi
  par_none := by
    intro i hi
    rw [hs.size] at hi
    rw [hs.cat]
    exact hw.par_none i hi
  par_some := by
    intro i hi p hp
    rw [hs.size] at hi
    rw [hs.cat i] at hp
    rw [hs.cat i, hs.cat p]
    exact hw.par_some i hi p hp
  kids := by
    intro i hi j
    rw [hs.size] at hi ⊢
    rw [hs.cat i, hs.cat j]
    exact hw.kids i hi j
  nodup := by
    intro i hi
    rw [hs.size] at hi
    rw [hs.cat]
    exact hw.nodup i hi

lemma inh_iff {h : Heap} (hw : Wf h) (i j : ℕ) (hi : i < h.size) :
    Inh h i j ↔ (h.cat i).priority = NOTSET ∧ (j = i ∨ ∃ c ∈ (h.cat i).children, Inh h c j) := by
  constructor
  · intro hij
    refine ⟨hij.prio.1, ?_⟩
    induction hij with
    | base _ => exact Or.inl rfl
    | step j q h1 h2 h3 _ ih =>
      right
      rcases ih with rfl | ⟨c, hc, hcq⟩
      · exact ⟨j, (hw.kids q hi j).mpr ⟨h3, h2⟩, .base h1⟩
      · exact ⟨c, hc, .step j q h1 h2 h3 hcq⟩
  · rintro ⟨h1, rfl | ⟨c, hc, hcj⟩⟩
    · exact .base h1
    · obtain ⟨h2, h3⟩ := (hw.kids i hi c).mp hc
      induction hcj with
      | base h4 => exact .step c i h4 h3 h2 (.base h1)
      | step j q g1 g2 g3 _ ih => exact .step j q g1 g2 g3 ih

open Classical in
lemma updateChained_spec (v : ℤ) (fuel : ℕ) (h : Heap) (hw : Wf h) (i : ℕ) (hi : i < h.size) (hf : h.size ≤ fuel + i) :
    Same h (updateChained fuel v h i) ∧ ∀ j, ((updateChained fuel v h i).cat j).chained =
      if Inh h i j then v else (h.cat j).chained := by
  induction fuel generalizing h i with
  | zero => omega
  | succ fuel ih =>
    have fold : ∀ (cs : List ℕ) (h : Heap), Wf h → (∀ c ∈ cs, c < h.size ∧ h.size ≤ fuel + c) →
        Same h (cs.foldl (updateChained fuel v) h) ∧ ∀ j, ((cs.foldl (updateChained fuel v) h).cat j).chained =
          if ∃ c ∈ cs, Inh h c j then v else (h.cat j).chained := by
      intro cs
      induction cs with
      | nil => intro h _ _; exact ⟨Same.refl h, fun j => by simp⟩
      | cons c cs ihc =>
        intro h hw hcs
        obtain ⟨h1, h2⟩ := ih h hw c (hcs c (by simp)).1 (hcs c (by simp)).2
        obtain ⟨h3, h4⟩ := ihc (updateChained fuel v h c) (hw.same h1) (by
          intro d hd
          rw [h1.size]
          exact hcs d (by simp [hd]))
        refine ⟨h1.trans h3, fun j => ?_⟩
        rw [List.foldl_cons, h4, h2]
        simp only [inh_same_iff h1, List.mem_cons, exists_eq_or_imp]
        by_cases g1 : Inh h c j <;> by_cases g2 : ∃ a ∈ cs, Inh h a j <;> simp [g1, g2]
    rw [updateChained]
    split
    · rename_i hpr
      have hsame : Same h (h.modify i fun c => { c with chained := v }) := by
        refine ⟨rfl, rfl, fun j => ?_⟩
        unfold Heap.modify
        simp only
        by_cases hj : j = i
        · subst hj; rw [Function.update_self]
        · rw [Function.update_of_ne hj]
      obtain ⟨h1, h2⟩ := fold (h.cat i).children _ (hw.same hsame) (by
        intro c hc
        obtain ⟨g1, g2⟩ := (hw.kids i hi c).mp hc
        have := (hw.par_some c g1 i g2).1
        exact ⟨g1, by show h.size ≤ _; omega⟩)
      refine ⟨hsame.trans h1, fun j => ?_⟩
      rw [h2]
      simp only [inh_same_iff hsame]
      rw [inh_iff hw i j hi]
      have hc : ((h.modify i fun c => { c with chained := v }).cat j).chained = if j = i then v else (h.cat j).chained := by
        unfold Heap.modify
        simp only
        by_cases hj : j = i
        · subst hj; rw [Function.update_self, if_pos rfl]
        · rw [Function.update_of_ne hj, if_neg hj]
      rw [hc]
      by_cases g1 : j = i <;> by_cases g2 : ∃ a ∈ (h.cat i).children, Inh h a j <;> simp [g1, g2, hpr]
    · rename_i hpr
      refine ⟨Same.refl h, fun j => ?_⟩
      rw [if_neg (fun hij => hpr hij.prio.1)]

open Classical in
lemma propagate_spec (h : Heap) (hw : Wf h) (i : ℕ) (hi : i < h.size) :
    Same h (propagate h i) ∧ ∀ j, ((propagate h i).cat j).chained =
      if ∃ c ∈ (h.cat i).children, Inh h c j then (h.cat i).chained else (h.cat j).chained := by
  have fold : ∀ (v : ℤ) (n : ℕ) (cs : List ℕ) (h : Heap), Wf h → h.size = n → (∀ c ∈ cs, c < h.size) →
      Same h (cs.foldl (updateChained n v) h) ∧ ∀ j, ((cs.foldl (updateChained n v) h).cat j).chained =
        if ∃ c ∈ cs, Inh h c j then v else (h.cat j).chained := by
    intro v n cs
    induction cs with
    | nil => intro h _ _ _; exact ⟨Same.refl h, fun j => by simp⟩
    | cons c cs ihc =>
      intro h hw hn hcs
      obtain ⟨h1, h2⟩ := updateChained_spec v n h hw c (hcs c (by simp)) (by omega)
      obtain ⟨h3, h4⟩ := ihc (updateChained n v h c) (hw.same h1) (by rw [h1.size, hn]) (by
        intro d hd
        rw [h1.size]
        exact hcs d (by simp [hd]))
      refine ⟨h1.trans h3, fun j => ?_⟩
      rw [List.foldl_cons, h4, h2]
      simp only [inh_same_iff h1, List.mem_cons, exists_eq_or_imp]
      by_cases g1 : Inh h c j <;> by_cases g2 : ∃ a ∈ cs, Inh h a j <;> simp [g1, g2]
  exact fold _ _ _ h hw rfl fun c hc => ((hw.kids i hi c).mp hc).1

/-- Assignment of the two priorities of one object. -/
lemma modify_prio (h : Heap) (i : ℕ) (v w : ℤ) (j : ℕ) :
    ((h.modify i fun c => { c with priority := v, chained := w }).cat j) = { h.cat j with
      priority := if j = i then v else (h.cat j).priority, chained := if j = i then w else (h.cat j).chained } := by
  unfold Heap.modify
  simp only
  by_cases hj : j = i
  · subst hj; rw [Function.update_self, if_pos rfl, if_pos rfl]
  · rw [Function.update_of_ne hj, if_neg hj, if_neg hj]

lemma Wf.modify_prio {h : Heap} (hw : Wf h) (i : ℕ) (v w : ℤ) :
    Wf (h.modify i fun c => { c with priority := v, chained := w }) where
  map_lt := by
    intro n j hj
    rw [Logging.modify_prio]
    exact hw.map_lt n j hj
  map_name := by
    intro j hj
    rw [Logging.modify_prio]
    exact hw.map_name j hj
  par_none := by
    intro j hj
    rw [Logging.modify_prio]
    exact hw.par_none j hj
  par_some := by
    intro j hj p hp
    rw [Logging.modify_prio] at hp
    rw [Logging.modify_prio h i v w j, Logging.modify_prio h i v w p]
    exact hw.par_some j hj p hp
  kids := by
    intro j hj k
    rw [Logging.modify_prio, Logging.modify_prio h i v w k]
    exact hw.kids j hj k
  nodup := by
    intro j hj
    rw [Logging.modify_prio]
    exact hw.nodup j hj

open Classical in
lemma setPriority_spec (h : Heap) (hg : Good h) (i : ℕ) (hi : i < h.size) (v : ℤ) (hv : v ≤ NOTSET) :
    (setPriority h i v = none ∧ v = NOTSET ∧ (h.cat i).parent = none) ∨
    ∃ h', setPriority h i v = some h' ∧ Good h' ∧ h'.size = h.size ∧ h'.map = h.map ∧
      (v < NOTSET ∨ (h.cat i).parent ≠ none) ∧
      ∀ j, h'.cat j = { h.cat j with priority := if j = i then v else (h.cat j).priority, chained := (h'.cat j).chained } := by
  unfold setPriority assignPriority
  -- the value that is cached
  obtain ⟨w, hw⟩ : ∃ w, w = (if v < NOTSET then v else match (h.cat i).parent with
    | some p => (h.cat p).chained
    | none => v) := ⟨_, rfl⟩
  have main : (v < NOTSET ∨ (h.cat i).parent ≠ none) →
      ∃ h', (some (h.modify i fun c => { c with priority := v, chained := w })).map (fun h => propagate h i) = some h' ∧
      Good h' ∧ h'.size = h.size ∧ h'.map = h.map ∧ (v < NOTSET ∨ (h.cat i).parent ≠ none) ∧
      ∀ j, h'.cat j = { h.cat j with priority := if j = i then v else (h.cat j).priority, chained := (h'.cat j).chained } := by
    intro hok
    have hm := Logging.modify_prio h i v w
    obtain ⟨h1, hh1⟩ : ∃ h1, h1 = h.modify i fun c => { c with priority := v, chained := w } := ⟨_, rfl⟩
    rw [← hh1] at hm
    have hw1 : Wf h1 := by rw [hh1]; exact hg.toWf.modify_prio i v w
    have hs1 : h1.size = h.size := by rw [hh1]; rfl
    have hmap1 : h1.map = h.map := by rw [hh1]; rfl
    obtain ⟨hsame, hch⟩ := propagate_spec h1 hw1 i (by rw [hs1]; exact hi)
    refine ⟨propagate h1 i, by rw [hh1]; rfl, ?_, hsame.size.trans hs1, hsame.map.trans hmap1, hok, ?_⟩
    · have hcat : ∀ j, (propagate h1 i).cat j = { h.cat j with
          priority := if j = i then v else (h.cat j).priority, chained := ((propagate h1 i).cat j).chained } := by
        intro j
        rw [hsame.cat j, hm j]
      have hprio : ∀ j, ((propagate h1 i).cat j).priority = if j = i then v else (h.cat j).priority := by
        intro j; rw [hcat j]
      have hpar : ∀ j, ((propagate h1 i).cat j).parent = (h.cat j).parent := by
        intro j; rw [hcat j]
      have hsz : (propagate h1 i).size = h.size := hsame.size.trans hs1
      -- who inherits
      have hkid : ∀ j, (∃ c ∈ (h1.cat i).children, Inh h1 c j) → i < j ∧ (h.cat j).priority = NOTSET := by
        rintro j ⟨c, hc, hcj⟩
        obtain ⟨g1, g2⟩ := (hw1.kids i (by rw [hs1]; exact hi) c).mp hc
        have g3 := (hw1.par_some c g1 i g2).1
        have g4 := hcj.le hw1
        have g5 := hcj.prio.2
        rw [hm j] at g5
        simp only at g5
        rw [if_neg (by omega)] at g5
        exact ⟨by omega, g5⟩
      have hstep : ∀ j q, j < h.size → (h.cat j).parent = some q → (h.cat j).priority = NOTSET → j ≠ i →
          ((∃ c ∈ (h1.cat i).children, Inh h1 c j) ↔ q = i ∨ ∃ c ∈ (h1.cat i).children, Inh h1 c q) := by
        intro j q hj hq hp hne
        have hp1 : (h1.cat j).priority = NOTSET := by rw [hm j]; simp only; rw [if_neg hne]; exact hp
        have hq1 : (h1.cat j).parent = some q := by rw [hm j]; exact hq
        constructor
        · rintro ⟨c, hc, hcj⟩
          obtain ⟨g1, g2⟩ := (hw1.kids i (by rw [hs1]; exact hi) c).mp hc
          cases hcj with
          | base _ =>
            rw [g2] at hq1
            cases hq1
            exact Or.inl rfl
          | step _ q' _ e2 _ e4 =>
            rw [hq1] at e2
            cases e2
            exact Or.inr ⟨c, hc, e4⟩
        · rintro (rfl | ⟨c, hc, hcq⟩)
          · exact ⟨j, (hw1.kids q (by rw [hs1]; exact hi) j).mpr ⟨by rw [hs1]; exact hj, hq1⟩, .base hp1⟩
          · exact ⟨c, hc, .step j q hp1 hq1 (by rw [hs1]; exact hj) hcq⟩
      have hchi : (h1.cat i).chained = w := by rw [hm i]; simp
      have hchj : ∀ j, j ≠ i → (h1.cat j).chained = (h.cat j).chained := by
        intro j hj; rw [hm j]; simp [hj]
      have hself : ¬ ∃ c ∈ (h1.cat i).children, Inh h1 c i := fun hx => by
        have := (hkid i hx).1; omega
      refine ⟨hw1.same hsame, ?_, ?_, ?_, ?_⟩
      · intro j hj
        rw [hsz] at hj
        rw [hprio]
        split
        · exact hv
        · exact hg.prio_le j hj
      · intro j hj hp
        rw [hsz] at hj
        rw [hprio]
        rw [hpar] at hp
        split
        · rename_i he
          subst he
          rcases hok with h2 | h2
          · exact h2
          · exact absurd hp h2
        · exact hg.root j hj hp
      · intro j hj q hq hp
        rw [hsz] at hj
        rw [hprio] at hp
        rw [hpar] at hq
        rw [hch j, hch q]
        by_cases hji : j = i
        · subst hji
          rw [if_pos rfl] at hp
          have hqj := (hg.par_some j hj q hq).1
          rw [if_neg hself, if_neg (fun hx => by have := (hkid q hx).1; omega), hchi, hchj q (by omega), hw,
            if_neg (by omega), hq]
        · rw [if_neg hji] at hp
          have hiff := hstep j q hj hq hp hji
          by_cases hqi : q = i
          · subst hqi
            rw [if_pos (hiff.mpr (Or.inl rfl)), if_neg hself]
          · by_cases hq' : ∃ c ∈ (h1.cat i).children, Inh h1 c q
            · rw [if_pos (hiff.mpr (Or.inr hq')), if_pos hq']
            · rw [if_neg (by rw [hiff, not_or]; exact ⟨hqi, hq'⟩), if_neg hq', hchj j hji, hchj q hqi]
              exact hg.cons j hj q hq hp
      · intro j hj hp
        rw [hsz] at hj
        rw [hprio] at hp ⊢
        rw [hch j]
        by_cases hji : j = i
        · subst hji
          rw [if_pos rfl] at hp ⊢
          rw [if_neg hself, hchi, hw, if_pos hp]
        · rw [if_neg hji] at hp ⊢
          rw [if_neg (fun hx => by have := (hkid j hx).2; omega), hchj j hji]
          exact hg.own j hj hp
    · intro j
      rw [hsame.cat j, hm j]
  by_cases hlt : v < NOTSET
  · right
    rw [if_pos hlt]
    rw [if_pos hlt] at hw
    have := main (Or.inl hlt)
    rw [hw] at this
    exact this
  · rw [if_neg hlt]
    rw [if_neg hlt] at hw
    rcases hpar : (h.cat i).parent with _ | p
    · left
      exact ⟨rfl, by omega, rfl⟩
    · right
      rw [hpar] at hw
      simp only at hw ⊢
      have := main (Or.inr (by rw [hpar]; simp))
      rw [hw, hpar] at this
      exact this

/-! ## The other calls -/

lemma modify_cat (h : Heap) (i : ℕ) (f : Cat → Cat) (j : ℕ) : ((h.modify i f).cat j) = if j = i then f (h.cat j) else h.cat j := by
  unfold Heap.modify
  simp only
  by_cases hj : j = i
  · subst hj; rw [Function.update_self, if_pos rfl]
  · rw [Function.update_of_ne hj, if_neg hj]

/-- A change of the additivity and the appenders of one object. -/
lemma modify_good {h : Heap} (hg : Good h) (i : ℕ) (f : Cat → Cat)
    (hf : ∀ c, f c = { c with additive := (f c).additive, appenders := (f c).appenders })
    (hn : ∀ c : Cat, c.appenders.Nodup → (f c).appenders.Nodup) : Good (h.modify i f) := by
  have hm : ∀ j, ((h.modify i f).cat j).name = (h.cat j).name ∧ ((h.modify i f).cat j).parent = (h.cat j).parent ∧
      ((h.modify i f).cat j).priority = (h.cat j).priority ∧ ((h.modify i f).cat j).chained = (h.cat j).chained ∧
      ((h.modify i f).cat j).children = (h.cat j).children := by
    intro j
    rw [modify_cat]
    split
    · rw [hf]; exact ⟨rfl, rfl, rfl, rfl, rfl⟩
    · exact ⟨rfl, rfl, rfl, rfl, rfl⟩
  refine ⟨⟨?_, ?_, ?_, ?_, ?_, ?_⟩, ?_, ?_, ?_, ?_⟩
  · intro n j hj
    rw [(hm j).1]; exact hg.map_lt n j hj
  · intro j hj
    rw [(hm j).1]; exact hg.map_name j hj
  · intro j hj
    rw [(hm j).1, (hm j).2.1]; exact hg.par_none j hj
  · intro j hj q hq
    rw [(hm j).2.1] at hq
    rw [(hm j).1, (hm q).1]
    exact hg.par_some j hj q hq
  · intro j hj k
    rw [(hm j).2.2.2.2, (hm k).2.1]; exact hg.kids j hj k
  · intro j hj
    rw [modify_cat]
    split
    · exact hn _ (hg.nodup j hj)
    · exact hg.nodup j hj
  · intro j hj
    rw [(hm j).2.2.1]; exact hg.prio_le j hj
  · intro j hj
    rw [(hm j).2.2.1, (hm j).2.1]; exact hg.root j hj
  · intro j hj q
    rw [(hm j).2.2.1, (hm j).2.1, (hm j).2.2.2.1, (hm q).2.2.2.1]; exact hg.cons j hj q
  · intro j hj
    rw [(hm j).2.2.1, (hm j).2.2.2.1]; exact hg.own j hj

/-- What is known of the object of a name determines what is known of the name. -/
lemma sem_update {h h' : Heap} {c c' : LogConfig} (hw : Wf h) (hs : Sem h c) (i : ℕ) (name : Name) (hi : h.map name = some i)
    (hmap : h'.map = h.map) (hoth : ∀ j, j ≠ i → (h'.cat j).priority = (h.cat j).priority ∧
      (h'.cat j).additive = (h.cat j).additive ∧ (h'.cat j).appenders = (h.cat j).appenders)
    (hcoth : ∀ n, n ≠ name → c'.priority n = c.priority n ∧ c'.additive n = c.additive n ∧ c'.appenders n = c.appenders n)
    (hnew : c'.priority name = (if (h'.cat i).priority < NOTSET then some (h'.cat i).priority else none) ∧
      c'.additive name = (h'.cat i).additive ∧ c'.appenders name = (h'.cat i).appenders.toFinset) : Sem h' c' := by
  intro n
  rw [hmap]
  by_cases hn : n = name
  · subst hn
    rw [hi]
    exact hnew
  · obtain ⟨h1, h2, h3⟩ := hcoth n hn
    rcases hm : h.map n with _ | j
    · simp only
      rw [h1, h2, h3]
      exact hs.none hm
    · simp only
      have hj : j ≠ i := by
        rintro rfl
        exact hn ((hw.map_lt n j hm).2.symm.trans (hw.map_lt name j hi).2)
      rw [h1, h2, h3, (hoth j hj).1, (hoth j hj).2.1, (hoth j hj).2.2]
      exact hs.some hm

lemma run_spec (h : Heap) (c : LogConfig) (hg : Good h) (hs : Sem h c) (op : Op) (ho : OrdinaryPriorities [op]) :
    Good (run h op) ∧ Sem (run h op) (c.after op) := by
  -- a change of additivity and appenders
  have other : ∀ (name : Name) (f : Cat → Cat) (c' : LogConfig),
      (∀ c, f c = { c with additive := (f c).additive, appenders := (f c).appenders }) →
      (∀ c : Cat, c.appenders.Nodup → (f c).appenders.Nodup) →
      (∀ n, n ≠ name → c'.priority n = c.priority n ∧ c'.additive n = c.additive n ∧ c'.appenders n = c.appenders n) →
      c'.priority name = c.priority name →
      (∀ k : Cat, c.additive name = k.additive → c.appenders name = k.appenders.toFinset → k.appenders.Nodup →
        c'.additive name = (f k).additive ∧ c'.appenders name = (f k).appenders.toFinset) →
      Good ((getInstance h name).1.modify (getInstance h name).2 f) ∧
        Sem ((getInstance h name).1.modify (getInstance h name).2 f) c' := by
    intro name f c' hf hn hc hp hk
    obtain ⟨g1, g2, g3, -⟩ := getInstance_spec h hg name
    refine ⟨modify_good g1 _ f hf hn, sem_update g1.toWf (g3 c hs) _ name g2 rfl ?_ hc ?_⟩
    · intro j hj
      rw [modify_cat, if_neg hj]
      exact ⟨rfl, rfl, rfl⟩
    · rw [modify_cat, if_pos rfl]
      obtain ⟨e1, e2, e3⟩ := (g3 c hs).some g2
      have hlt := (g1.map_lt _ _ g2).1
      refine ⟨?_, hk _ e2 e3 (g1.nodup _ hlt)⟩
      rw [hp, e1, hf]
  cases op with
  | get name =>
    obtain ⟨g1, -, g3, -⟩ := getInstance_spec h hg name
    exact ⟨g1, g3 c hs⟩
  | setPriority name v =>
    have hv : v ≤ NOTSET := ho name v (by simp)
    obtain ⟨g1, g2, g3, -⟩ := getInstance_spec h hg name
    obtain ⟨hlt, hname⟩ := g1.map_lt _ _ g2
    obtain ⟨e1, e2, e3⟩ := (g3 c hs).some g2
    unfold run
    simp only
    rcases setPriority_spec _ g1 _ hlt v hv with ⟨k1, k2, k3⟩ | ⟨h', k1, k2, k3, k4, k5, k6⟩
    · rw [k1]
      have hnil : name = [] := by rw [← hname]; exact g1.par_none _ hlt k3
      refine ⟨g1, ?_⟩
      have : c.after (.setPriority name v) = c := by
        have hf : (fun n => if n = name then (if v < 800 then some v else if name = [] then c.priority n else none)
            else c.priority n) = c.priority := by
          funext n
          split
          · have : ¬ v < 800 := by rw [k2]; decide
            simp [this, hnil]
          · rfl
        show LogConfig.mk _ c.additive c.appenders = c
        rw [hf]
      rw [this]
      exact g3 c hs
    · rw [k1, Option.getD_some]
      refine ⟨k2, sem_update g1.toWf (g3 c hs) _ name g2 k4 ?_ ?_ ?_⟩
      · intro j hj
        rw [k6 j, if_neg hj]
        exact ⟨rfl, rfl, rfl⟩
      · intro n hn
        unfold LogConfig.after
        simp [hn]
      · rw [k6, if_pos rfl]
        refine ⟨?_, e2, e3⟩
        unfold LogConfig.after
        simp only [if_true]
        split
        · rfl
        · rename_i hlt'
          rw [if_neg]
          rintro rfl
          rcases k5 with k5 | k5
          · exact hlt' k5
          · rcases hpp : ((getInstance h []).1.cat (getInstance h []).2).parent with _ | q
            · exact k5 hpp
            · exact (g1.par_some _ hlt q hpp).2.2 hname
  | setAdditivity name b =>
    refine other name (fun c => { c with additive := b }) (c.after (.setAdditivity name b)) (fun _ => rfl) (fun _ h => h) ?_ rfl ?_
    · intro n hn
      simp [LogConfig.after, hn]
    · intro k _ h2 _
      simp [LogConfig.after, h2]
  | addAppender name a =>
    refine other name (fun c => if a ∈ c.appenders then c else { c with appenders := c.appenders.orderedInsert (· ≤ ·) a })
      (c.after (.addAppender name a)) ?_ ?_ ?_ rfl ?_
    · intro k
      split <;> rfl
    · intro k hk
      split
      · exact hk
      · rename_i ha
        exact (List.perm_orderedInsert _ a _).nodup_iff.mpr (List.nodup_cons.mpr ⟨ha, hk⟩)
    · intro n hn
      simp [LogConfig.after, hn]
    · intro k h1 h2 _
      simp only [LogConfig.after, if_true]
      split
      · rename_i ha
        exact ⟨h1, by rw [h2, Finset.insert_eq_self]; simpa using ha⟩
      · refine ⟨h1, ?_⟩
        rw [h2]
        ext x
        simp [List.mem_orderedInsert]
  | removeAppender name a =>
    refine other name (fun c => { c with appenders := c.appenders.erase a }) (c.after (.removeAppender name a)) (fun _ => rfl)
      (fun _ h => h.erase a) ?_ rfl ?_
    · intro n hn
      simp [LogConfig.after, hn]
    · intro k h1 h2 h3
      simp only [LogConfig.after, if_true]
      refine ⟨h1, ?_⟩
      rw [h2]
      ext x
      simp [h3.mem_erase_iff]
  | removeAllAppenders name =>
    refine other name (fun c => { c with appenders := [] }) (c.after (.removeAllAppenders name)) (fun _ => rfl)
      (fun _ _ => List.nodup_nil) ?_ rfl ?_
    · intro n hn
      simp [LogConfig.after, hn]
    · intro k h1 _ _
      simp [LogConfig.after, h1]

lemma runs_spec (ops : List Op) : ∀ (h : Heap) (c : LogConfig), Good h → Sem h c → OrdinaryPriorities ops →
    Good (ops.foldl run h) ∧ Sem (ops.foldl run h) (ops.foldl LogConfig.after c) := by
  induction ops with
  | nil => intro h c hg hs _; exact ⟨hg, hs⟩
  | cons op ops ih =>
    intro h c hg hs ho
    obtain ⟨h1, h2⟩ := run_spec h c hg hs op (fun name v hv => ho name v (by
      rw [List.mem_singleton] at hv
      rw [hv]
      simp))
    exact ih _ _ h1 h2 (fun name v hv => ho name v (List.mem_cons_of_mem _ hv))

/-! ## What the objects say -/

lemma inForce_of (h : Heap) (c : LogConfig) (hg : Good h) (hs : Sem h c) (i : ℕ) (hi : i < h.size) :
    InForce c (h.cat i).name (h.cat i).chained := by
  induction i using Nat.strong_induction_on with
  | _ i ih =>
    obtain ⟨e1, -, -⟩ := hs.some (hg.map_name i hi)
    by_cases hlt : (h.cat i).priority < NOTSET
    · rw [if_pos hlt] at e1
      rw [hg.own i hi hlt]
      exact .own _ _ e1
    · rw [if_neg hlt] at e1
      have hp : (h.cat i).priority = NOTSET := le_antisymm (hg.prio_le i hi) (not_lt.mp hlt)
      rcases hpar : (h.cat i).parent with _ | q
      · exact absurd (hg.root i hi hpar) hlt
      · obtain ⟨g1, g2, g3⟩ := hg.par_some i hi q hpar
        have := ih q g1 (by omega)
        rw [hg.cons i hi q hpar hp]
        exact .above _ _ _ e1 ((isAbove_iff _ _ g3).mpr g2) this

lemma path_of (h : Heap) (c : LogConfig) (hg : Good h) (hs : Sem h c) (i : ℕ) (hi : i < h.size) :
    ∀ fuel, i < fuel → ∃ path, Path c (h.cat i).name path ∧
      ∀ a, (callAppenders fuel h i).count a = path.countP (fun n => decide (a ∈ c.appenders n)) := by
  induction i using Nat.strong_induction_on with
  | _ i ih =>
    intro fuel hf
    obtain ⟨fuel, rfl⟩ : ∃ f, fuel = f + 1 := ⟨fuel - 1, by omega⟩
    obtain ⟨-, e2, e3⟩ := hs.some (hg.map_name i hi)
    have hcount : ∀ a, (h.cat i).appenders.count a = if a ∈ c.appenders (h.cat i).name then 1 else 0 := by
      intro a
      rw [e3, (hg.nodup i hi).count]
      simp
    have hone : ∀ path a, List.countP (fun n => decide (a ∈ c.appenders n)) ((h.cat i).name :: path) =
        (if a ∈ c.appenders (h.cat i).name then 1 else 0) + path.countP (fun n => decide (a ∈ c.appenders n)) := by
      intro path a
      rw [List.countP_cons, Nat.add_comm]
      simp
    rw [callAppenders]
    rcases hadd : (h.cat i).additive with _ | _
    · refine ⟨[(h.cat i).name], .stop _ (by rw [e2, hadd]), fun a => ?_⟩
      rw [hone]
      simp [hcount]
    · rcases hpar : (h.cat i).parent with _ | q
      · have hnil := hg.par_none i hi hpar
        refine ⟨[(h.cat i).name], by rw [hnil]; exact .root, fun a => ?_⟩
        rw [hone]
        simp [hcount]
      · obtain ⟨g1, g2, g3⟩ := hg.par_some i hi q hpar
        obtain ⟨path, hp1, hp2⟩ := ih q g1 (by omega) fuel (by omega)
        refine ⟨(h.cat i).name :: path, .up _ _ _ (by rw [e2, hadd]) ((isAbove_iff _ _ g3).mpr g2) hp1, fun a => ?_⟩
        rw [hone]
        simp only [List.count_append]
        rw [hcount, hp2]

/-! ## Uniqueness -/

lemma inForce_unique {c : LogConfig} {name : Name} {v w : ℤ} (hv : InForce c name v) (hw : InForce c name w) : v = w := by
  induction hv with
  | own name v h1 =>
    cases hw with
    | own _ _ h2 => rw [h1] at h2; exact Option.some.inj h2
    | above _ p _ h2 _ _ => rw [h1] at h2; cases h2
  | above name p v h1 h2 _ ih =>
    cases hw with
    | own _ _ h3 => rw [h1] at h3; cases h3
    | above _ q _ h3 h4 h5 =>
      have hn := isAbove_ne_nil h2
      have e1 := (isAbove_iff p name hn).mp h2
      have e2 := (isAbove_iff q name hn).mp h4
      rw [e1] at ih
      rw [e2] at h5
      exact ih h5

lemma path_unique {c : LogConfig} {name : Name} {l m : List Name} (hl : Path c name l) (hm : Path c name m) : l = m := by
  induction hl generalizing m with
  | root =>
    cases hm with
    | root => rfl
    | stop _ _ => rfl
    | up _ p _ _ h _ => exact absurd rfl (isAbove_ne_nil h)
  | stop name h1 =>
    cases hm with
    | root => rfl
    | stop _ _ => rfl
    | up _ p _ h _ _ => rw [h1] at h; cases h
  | up name p rest h1 h2 _ ih =>
    cases hm with
    | root => exact absurd rfl (isAbove_ne_nil h2)
    | stop _ h => rw [h1] at h; cases h
    | up _ q rest' h3 h4 h5 =>
      have hn := isAbove_ne_nil h2
      have e1 := (isAbove_iff p name hn).mp h2
      have e2 := (isAbove_iff q name hn).mp h4
      rw [e1] at ih
      rw [e2] at h5
      rw [ih h5]

/-! ## The properties -/

/-- **C90**: exactly one priority is in force for a name, and a message goes one way upwards, whatever has been set before. -/
theorem C90_one_answer (ops : List Op) (ho : OrdinaryPriorities ops) (name : Name) :
    (∃! v, InForce (configAfter ops) name v) ∧ ∃! path, Path (configAfter ops) name path := by
  obtain ⟨hg, hs⟩ := runs_spec ops _ _ good_empty sem_empty ho
  obtain ⟨g1, g2, g3, -⟩ := getInstance_spec _ hg name
  obtain ⟨hlt, hname⟩ := g1.map_lt _ _ g2
  have hf := inForce_of _ _ g1 (g3 _ hs) _ hlt
  obtain ⟨path, hp, -⟩ := path_of _ _ g1 (g3 _ hs) _ hlt _ (Nat.lt_succ_self _)
  rw [hname] at hf hp
  exact ⟨⟨_, hf, fun w hw => inForce_unique hw hf⟩, ⟨path, hp, fun w hw => path_unique hw hp⟩⟩

/-- **C90**: after any calls, a message reaches an appender exactly once for every category on its way to which the appender
has been attached, if its priority is at most (as urgent as) the priority in force for its category, and no appender otherwise. In
particular it does not matter in which order categories are created and set, and which of them exist. -/
theorem C90_delivery (ops : List Op) (ho : OrdinaryPriorities ops) (name : Name) (v : ℤ) (path : List Name)
    (hv : InForce (configAfter ops) name v) (hp : Path (configAfter ops) name path) (priority : ℤ) (a : ℕ) :
    (logTo (ops.foldl run Heap.empty) name priority).count a =
      if priority ≤ v then path.countP (fun n => decide (a ∈ (configAfter ops).appenders n)) else 0 := by
  obtain ⟨hg, hs⟩ := runs_spec ops _ _ good_empty sem_empty ho
  obtain ⟨g1, g2, g3, -⟩ := getInstance_spec _ hg name
  obtain ⟨hlt, hname⟩ := g1.map_lt _ _ g2
  have hf := inForce_of _ _ g1 (g3 _ hs) _ hlt
  obtain ⟨path', hp', hcount⟩ := path_of _ _ g1 (g3 _ hs) _ hlt _ hlt
  rw [hname] at hf hp'
  have e1 := inForce_unique hv hf
  have e2 := path_unique hp hp'
  unfold logTo log isPriorityEnabled
  simp only [ge_iff_le, decide_eq_true_eq]
  rw [← e1, e2]
  split
  · exact hcount a
  · rfl

/-- A message reaches an appender at most once when the appender has been attached to one category only. -/
theorem C90_at_most_once (ops : List Op) (ho : OrdinaryPriorities ops) (name : Name) (priority : ℤ) (a : ℕ) (at_ : Name)
    (ha : ∀ n, a ∈ (configAfter ops).appenders n → n = at_) :
    (logTo (ops.foldl run Heap.empty) name priority).count a ≤ 1 := by
  obtain ⟨⟨v, hv, -⟩, path, hp, -⟩ := C90_one_answer ops ho name
  rw [C90_delivery ops ho name v path hv hp priority a]
  split
  · have hnodup : ∀ name path, Path (configAfter ops) name path → path.Nodup ∧ ∀ n ∈ path, n.length ≤ name.length := by
      intro name path hp
      induction hp with
      | root => simp
      | stop name _ => simp
      | up name p rest _ h2 _ ih =>
        have hn := isAbove_ne_nil h2
        have hlen := parentName_length name hn
        rw [← (isAbove_iff p name hn).mp h2] at hlen
        refine ⟨List.nodup_cons.mpr ⟨fun hmem => ?_, ih.1⟩, ?_⟩
        · have := ih.2 name hmem
          omega
        · intro n hmem
          rcases List.mem_cons.mp hmem with rfl | h
          · exact le_rfl
          · exact (ih.2 n h).trans hlen.le
    calc path.countP (fun n => decide (a ∈ (configAfter ops).appenders n)) ≤ path.countP (fun n => decide (n = at_)) := by
          apply List.countP_mono_left
          intro x _ hx
          simpa using ha x (by simpa using hx)
      _ ≤ 1 := by
          have := List.nodup_iff_count_le_one.mp (hnodup _ _ hp).1 at_
          rw [List.count] at this
          simpa [beq_eq_decide] using this
  · exact Nat.zero_le 1

/-- The hypotheses are met by a history with several categories and calls, and the in-force priority and the way are not
trivial. -/
example : OrdinaryPriorities [.addAppender [] 1, .setPriority "a".toList 300, .addAppender "a.b".toList 2, .get "a.b.c".toList] ∧
    InForce (configAfter [.addAppender [] 1, .setPriority "a".toList 300, .addAppender "a.b".toList 2, .get "a.b.c".toList])
      "a.b".toList 300 ∧
    Path (configAfter [.addAppender [] 1, .setPriority "a".toList 300, .addAppender "a.b".toList 2, .get "a.b.c".toList])
      "a.b".toList ["a.b".toList, "a".toList, []] := by
  have habove : IsAbove "a".toList "a.b".toList := Or.inl ⟨"b".toList, by decide, by decide⟩
  refine ⟨?_, ?_, ?_⟩
  · intro name v hv
    simp at hv
    omega
  · refine .above _ "a".toList _ (by decide) habove (.own _ _ (by decide))
  · refine .up _ "a".toList _ (by decide) habove (.up _ [] _ (by decide) (Or.inr ⟨rfl, by decide, by decide⟩) .root)

/-! ### The default configuration -/

/-- Names of the messages about events. -/
def IsEvents (name : Name) : Prop := name = "Ubitrack.Events".toList ∨ ∃ rest, name = "Ubitrack.Events".toList ++ '.' :: rest

lemma foldl_get (names : List Name) (c : LogConfig) : (names.map Op.get).foldl LogConfig.after c = c := by
  induction names with
  | nil => rfl
  | cons n ns ih => exact ih

lemma config_init (before after : List Name) (app : ℕ) :
    configAfter (before.map Op.get ++ initLogging app ++ after.map Op.get) = configAfter (initLogging app) := by
  unfold configAfter
  rw [List.foldl_append, List.foldl_append, foldl_get, foldl_get]

lemma isEvents_above {p name : Name} (hn : name ≠ "Ubitrack.Events".toList) (h : IsAbove p name) : IsEvents name ↔ IsEvents p := by
  unfold IsEvents
  rcases h with ⟨last, rfl, hlast⟩ | ⟨rfl, hdot, -⟩
  · constructor
    · rintro (h | ⟨rest, h⟩)
      · exact absurd h hn
      · rcases List.append_eq_append_iff.mp h with ⟨a, h1, h2⟩ | ⟨a, h1, h2⟩
        · rcases a with _ | ⟨x, a⟩
          · left; simpa using h1.symm
          · simp only [List.cons_append, List.cons.injEq] at h2
            exact absurd (by rw [h2.2]; simp) hlast
        · rcases a with _ | ⟨x, a⟩
          · left; simpa using h1
          · simp only [List.cons_append, List.cons.injEq] at h2
            right
            exact ⟨a, by rw [h1, ← h2.1]⟩
    · rintro (rfl | ⟨rest, rfl⟩)
      · exact Or.inr ⟨last, rfl⟩
      · exact Or.inr ⟨rest ++ '.' :: last, by simp⟩
  · constructor
    · rintro (h | ⟨rest, h⟩)
      · exact absurd h hn
      · exact absurd (by rw [h]; simp) hdot
    · rintro (h | ⟨rest, h⟩)
      · exact absurd h (by decide)
      · exact absurd h (by simp)

open Classical in
lemma init_inForce (c : LogConfig) (hc : c.priority = fun n => if n = "Ubitrack.Events".toList then some 500 else if n = [] then some 600 else none)
    (name : Name) : InForce c name (if IsEvents name then 500 else 600) := by
  induction hl : name.length using Nat.strong_induction_on generalizing name with
  | _ k ih =>
    subst hl
    by_cases h1 : name = "Ubitrack.Events".toList
    · rw [if_pos (show IsEvents name from Or.inl h1)]
      exact .own _ _ (by rw [hc]; simp only; rw [if_pos h1])
    · by_cases h2 : name = []
      · subst h2
        rw [if_neg (by
          rintro (h | ⟨rest, h⟩)
          · exact h1 h
          · exact absurd h (by simp))]
        exact .own _ _ (by rw [hc]; decide)
      · have habove := (isAbove_iff _ name h2).mpr rfl
        have := ih _ (parentName_length name h2) (parentName name) rfl
        rw [← if_congr (isEvents_above h1 habove) rfl rfl] at this
        exact .above _ _ _ (by rw [hc]; simp only; rw [if_neg h1, if_neg h2]) habove this

lemma init_count (c : LogConfig) (hadd : c.additive = fun n => if n = [] then false else true) (S : Finset ℕ)
    (happ : c.appenders = fun n => if n = [] then S else ∅) (name : Name) (path : List Name) (hp : Path c name path) (a : ℕ) :
    path.countP (fun n => decide (a ∈ c.appenders n)) = if a ∈ S then 1 else 0 := by
  induction hp with
  | root => rw [happ]; simp [List.countP_cons]
  | stop name h =>
    rw [hadd] at h
    have hn : name = [] := by
      by_contra hne
      simp [hne] at h
    subst hn
    rw [happ]; simp [List.countP_cons]
  | up name p rest _ h2 _ ih =>
    have hn := isAbove_ne_nil h2
    rw [List.countP_cons, ih, happ]
    simp [hn]

lemma config_after_init (c : LogConfig) (app : ℕ) :
    ((initLogging app).foldl LogConfig.after c).priority =
      (fun n => if n = "Ubitrack.Events".toList then some 500 else if n = [] then some 600 else c.priority n) ∧
    ((initLogging app).foldl LogConfig.after c).additive = (fun n => if n = [] then false else c.additive n) ∧
    ((initLogging app).foldl LogConfig.after c).appenders = (fun n => if n = [] then insert app (c.appenders n) else c.appenders n) := by
  unfold initLogging
  have e : ("".toList : Name) = [] := rfl
  refine ⟨?_, ?_, ?_⟩
  · funext n
    simp only [List.foldl_cons, List.foldl_nil, LogConfig.after]
    rw [e]
    by_cases h : n = "Ubitrack.Events".toList
    · rw [if_pos h, if_pos h, if_pos (by decide)]
    · rw [if_neg h, if_neg h]
      by_cases h2 : n = []
      · rw [if_pos h2, if_pos h2, if_pos (by decide)]
      · rw [if_neg h2, if_neg h2]
  · funext n
    simp only [List.foldl_cons, List.foldl_nil, LogConfig.after]
    rfl
  · funext n
    simp only [List.foldl_cons, List.foldl_nil, LogConfig.after]
    rfl

lemma config_initLogging (app : ℕ) :
    (configAfter (initLogging app)).priority = (fun n => if n = "Ubitrack.Events".toList then some 500 else if n = [] then some 600 else none) ∧
    (configAfter (initLogging app)).additive = (fun n => if n = [] then false else true) ∧
    (configAfter (initLogging app)).appenders = (fun n => if n = [] then {app} else ∅) := by
  obtain ⟨h1, h2, h3⟩ := config_after_init .init app
  refine ⟨h1.trans ?_, h2.trans ?_, h3.trans ?_⟩
  · funext n
    show (if n = "Ubitrack.Events".toList then some 500 else if n = [] then some 600 else (if n = [] then some 600 else none)) = _
    by_cases h : n = []
    · rw [if_pos h, if_pos h]
    · rw [if_neg h, if_neg h]
  · rfl
  · rfl

lemma init_ordinary (app : ℕ) : OrdinaryPriorities (initLogging app) := by
  intro n v hv
  simp only [initLogging, List.mem_cons, Op.setPriority.injEq, List.not_mem_nil, or_false, reduceCtorEq, false_or] at hv
  rcases hv with ⟨-, rfl⟩ | ⟨-, rfl⟩ <;> decide

lemma OrdinaryPriorities.append {l m : List Op} (hl : OrdinaryPriorities l) (hm : OrdinaryPriorities m) : OrdinaryPriorities (l ++ m) := by
  intro n v hv
  rcases List.mem_append.mp hv with h | h
  · exact hl n v h
  · exact hm n v h

lemma get_ordinary (names : List Name) : OrdinaryPriorities (names.map Op.get) := by
  intro n v hv
  simp at hv

open Classical in
/-- **C90**: after `initLogging()` without a configuration file, a message is written to the standard error stream exactly once if
its priority is at most 500 (`NOTICE`) for `Ubitrack.Events` and the categories below it, and at most 600 (`INFO`) for all
others; less urgent messages are not written. This holds whichever categories have been created before and after. -/
theorem C90_default (before after : List Name) (app : ℕ) (name : Name) (priority : ℤ) :
    (logTo ((before.map Op.get ++ initLogging app ++ after.map Op.get).foldl run Heap.empty) name priority).count app =
      if priority ≤ (if IsEvents name then 500 else 600) then 1 else 0 := by
  have ho : OrdinaryPriorities (before.map Op.get ++ initLogging app ++ after.map Op.get) :=
    OrdinaryPriorities.append (OrdinaryPriorities.append (get_ordinary before) (init_ordinary app)) (get_ordinary after)
  obtain ⟨-, path, hp, -⟩ := C90_one_answer _ ho name
  obtain ⟨c1, c2, c3⟩ := config_initLogging app
  rw [C90_delivery _ ho name _ path (by rw [config_init]; exact init_inForce _ c1 name) hp]
  rw [config_init] at hp ⊢
  rw [init_count _ c2 {app} c3 name path hp app]
  simp

/-- The events category and another one: the same message is written for one only. -/
example : IsEvents "Ubitrack.Events.Dataflow".toList ∧ ¬ IsEvents "Ubitrack.EventsX".toList := by
  refine ⟨Or.inr ⟨"Dataflow".toList, by decide⟩, ?_⟩
  rintro (h | ⟨rest, h⟩)
  · exact absurd h (by decide)
  · have : ("Ubitrack.EventsX".toList)[15]? = ("Ubitrack.Events".toList ++ '.' :: rest)[15]? := by rw [h]
    rw [List.getElem?_append_right (by decide)] at this
    exact absurd this (by simp)

open Classical in
/-- **C90** fails when `initLogging()` is called twice, as it is when a program and a library both call it: both appenders are for
the standard error stream, and every message is written twice. -/
theorem C90_twice_refuted (app app' : ℕ) (_hne : app ≠ app') (name : Name) (priority : ℤ) :
    (logTo ((initLogging app ++ initLogging app').foldl run Heap.empty) name priority).count app =
        (if priority ≤ (if IsEvents name then 500 else 600) then 1 else 0) ∧
      (logTo ((initLogging app ++ initLogging app').foldl run Heap.empty) name priority).count app' =
        (if priority ≤ (if IsEvents name then 500 else 600) then 1 else 0) := by
  have ho : OrdinaryPriorities (initLogging app ++ initLogging app') := OrdinaryPriorities.append (init_ordinary app) (init_ordinary app')
  obtain ⟨-, path, hp, -⟩ := C90_one_answer _ ho name
  have hc : configAfter (initLogging app ++ initLogging app') = (initLogging app').foldl LogConfig.after (configAfter (initLogging app)) := by
    unfold configAfter
    rw [List.foldl_append]
  obtain ⟨d1, d2, d3⟩ := config_initLogging app
  obtain ⟨e1, e2, e3⟩ := config_after_init (configAfter (initLogging app)) app'
  rw [← hc] at e1 e2 e3
  have c1 : (configAfter (initLogging app ++ initLogging app')).priority =
      (fun n => if n = "Ubitrack.Events".toList then some 500 else if n = [] then some 600 else none) := by
    rw [e1, d1]
    funext n
    by_cases h : n = "Ubitrack.Events".toList
    · rw [if_pos h, if_pos h]
    · rw [if_neg h, if_neg h]
      by_cases h2 : n = []
      · rw [if_pos h2, if_pos h2]
      · rw [if_neg h2, if_neg h2]
        beta_reduce
        rw [if_neg h, if_neg h2]
  have c2 : (configAfter (initLogging app ++ initLogging app')).additive = (fun n => if n = [] then false else true) := by
    rw [e2, d2]
    funext n
    by_cases h2 : n = []
    · rw [if_pos h2, if_pos h2]
    · rw [if_neg h2, if_neg h2]
      beta_reduce
      rw [if_neg h2]
  have c3 : (configAfter (initLogging app ++ initLogging app')).appenders = (fun n => if n = [] then {app', app} else ∅) := by
    rw [e3, d3]
    funext n
    by_cases h2 : n = []
    · rw [if_pos h2, if_pos h2]
      beta_reduce
      rw [if_pos h2]
    · rw [if_neg h2, if_neg h2]
      beta_reduce
      rw [if_neg h2]
  rw [C90_delivery _ ho name _ path (init_inForce _ c1 name) hp, C90_delivery _ ho name _ path (init_inForce _ c1 name) hp,
    init_count _ c2 _ c3 name path hp app, init_count _ c2 _ c3 name path hp app']
  simp

/-- **C90** fails for priorities beyond `NOTSET` (800), which `setPriority` takes like `NOTSET`, and which it does not pass on: the
category `a` takes the priority of the root, 600, but does not follow it to 100. -/
theorem C90_beyond_notset_refuted :
    let ops : List Op := [.addAppender [] 1, .setPriority ['a'] 900, .setPriority [] 100]
    InForce (configAfter ops) ['a'] 100 ∧ (logTo (ops.foldl run Heap.empty) ['a'] 600).count 1 = 1 := by
  refine ⟨.above _ [] _ (by decide) (Or.inr ⟨rfl, by decide, by decide⟩) (.own _ _ (by decide)), ?_⟩
  have e : parentName ['a'] = [] := by decide
  simp [run, logTo, log, isPriorityEnabled, getInstance, e, create, Heap.empty, Heap.modify, addAppender, setPriority,
    assignPriority, propagate, updateChained, callAppenders, INFO, NOTSET]

/-! ### Appenders -/

/-- **C90**: an appender writes an event if the priority is at most its threshold (or the threshold is `NOTSET`) and the first filter of its
chain that is not neutral, if there is one, does not deny. -/
theorem C90_appender (threshold : ℤ) (filters : List Decision) (priority : ℤ) :
    doAppend threshold filters priority = true ↔
      (threshold = 800 ∨ priority ≤ threshold) ∧ filters.find? (fun d => decide (d ≠ .neutral)) ≠ some .deny := by
  have hchain : ∀ (rest : List Decision) (d : Decision), decideChain d rest ≠ .deny ↔
      (d :: rest).find? (fun d => decide (d ≠ .neutral)) ≠ some .deny := by
    intro rest
    induction rest with
    | nil => intro d; cases d <;> simp [decideChain]
    | cons e rest ih =>
      intro d
      cases d with
      | neutral =>
        rw [decideChain, ih e]
        rfl
      | deny => simp [decideChain]
      | accept => simp [decideChain]
  unfold doAppend
  have e : (NOTSET = threshold ∨ priority ≤ threshold) ↔ (threshold = 800 ∨ priority ≤ threshold) := by
    rw [eq_comm]
  split
  · rename_i h
    rcases filters with _ | ⟨d, rest⟩
    · simpa using e.mp h
    · simp only [decide_eq_true_eq]
      rw [hchain rest d]
      exact ⟨fun x => ⟨e.mp h, x⟩, fun x => x.2⟩
  · rename_i h
    simp only [Bool.false_eq_true, false_iff, not_and]
    exact fun x => absurd (e.mpr x) h

/-- A chain in which a neutral filter comes before a denying one, and one in which an accepting filter comes first. -/
example : doAppend 600 [.neutral, .deny, .accept] 500 = false ∧ doAppend 600 [.neutral, .accept, .deny] 500 = true := by decide

/-! ### Exceptions -/

/-- **C90**: an exception that is made with the name of a file can be made whatever the configuration of the logging, and it is logged with place
and message exactly when debugging is enabled for exceptions. -/
theorem C90_exception (message : String) (line : ℕ) (file : String) :
    exceptionLog true message line (some file) =
      some (some ("Exception thrown in " ++ file ++ ":" ++ toString line ++ ", message: " ++ message)) ∧
    exceptionLog false message line (some file) = some none := ⟨rfl, rfl⟩

/-- **C90** fails for an exception that is made without a file name, the default of the argument, when the category of the exceptions is enabled for
debugging: a null pointer is written to a stream. In the default configuration, where this priority (700) is not enabled, the same
exception can be made. -/
theorem C90_exception_refuted (message : String) (line app : ℕ) :
    exceptionLog true message line none = none ∧
    exceptionLog ((logTo ((initLogging app).foldl run Heap.empty) "Ubitrack.Util.Exception".toList DEBUG).contains app) message line none =
      some none := by
  refine ⟨rfl, ?_⟩
  have h := C90_default [] [] app "Ubitrack.Util.Exception".toList DEBUG
  simp only [List.map_nil, List.nil_append, List.append_nil] at h
  have hz : (logTo ((initLogging app).foldl run Heap.empty) "Ubitrack.Util.Exception".toList DEBUG).count app = 0 := by
    rw [h, if_neg]
    split <;> decide
  have hc : (logTo ((initLogging app).foldl run Heap.empty) "Ubitrack.Util.Exception".toList DEBUG).contains app = false := by
    rw [List.count_eq_zero] at hz
    simpa using hz
  rw [hc]
  rfl

/-! ### Two threads -/

open Classical in
/-- **C90** fails when a category is created while the priority of its parent is set in another thread: in every state the new category
keeps the former priority of its parent when it has read it before the assignment and enters the list of the children after the
loop, although no priority of its own is set. When one thread does its steps after those of the other, the new category has the new priority. -/
theorem C90_interleaved_refuted (h : Heap) (hg : Good h) (p : ℕ) (hp : p < h.size) (name : Name) (v seen : ℤ) (hv : v < 800) :
    let stale := [Step.read, .assign, .loop, .link].foldl (twoStep name p v) ⟨h, seen⟩
    let first := [Step.assign, .loop, .read, .link].foldl (twoStep name p v) ⟨h, seen⟩
    ((stale.heap.cat h.size).parent = some p ∧ (stale.heap.cat h.size).priority = 800 ∧
      (stale.heap.cat p).chained = v ∧ (stale.heap.cat h.size).chained = (h.cat p).chained) ∧
    (first.heap.cat p).chained = v ∧ (first.heap.cat h.size).chained = v := by
  obtain ⟨h1, hh1⟩ : ∃ h1, h1 = (assignPriority h p v).getD h := ⟨_, rfl⟩
  have ha : h1 = h.modify p fun c => { c with priority := v, chained := v } := by
    rw [hh1, assignPriority, if_pos hv]
    rfl
  have hw1 : Wf h1 := by rw [ha]; exact hg.toWf.modify_prio p v v
  have hs1 : h1.size = h.size := by rw [ha]; rfl
  obtain ⟨hsame, hch⟩ := propagate_spec h1 hw1 p (by rw [hs1]; exact hp)
  have hsz : (propagate h1 p).size = h.size := hsame.size.trans hs1
  have hcp : ((propagate h1 p).cat p).chained = v := by
    rw [hch p]
    have : (h1.cat p).chained = v := by rw [ha, Logging.modify_prio]; simp
    rw [this]
    split <;> rfl
  have hnew : ∀ w : ℤ, let g := ((create (propagate h1 p) name (some p) NOTSET).1).modify (propagate h1 p).size fun c => { c with chained := w }
      (g.cat h.size).parent = some p ∧ (g.cat h.size).priority = 800 ∧ (g.cat p).chained = v ∧ (g.cat h.size).chained = w := by
    intro w g
    have g1 : g.cat h.size = { (create (propagate h1 p) name (some p) NOTSET).1.cat h.size with chained := w } := by
      show (Heap.modify _ _ _).cat h.size = _
      rw [modify_cat, hsz, if_pos rfl]
    have g2 : g.cat p = (create (propagate h1 p) name (some p) NOTSET).1.cat p := by
      show (Heap.modify _ _ _).cat p = _
      rw [modify_cat, hsz, if_neg (by omega)]
    have g3 := create_new (propagate h1 p) name (some p) NOTSET
    rw [hsz] at g3
    have g4 := create_old (propagate h1 p) name (some p) NOTSET p (by rw [hsz]; exact hp)
    refine ⟨by rw [g1, g3], by rw [g1, g3], by rw [g2, g4]; exact hcp, by rw [g1]⟩
  constructor
  · have := hnew (h.cat p).chained
    simp only [List.foldl_cons, List.foldl_nil, twoStep]
    rw [← hh1]
    exact this
  · have := hnew ((propagate h1 p).cat p).chained
    simp only [List.foldl_cons, List.foldl_nil, twoStep]
    rw [← hh1]
    refine ⟨this.2.2.1, ?_⟩
    rw [this.2.2.2, hcp]

/-- A state in which this happens: the root exists, its priority goes from 600 to 100. -/
example : Good (run Heap.empty (.get [])) ∧ 0 < (run Heap.empty (.get [])).size ∧ ((run Heap.empty (.get [])).cat 0).chained = 600 := by
  refine ⟨(getInstance_spec _ good_empty []).1, ?_, ?_⟩ <;>
    simp [run, getInstance, create, Heap.empty]

end Ubitrack.Logging
