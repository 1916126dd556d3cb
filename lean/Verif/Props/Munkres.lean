import Verif.Proofs.Munkres
import Mathlib.Algebra.Order.Group.Int

/-!
# C20: the assignment solver
-/

namespace Ubitrack.Munkres

open Ubitrack.Spec

variable {K : Type*} [AddCommGroup K] [LinearOrder K]

theorem getD_lt (l : List ℕ) (i : ℕ) (h : i < l.length) : l.getD i 0 = l[i] := by
  rw [List.getD_eq_getElem?_getD, List.getElem?_eq_getElem h]; rfl

/-- The state `solve` starts from for a square matrix. -/
theorem setMatrix_square (m : ℕ) (C : ℕ → ℕ → K) :
    ∃ s, setMatrix m m C = some s ∧ s.max = m ∧ s.step = 1 ∧ s.saverow = 0 ∧ s.savecol = 0 ∧
      s.mask = (fun _ _ => Z.normal) ∧
      s.mat = fun r c => C r c - rowMin (vMax m m C) m C r := by
  refine ⟨⟨fun _ _ => .normal, fun r c => C r c - rowMin (vMax m m C) m C r, fun _ => false,
    fun _ => false, 0, 0, m, 1⟩, ?_, rfl, rfl, rfl, rfl, rfl, rfl⟩
  unfold setMatrix pad
  rw [if_pos rfl]
  simp

theorem solve_cases (m : ℕ) (C : ℕ → ℕ → K) (s : St K) (hs : setMatrix m m C = some s) :
    (rounds 1 s).mask = maskAt C m m 0 ∧ (rounds 1 s).max = m ∧ (rounds 1 s).step = 2 ∧
      (rounds 1 s).saverow = 0 ∧ (rounds 1 s).savecol = 0 := by
  obtain ⟨s', h0, h1, h2, h3, h4, h5, h6⟩ := setMatrix_square m C
  rw [h0] at hs
  obtain rfl := Option.some.inj hs
  have hst : rounds 1 s' = step1 s' := by
    show rounds 0 (step s') = _
    show step s' = _
    unfold step; rw [h2]; rfl
  rw [hst]
  refine ⟨?_, h1, rfl, h3, h4⟩
  show (List.range s'.max).foldl _ s'.mask = _
  rw [h1, h5]
  apply step1_mask C s'.mat m _ m le_rfl
  intro r hr c hc
  rw [h6]
  have hm : 0 < m := by omega
  obtain ⟨g1, c0, hc0, g2⟩ := rowMin_spec (vMax m m C) m C r hm (fun c hc => le_vMax m m C hr hc)
  show C r c - _ = 0 ↔ _
  rw [sub_eq_zero]
  constructor
  · intro h c' hc'
    rw [h]; exact g1 c' hc'
  · intro h
    apply le_antisymm
    · rw [g2]; exact h c0 hc0
    · exact g1 c hc

theorem rounds_two (m : ℕ) (C : ℕ → ℕ → K) (s : St K) (hs : setMatrix m m C = some s) :
    (rounds 2 s).mask = maskAt C m m 0 ∧ (rounds 2 s).max = m ∧
      (rounds 2 s).saverow = 0 ∧ (rounds 2 s).savecol = 0 ∧
      ((none ∉ firstFit C m m ∧ (rounds 2 s).step = 0) ∨
        (none ∈ firstFit C m m ∧ (rounds 2 s).step = 3)) := by
  obtain ⟨h1, h2, h3, h4, h5⟩ := solve_cases m C s hs
  have hst : rounds 2 s = step2 (rounds 1 s) := by
    rw [show 2 = 1 + 1 from rfl, rounds_add]
    show step (rounds 1 s) = _
    unfold step; rw [h3]; rfl
  rw [hst]
  refine ⟨h1, h2, h4, h5, ?_⟩
  have hstep : (step2 (rounds 1 s)).step = if none ∉ firstFit C m m then 0 else 3 := by
    show (if _ ≥ (rounds 1 s).max then 0 else 3) = _
    rw [h1, h2]
    by_cases h : none ∉ firstFit C m m
    · rw [if_pos h, if_pos ((covercount_iff C m).mpr h)]
    · rw [if_neg h, if_neg (fun h' => h ((covercount_iff C m).mp h'))]
  by_cases h : none ∉ firstFit C m m
  · left; exact ⟨h, by rw [hstep, if_pos h]⟩
  · right; exact ⟨not_not.mp h, by rw [hstep, if_neg h]⟩

/-- **C20** When `solve()` returns, exactly: on a square matrix it returns if and only if first fit on
the row minima gives every row a column. -/
theorem C20_terminates_iff (m : ℕ) (C : ℕ → ℕ → K) :
    ∃ s, setMatrix m m C = some s ∧ ((∃ t, SolvesTo s t) ↔ none ∉ firstFit C m m) := by
  obtain ⟨s, hs, -⟩ := setMatrix_square m C
  refine ⟨s, hs, ?_⟩
  obtain ⟨h1, h2, h3, h4, h5⟩ := rounds_two m C s hs
  constructor
  · rintro ⟨t, n, ht, hfin⟩ hbad
    rcases h5 with h5 | ⟨-, h5⟩
    · exact h5.1 hbad
    -- never returns
    have hm : 0 < m := by
      rw [mem_firstFit] at hbad
      obtain ⟨r, hr, _⟩ := hbad
      omega
    obtain ⟨c, hc⟩ := pick_zero C m hm
    have hn : (rounds (2 + n) s).step = 0 := by
      rw [Nat.add_comm, rounds_add, ht, rounds_stop _ _ hfin]
      exact hfin
    rw [rounds_add] at hn
    by_cases hc0 : c = 0
    · subst hc0
      refine never_final (InvB m (maskAt C m m 0)) ?_ ?_ (rounds 2 s) ?_ n hn
      · apply invB_step
        · rw [maskAt_star]; exact Or.inl ⟨hm, hc⟩
        · intro c' hc' hstar
          rw [maskAt_star, hc] at hstar
          rcases hstar with ⟨_, h⟩ | ⟨h, _, _⟩
          · simp at h; exact hc' h.symm
          · omega
        · intro r' hr' hstar
          rw [maskAt_star] at hstar
          rcases hstar with ⟨_, h⟩ | ⟨h, h', _⟩
          · exact hr' (pick_inj h hc)
          · omega
        · intro r c'
          unfold maskAt
          split_ifs <;> decide
        · intro h; exact (covercount_iff C m).mp h hbad
      · rintro t ⟨_, _, _, ⟨_, h | h | h⟩ | ⟨_, h⟩⟩ <;> rw [h] <;> decide
      · exact ⟨h3, h4, h2, Or.inl ⟨h1, Or.inr (Or.inl h5)⟩⟩
    · refine never_final InvA invA_step ?_ (rounds 2 s) ?_ n hn
      · rintro t ⟨_, _, _, h | h⟩ <;> rw [h] <;> decide
      · refine ⟨h3, h4, ⟨c, hc0, ?_, ?_⟩, Or.inl h5⟩
        · rw [h2]; exact pick_lt hc
        · rw [h1, maskAt_star]; exact Or.inl ⟨hm, hc⟩
  · intro h
    rcases h5 with ⟨-, h5⟩ | ⟨h5, -⟩
    · exact ⟨_, 2, rfl, h5⟩
    · exact absurd h5 h

theorem solvesTo_eq (m : ℕ) (C : ℕ → ℕ → K) (s t : St K) (hs : setMatrix m m C = some s)
    (ht : SolvesTo s t) : none ∉ firstFit C m m ∧ t.mask = maskAt C m m 0 ∧ t.max = m := by
  obtain ⟨s', hs', hiff⟩ := C20_terminates_iff m C
  rw [hs] at hs'
  obtain rfl := Option.some.inj hs'
  have hnone := hiff.mp ⟨t, ht⟩
  obtain ⟨h1, h2, -, -, h5⟩ := rounds_two m C s hs
  have h6 : (rounds 2 s).step = 0 := by
    rcases h5 with h5 | h5
    · exact h5.2
    · exact absurd h5.1 hnone
  obtain ⟨n, hn, hfin⟩ := ht
  have e1 : rounds (2 + n) s = rounds 2 s := by rw [rounds_add, rounds_stop _ _ h6]
  have e2 : rounds (n + 2) s = t := by rw [rounds_add, hn, rounds_stop _ _ hfin]
  rw [Nat.add_comm] at e1
  have e : t = rounds 2 s := by rw [← e2, e1]
  rw [e]
  exact ⟨hnone, h1, h2⟩

/-- The row match list is first fit. -/
theorem rowMatchList_eq (m : ℕ) (C : ℕ → ℕ → K) (s t : St K) (hs : setMatrix m m C = some s)
    (ht : SolvesTo s t) : (rowMatchList t).map some = firstFit C m m := by
  obtain ⟨hnone, hmask, hmax⟩ := solvesTo_eq m C s t hs ht
  have hfind : ∀ r < m, (List.range m).find? (fun col => decide (t.mask r col = .star)) = pick C m r := by
    intro r hr
    rcases hp : pick C m r with _ | c
    · exact absurd ((mem_firstFit C m m none).mpr ⟨r, hr, hp⟩) hnone
    · rw [List.find?_range_eq_some]
      have hc := pick_lt hp
      refine ⟨?_, List.mem_range.mpr hc, ?_⟩
      · rw [decide_eq_true_eq, hmask, maskAt_star]; exact Or.inl ⟨hr, hp⟩
      · intro j hj
        rw [Bool.not_eq_true', decide_eq_false_iff_not, hmask, maskAt_star, hp]
        rintro (⟨_, h⟩ | ⟨_, h, _⟩)
        · simp at h; omega
        · omega
  rw [firstFit_eq]
  unfold rowMatchList
  rw [hmax]
  have key : ∀ l : List ℕ, (∀ r ∈ l, r < m) →
      (l.filterMap fun row => (List.range m).find? fun col => decide (t.mask row col = .star)).map some =
        l.map (pick C m) := by
    intro l
    induction l with
    | nil => intro _; rfl
    | cons a l ih =>
      intro hl
      have ha := hl a (by simp)
      have := ih (fun r hr => hl r (by simp [hr]))
      rcases hp : pick C m a with _ | c
      · exact absurd ((mem_firstFit C m m none).mpr ⟨a, ha, hp⟩) hnone
      · rw [List.filterMap_cons_some (b := c) (by rw [hfind a ha, hp])]
        rw [List.map_cons, this, List.map_cons, hp]
  exact key _ (fun r hr => List.mem_range.mp hr)

variable [IsOrderedAddMonoid K]

/-- **C20 (partial)** Whenever `solve()` returns on a square matrix, the row match list assigns every
row a column, different rows different columns, with minimal total cost among all such
assignments; it is the first-fit assignment. Missing: `solve()` does not always return
(`C20_loops_forever_refuted`), and rectangular matrices (`C20_rectangular_refuted`). -/
theorem C20_optimal_partial (m : ℕ) (C : ℕ → ℕ → K) (s t : St K) (hs : setMatrix m m C = some s)
    (ht : SolvesTo s t) :
    (rowMatchList t).length = m ∧ (rowMatchList t).map some = firstFit C m m ∧
      IsOptimal C m (fun r => (rowMatchList t).getD r 0) := by
  have hl := rowMatchList_eq m C s t hs ht
  obtain ⟨hnone, -, -⟩ := solvesTo_eq m C s t hs ht
  have hlen : (rowMatchList t).length = m := by
    have := congrArg List.length hl
    rw [firstFit_eq] at this
    simpa using this
  have hpick : ∀ r < m, pick C m r = some ((rowMatchList t).getD r 0) := by
    intro r hr
    have h1 := congrArg (fun l => l[r]?) hl
    simp only [firstFit_eq, List.getElem?_map, List.getElem?_range hr, Option.map_some] at h1
    rw [List.getElem?_eq_getElem (by omega)] at h1
    simp only [Option.map_some, Option.some.injEq] at h1
    rw [← h1, getD_lt _ _ (by omega)]
  refine ⟨hlen, hl, ⟨fun r hr => pick_lt (hpick r hr), ?_⟩, ?_⟩
  · intro r hr r' hr' he
    have h1 := hpick r hr
    have h2 := hpick r' hr'
    simp only at he
    rw [← he] at h2
    exact pick_inj h1 h2
  · intro col' hcol'
    unfold cost
    apply Finset.sum_le_sum
    intro r hr
    have hr' := Finset.mem_range.mp hr
    exact ((pick_some_iff C m r _).mp (hpick r hr')).2.1.1 _ (hcol'.1 r hr')

omit [IsOrderedAddMonoid K] in
/-- **C20 (partial)** The column match list is the inverse of the row match list. -/
theorem C20_colMatchList_partial (m : ℕ) (C : ℕ → ℕ → K) (s t : St K) (hs : setMatrix m m C = some s)
    (ht : SolvesTo s t) (c : ℕ) (hc : c < m) :
    (colMatchList t).length = m ∧ (colMatchList t).getD c 0 < m ∧
      (rowMatchList t).getD ((colMatchList t).getD c 0) 0 = c := by
  have hl := rowMatchList_eq m C s t hs ht
  obtain ⟨hnone, hmask, hmax⟩ := solvesTo_eq m C s t hs ht
  have hlen : (rowMatchList t).length = m := by
    have := congrArg List.length hl
    rw [firstFit_eq] at this
    simpa using this
  have hpick : ∀ r < m, pick C m r = some ((rowMatchList t).getD r 0) := by
    intro r hr
    have h1 := congrArg (fun l => l[r]?) hl
    simp only [firstFit_eq, List.getElem?_map, List.getElem?_range hr, Option.map_some] at h1
    rw [List.getElem?_eq_getElem (by omega)] at h1
    simp only [Option.map_some, Option.some.injEq] at h1
    rw [← h1, getD_lt _ _ (by omega)]
  -- every column is used
  have hsurj : ∀ c < m, ∃ r < m, pick C m r = some c := by
    intro c hc
    have hinj : Set.InjOn (fun r => (rowMatchList t).getD r 0) (Finset.range m) := by
      intro r hr r' hr' he
      have h1 := hpick r (Finset.mem_range.mp hr)
      have h2 := hpick r' (Finset.mem_range.mp hr')
      simp only at he
      rw [← he] at h2
      exact pick_inj h1 h2
    have himg : (Finset.range m).image (fun r => (rowMatchList t).getD r 0) = Finset.range m := by
      apply Finset.eq_of_subset_of_card_le
      · intro x hx
        obtain ⟨r, hr, rfl⟩ := Finset.mem_image.mp hx
        exact Finset.mem_range.mpr (pick_lt (hpick r (Finset.mem_range.mp hr)))
      · rw [Finset.card_image_of_injOn hinj]
    have : c ∈ (Finset.range m).image (fun r => (rowMatchList t).getD r 0) := by
      rw [himg]; exact Finset.mem_range.mpr hc
    obtain ⟨r, hr, he⟩ := Finset.mem_image.mp this
    exact ⟨r, Finset.mem_range.mp hr, by rw [hpick r (Finset.mem_range.mp hr)]; exact congrArg some he⟩
  choose! inv hinv using hsurj
  have hfind : ∀ c < m, (List.range m).find? (fun row => decide (t.mask row c = .star)) = some (inv c) := by
    intro c hc
    rw [List.find?_range_eq_some]
    refine ⟨?_, List.mem_range.mpr (hinv c hc).1, ?_⟩
    · rw [decide_eq_true_eq, hmask, maskAt_star]; exact Or.inl (hinv c hc)
    · intro j hj
      rw [Bool.not_eq_true', decide_eq_false_iff_not, hmask, maskAt_star]
      rintro (⟨_, h⟩ | ⟨_, h, _⟩)
      · have := pick_inj h (hinv c hc).2; omega
      · omega
  have hcl : colMatchList t = (List.range m).map inv := by
    unfold colMatchList
    rw [hmax]
    have key : ∀ l : List ℕ, (∀ r ∈ l, r < m) →
        (l.filterMap fun c => (List.range m).find? fun row => decide (t.mask row c = .star)) = l.map inv := by
      intro l
      induction l with
      | nil => intro _; rfl
      | cons a l ih =>
        intro hl
        rw [List.filterMap_cons_some (f := fun c => (List.range m).find? fun row =>
            decide (t.mask row c = .star)) (b := inv a) (hfind a (hl a (by simp))),
          ih (fun r hr => hl r (by simp [hr])), List.map_cons]
    exact key _ (fun r hr => List.mem_range.mp hr)
  have hget : (colMatchList t).getD c 0 = inv c := by
    rw [hcl, getD_lt _ _ (by simpa using hc)]
    simp
  rw [hget]
  refine ⟨by rw [hcl]; simp, (hinv c hc).1, ?_⟩
  have h1 := hpick (inv c) (hinv c hc).1
  rw [(hinv c hc).2] at h1
  exact (Option.some.inj h1).symm

/-- **C20 (refuted in general)** `solve()` never returns for the matrix `0 0 / 0 1`, although it has an
optimal matching of cost 0. -/
theorem C20_loops_forever_refuted :
    ∃ C : ℕ → ℕ → ℤ, C 0 0 = 0 ∧ C 0 1 = 0 ∧ C 1 0 = 0 ∧ C 1 1 = 1 ∧
      IsOptimal C 2 (fun r => 1 - r) ∧
      ∃ s, setMatrix 2 2 C = some s ∧ ∀ t, ¬ SolvesTo s t := by
  refine ⟨fun r c => if r = 1 ∧ c = 1 then 1 else 0, rfl, rfl, rfl, rfl, ⟨⟨?_, ?_⟩, ?_⟩, ?_⟩
  · intro r hr; show 1 - r < 2; omega
  · intro r hr r' hr' h
    simp only at h
    omega
  · intro col' _
    unfold cost
    refine le_trans (b := 0) ?_ ?_
    · apply le_of_eq
      rfl
    · apply Finset.sum_nonneg
      intro r _
      show (0 : ℤ) ≤ if r = 1 ∧ col' r = 1 then 1 else 0
      split_ifs <;> decide
  · obtain ⟨s, hs, hiff⟩ := C20_terminates_iff 2 (fun r c => if r = 1 ∧ c = 1 then (1 : ℤ) else 0)
    refine ⟨s, hs, fun t ht => ?_⟩
    have := hiff.mp ⟨t, ht⟩
    apply this
    rw [mem_firstFit]
    have h0 : pick (fun r c => if r = 1 ∧ c = 1 then (1 : ℤ) else 0) 2 0 = some 0 := by
      rw [pick_some_iff]
      refine ⟨by decide, ⟨?_, by simp [firstFit]⟩, by intro c hc; omega⟩
      intro c _
      simp
    refine ⟨1, by decide, ?_⟩
    rw [pick_none_iff]
    intro c hc
    rintro ⟨h1, h2⟩
    have hc' : c = 0 ∨ c = 1 := by omega
    rcases hc' with rfl | rfl
    · exact h2 ((mem_firstFit _ 2 1 _).mpr ⟨0, by decide, h0⟩)
    · have := h1 0 (by decide)
      simp at this

omit [IsOrderedAddMonoid K] in
/-- **C20 (refuted in general)** No rectangular matrix can be solved: `setMatrix` always reads cells it
has not written (or passes an inverted index range). -/
theorem C20_rectangular_refuted (n1 n2 : ℕ) (h1 : 0 < n1) (h2 : 0 < n2) (hne : n1 ≠ n2) (C : ℕ → ℕ → K) :
    setMatrix n1 n2 C = none := by
  unfold setMatrix pad
  rw [if_neg hne]
  by_cases hgt : n1 > n2
  · rw [if_pos hgt]
    by_cases hlt : n1 - n2 < n2
    · rw [if_pos hlt]
    · rw [if_neg hlt]
      dsimp only
      rw [if_pos]
      refine ⟨0, h1, n1 - 1, by omega, ?_⟩
      rw [if_neg (by omega), if_neg (by omega)]
  · rw [if_neg hgt]
    by_cases hlt : n2 - n1 < n1
    · rw [if_pos hlt]
    · rw [if_neg hlt]
      dsimp only
      rw [if_pos]
      refine ⟨n2 - 1, by omega, 0, h2, ?_⟩
      rw [if_neg (by omega), if_neg (by omega)]

/-- A matrix that is solved: `solve()` returns for every matrix whose row minima are on the diagonal
only (here with a cost matrix of any size). -/
example (m : ℕ) : ∃ s t : St ℤ, setMatrix m m (fun r c => if r = c then -1 else (c : ℤ)) = some s ∧
    SolvesTo s t := by
  obtain ⟨s, hs, hiff⟩ := C20_terminates_iff m (fun r c => if r = c then (-1 : ℤ) else (c : ℤ))
  have : none ∉ firstFit (fun r c => if r = c then (-1 : ℤ) else (c : ℤ)) m m := by
    have hmin : ∀ r < m, ∀ c, IsRowMin (fun r c => if r = c then (-1 : ℤ) else (c : ℤ)) m r c ↔ c = r := by
      intro r hr c
      constructor
      · intro h
        have h1 := h r hr
        by_contra hc
        simp only [if_neg (Ne.symm hc), if_true] at h1
        omega
      · rintro rfl c' _
        simp only [if_true]
        split_ifs <;> omega
    have hp : ∀ r < m, pick (fun r c => if r = c then (-1 : ℤ) else (c : ℤ)) m r = some r := by
      intro r
      induction r using Nat.strong_induction_on with
      | _ r ih =>
        intro hr
        rw [pick_some_iff]
        refine ⟨hr, ⟨(hmin r hr r).mpr rfl, ?_⟩, ?_⟩
        · rw [mem_firstFit]
          rintro ⟨r', hr', h⟩
          rw [ih r' hr' (by omega)] at h
          simp at h; omega
        · rintro c hc ⟨h, _⟩
          have := (hmin r hr c).mp h
          omega
    rw [mem_firstFit]
    rintro ⟨r, hr, h⟩
    rw [hp r hr] at h
    cases h
  obtain ⟨t, ht⟩ := hiff.mpr this
  exact ⟨s, t, hs, ht⟩

end Ubitrack.Munkres
