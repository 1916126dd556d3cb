import Verif.Model.Munkres
import Verif.Spec.Assignment
import Mathlib.Algebra.Order.BigOperators.Group.Finset
import Mathlib.Data.Finset.Max

/-!
# Helper lemmas about the assignment solver
-/

namespace Ubitrack.Munkres

open Ubitrack.Spec

variable {K : Type*} [AddCommGroup K] [LinearOrder K]

/-! ### maxima and minima computed by loops -/

omit [AddCommGroup K] in
theorem fold_max (f : ℕ → K) (l : List ℕ) (v : K) :
    v ≤ l.foldl (fun v c => if f c > v then f c else v) v ∧
    ∀ c ∈ l, f c ≤ l.foldl (fun v c => if f c > v then f c else v) v := by
  induction l generalizing v with
  | nil => simp
  | cons a l ih =>
    simp only [List.foldl_cons]
    obtain ⟨h1, h2⟩ := ih (if f a > v then f a else v)
    have h3 : v ≤ (if f a > v then f a else v) := by split_ifs with h <;> [exact h.le; exact le_rfl]
    have h4 : f a ≤ (if f a > v then f a else v) := by
      split_ifs with h
      · exact le_rfl
      · exact not_lt.mp h
    refine ⟨h3.trans h1, ?_⟩
    intro c hc
    rcases List.mem_cons.mp hc with rfl | hc
    · exact h4.trans h1
    · exact h2 c hc

theorem le_vMax (n1 n2 : ℕ) (C : ℕ → ℕ → K) {r c : ℕ} (hr : r < n1) (hc : c < n2) :
    C r c ≤ vMax n1 n2 C := by
  unfold vMax
  have key : ∀ (l : List ℕ) (v : K), v ≤ (l.foldl (fun v row =>
      (List.range n2).foldl (fun v col => if C row col > v then C row col else v) v) v) ∧
      (r ∈ l → C r c ≤ (l.foldl (fun v row =>
      (List.range n2).foldl (fun v col => if C row col > v then C row col else v) v) v)) := by
    intro l
    induction l with
    | nil => intro v; simp
    | cons a l ih =>
      intro v
      simp only [List.foldl_cons]
      obtain ⟨h1, h2⟩ := ih ((List.range n2).foldl (fun v col => if C a col > v then C a col else v) v)
      obtain ⟨h3, h4⟩ := fold_max (C a) (List.range n2) v
      refine ⟨h3.trans h1, ?_⟩
      intro h
      rcases List.mem_cons.mp h with rfl | h
      · exact (h4 c (List.mem_range.mpr hc)).trans h1
      · exact h2 h
  exact (key (List.range n1) 0).2 (List.mem_range.mpr hr)

omit [AddCommGroup K] in
theorem fold_min (f : ℕ → K) (l : List ℕ) (v : K) :
    (l.foldl (fun v c => if f c < v then f c else v) v ≤ v) ∧
    (∀ c ∈ l, l.foldl (fun v c => if f c < v then f c else v) v ≤ f c) ∧
    (l.foldl (fun v c => if f c < v then f c else v) v = v ∨
      ∃ c ∈ l, l.foldl (fun v c => if f c < v then f c else v) v = f c) := by
  induction l generalizing v with
  | nil => simp
  | cons a l ih =>
    simp only [List.foldl_cons]
    obtain ⟨h1, h2, h3⟩ := ih (if f a < v then f a else v)
    have h4 : (if f a < v then f a else v) ≤ v := by split_ifs with h <;> [exact h.le; exact le_rfl]
    have h5 : (if f a < v then f a else v) ≤ f a := by
      split_ifs with h
      · exact le_rfl
      · exact not_lt.mp h
    refine ⟨h1.trans h4, ?_, ?_⟩
    · intro c hc
      rcases List.mem_cons.mp hc with rfl | hc
      · exact h1.trans h5
      · exact h2 c hc
    · rcases h3 with h3 | ⟨c, hc, h3⟩
      · by_cases h : f a < v
        · right; exact ⟨a, by simp, by rw [h3, if_pos h]⟩
        · left; rw [h3, if_neg h]
      · right; exact ⟨c, by simp [hc], h3⟩

omit [AddCommGroup K] in
theorem rowMin_spec (v : K) (m : ℕ) (C : ℕ → ℕ → K) (r : ℕ) (hm : 0 < m) (hv : ∀ c < m, C r c ≤ v) :
    (∀ c < m, rowMin v m C r ≤ C r c) ∧ ∃ c < m, rowMin v m C r = C r c := by
  obtain ⟨h1, h2, h3⟩ := fold_min (C r) (List.range m) v
  unfold rowMin
  refine ⟨fun c hc => h2 c (List.mem_range.mpr hc), ?_⟩
  rcases h3 with h3 | ⟨c, hc, h3⟩
  · exact ⟨0, hm, le_antisymm (h2 0 (List.mem_range.mpr hm)) (by rw [h3]; exact hv 0 hm)⟩
  · exact ⟨c, List.mem_range.mp hc, h3⟩

omit [AddCommGroup K] in
theorem exists_rowMin (m : ℕ) (C : ℕ → ℕ → K) (r : ℕ) (hm : 0 < m) : ∃ c < m, IsRowMin C m r c := by
  obtain ⟨c, hc, h⟩ := Finset.exists_min_image (Finset.range m) (C r) ⟨0, Finset.mem_range.mpr hm⟩
  exact ⟨c, Finset.mem_range.mp hc, fun c' hc' => h c' (Finset.mem_range.mpr hc')⟩

/-! ### the first-fit specification -/

open Classical in
/-- The column first fit gives to row `r`. -/
noncomputable def pick (C : ℕ → ℕ → K) (m r : ℕ) : Option ℕ :=
  (List.range m).find? (fun c => decide (IsRowMin C m r c ∧ some c ∉ firstFit C m r))

omit [AddCommGroup K] in
theorem firstFit_eq (C : ℕ → ℕ → K) (m r : ℕ) : firstFit C m r = (List.range r).map (pick C m) := by
  induction r with
  | zero => rfl
  | succ r ih => rw [List.range_succ, List.map_append, ← ih, firstFit]; rfl

omit [AddCommGroup K] in
theorem mem_firstFit (C : ℕ → ℕ → K) (m r : ℕ) (x : Option ℕ) :
    x ∈ firstFit C m r ↔ ∃ r' < r, pick C m r' = x := by
  rw [firstFit_eq]; simp

omit [AddCommGroup K] in
theorem pick_some_iff (C : ℕ → ℕ → K) (m r c : ℕ) :
    pick C m r = some c ↔ c < m ∧ (IsRowMin C m r c ∧ some c ∉ firstFit C m r) ∧
      ∀ c' < c, ¬ (IsRowMin C m r c' ∧ some c' ∉ firstFit C m r) := by
  unfold pick
  rw [List.find?_range_eq_some]
  simp only [decide_eq_true_eq, List.mem_range, Bool.not_eq_true', decide_eq_false_iff_not]
  tauto

omit [AddCommGroup K] in
theorem pick_lt {C : ℕ → ℕ → K} {m r c : ℕ} (h : pick C m r = some c) : c < m :=
  ((pick_some_iff C m r c).mp h).1

omit [AddCommGroup K] in
theorem pick_none_iff (C : ℕ → ℕ → K) (m r : ℕ) :
    pick C m r = none ↔ ∀ c < m, ¬ (IsRowMin C m r c ∧ some c ∉ firstFit C m r) := by
  unfold pick
  simp

omit [AddCommGroup K] in
theorem pick_inj {C : ℕ → ℕ → K} {m r r' c : ℕ} (h : pick C m r = some c) (h' : pick C m r' = some c) :
    r = r' := by
  rcases lt_trichotomy r r' with hlt | heq | hgt
  · exact absurd ((mem_firstFit C m r' _).mpr ⟨r, hlt, h⟩) ((pick_some_iff C m r' c).mp h').2.1.2
  · exact heq
  · exact absurd ((mem_firstFit C m r _).mpr ⟨r', hgt, h'⟩) ((pick_some_iff C m r c).mp h).2.1.2

omit [AddCommGroup K] in
theorem pick_zero (C : ℕ → ℕ → K) (m : ℕ) (hm : 0 < m) : ∃ c, pick C m 0 = some c := by
  obtain ⟨c, hc, h⟩ := exists_rowMin m C 0 hm
  rcases hp : pick C m 0 with _ | d
  · exact absurd ⟨h, by simp [firstFit]⟩ ((pick_none_iff C m 0).mp hp c hc)
  · exact ⟨d, rfl⟩

/-! ### `step1` -/

open Classical in
/-- The mask when `step1` has dealt with the rows below `r` and the columns below `c` of row `r`. -/
noncomputable def maskAt (C : ℕ → ℕ → K) (m r c : ℕ) : ℕ → ℕ → Z :=
  fun r' c' => if (r' < r ∧ pick C m r' = some c') ∨ (r' = r ∧ c' < c ∧ pick C m r = some c') then .star
    else .normal

omit [AddCommGroup K] in
theorem maskAt_star (C : ℕ → ℕ → K) (m r c r' c' : ℕ) :
    maskAt C m r c r' c' = .star ↔
      (r' < r ∧ pick C m r' = some c') ∨ (r' = r ∧ c' < c ∧ pick C m r = some c') := by
  unfold maskAt; split_ifs with h <;> simp [h]

theorem step1Cell_maskAt (C mat : ℕ → ℕ → K) (m r c : ℕ) (hr : r < m) (hc : c < m)
    (hz : mat r c = 0 ↔ IsRowMin C m r c) :
    step1Cell m mat (maskAt C m r c) r c = maskAt C m r (c + 1) := by
  have hsame : pick C m r ≠ some c → maskAt C m r c = maskAt C m r (c + 1) := by
    intro h
    funext r' c'
    unfold maskAt
    congr 1
    apply propext
    constructor
    · rintro (h1 | ⟨h1, h2, h3⟩)
      · exact Or.inl h1
      · exact Or.inr ⟨h1, by omega, h3⟩
    · rintro (h1 | ⟨h1, h2, h3⟩)
      · exact Or.inl h1
      · refine Or.inr ⟨h1, ?_, h3⟩
        rcases Nat.lt_succ_iff_lt_or_eq.mp h2 with h4 | h4
        · exact h4
        · subst h4; exact absurd h3 h
  unfold step1Cell
  by_cases hzero : mat r c = 0
  · rw [if_pos hzero]
    have hmin := hz.mp hzero
    dsimp only
    have hcol : ((List.range m).any fun nrow => decide (maskAt C m r c nrow c = .star)) = true ↔
        some c ∈ firstFit C m r := by
      rw [mem_firstFit]
      simp only [List.any_eq_true, List.mem_range, decide_eq_true_eq, maskAt_star]
      constructor
      · rintro ⟨x, hx, (h | ⟨_, h, _⟩)⟩
        · exact ⟨x, h.1, h.2⟩
        · exact absurd h (lt_irrefl _)
      · rintro ⟨x, hx, h⟩
        exact ⟨x, by omega, Or.inl ⟨hx, h⟩⟩
    have hrow : ((List.range m).any fun ncol => decide (maskAt C m r c r ncol = .star)) = true ↔
        ∃ d < c, pick C m r = some d := by
      simp only [List.any_eq_true, List.mem_range, decide_eq_true_eq, maskAt_star]
      constructor
      · rintro ⟨x, hx, (h | ⟨_, h, h'⟩)⟩
        · exact absurd h.1 (lt_irrefl _)
        · exact ⟨x, h, h'⟩
      · rintro ⟨x, hx, h⟩
        exact ⟨x, by omega, Or.inr ⟨by trivial, hx, h⟩⟩
    by_cases h1 : some c ∈ firstFit C m r
    · rw [hcol.mpr h1]
      simp only [Bool.true_or, Bool.not_true, Bool.false_eq_true, if_false]
      exact hsame (fun h => ((pick_some_iff C m r c).mp h).2.1.2 h1)
    · by_cases h2 : ∃ d < c, pick C m r = some d
      · rw [hrow.mpr h2]
        simp only [Bool.or_true, Bool.not_true, Bool.false_eq_true, if_false]
        obtain ⟨d, hd, hp⟩ := h2
        refine hsame (fun h => ?_)
        rw [hp] at h
        simp at h
        omega
      · have e1 : ((List.range m).any fun nrow => decide (maskAt C m r c nrow c = .star)) = false :=
          Bool.eq_false_iff.mpr (fun h => h1 (hcol.mp h))
        have e2 : ((List.range m).any fun ncol => decide (maskAt C m r c r ncol = .star)) = false :=
          Bool.eq_false_iff.mpr (fun h => h2 (hrow.mp h))
        rw [e1, e2]
        simp only [Bool.or_self, Bool.not_false, if_true]
        have hp : pick C m r = some c := by
          rw [pick_some_iff]
          refine ⟨hc, ⟨hmin, h1⟩, ?_⟩
          intro c' hc' hbad
          -- the first column satisfying the condition would be below c
          rcases hq : pick C m r with _ | d
          · exact (pick_none_iff C m r).mp hq c' (by omega) hbad
          · have hd := (pick_some_iff C m r d).mp hq
            refine h2 ⟨d, ?_, hq⟩
            by_contra hge
            exact hd.2.2 c' (by omega) hbad
        funext r' c'
        unfold upd
        by_cases hrc : r' = r ∧ c' = c
        · rw [if_pos hrc]
          symm
          rw [maskAt_star]
          exact Or.inr ⟨hrc.1, by omega, by rw [hp, hrc.2]⟩
        · rw [if_neg hrc]
          unfold maskAt
          congr 1
          apply propext
          constructor
          · rintro (h | ⟨h3, h4, h5⟩)
            · exact Or.inl h
            · exact Or.inr ⟨h3, by omega, h5⟩
          · rintro (h | ⟨h3, h4, h5⟩)
            · exact Or.inl h
            · rw [hp] at h5
              simp at h5
              exact absurd ⟨h3, h5.symm⟩ hrc
  · rw [if_neg hzero]
    exact hsame (fun h => hzero (hz.mpr ((pick_some_iff C m r c).mp h).2.1.1))

theorem step1_row (C mat : ℕ → ℕ → K) (m r : ℕ) (hr : r < m)
    (hz : ∀ c < m, (mat r c = 0 ↔ IsRowMin C m r c)) (n : ℕ) (hn : n ≤ m) :
    (List.range n).foldl (fun mask col => step1Cell m mat mask r col) (maskAt C m r 0) =
      maskAt C m r n := by
  induction n with
  | zero => rfl
  | succ n ih =>
    rw [List.range_succ, List.foldl_append, ih (by omega)]
    simp only [List.foldl_cons, List.foldl_nil]
    exact step1Cell_maskAt C mat m r n hr (by omega) (hz n (by omega))

omit [AddCommGroup K] in
theorem maskAt_wrap (C : ℕ → ℕ → K) (m r : ℕ) : maskAt C m r m = maskAt C m (r + 1) 0 := by
  funext r' c'
  unfold maskAt
  congr 1
  apply propext
  constructor
  · rintro (h | ⟨h3, h4, h5⟩)
    · exact Or.inl ⟨by omega, h.2⟩
    · exact Or.inl ⟨by omega, by rw [h3]; exact h5⟩
  · rintro (h | ⟨h3, h4, h5⟩)
    · by_cases he : r' = r
      · subst he; exact Or.inr ⟨rfl, pick_lt h.2, h.2⟩
      · exact Or.inl ⟨by omega, h.2⟩
    · omega

theorem step1_mask (C mat : ℕ → ℕ → K) (m : ℕ)
    (hz : ∀ r < m, ∀ c < m, (mat r c = 0 ↔ IsRowMin C m r c)) (n : ℕ) (hn : n ≤ m) :
    (List.range n).foldl (fun mask row =>
      (List.range m).foldl (fun mask col => step1Cell m mat mask row col) mask) (fun _ _ => Z.normal) =
      maskAt C m n 0 := by
  induction n with
  | zero => funext r c; simp [maskAt]
  | succ n ih =>
    rw [List.range_succ, List.foldl_append, ih (by omega)]
    simp only [List.foldl_cons, List.foldl_nil]
    rw [step1_row C mat m n (by omega) (hz n (by omega)) m le_rfl, maskAt_wrap]

/-! ### counting the stars -/

theorem sum_ge_iff (f : ℕ → ℕ) (m : ℕ) (h : ∀ r < m, f r ≤ 1) :
    ((List.range m).map f).sum ≤ m ∧ (((List.range m).map f).sum ≥ m ↔ ∀ r < m, f r = 1) := by
  induction m with
  | zero => simp
  | succ m ih =>
    obtain ⟨h1, h2⟩ := ih (fun r hr => h r (by omega))
    have h3 := h m (by omega)
    rw [List.range_succ, List.map_append, List.sum_append]
    simp only [List.map_cons, List.map_nil, List.sum_cons, List.sum_nil]
    refine ⟨by omega, ?_⟩
    constructor
    · intro hs r hr
      have h4 : ((List.range m).map f).sum ≥ m := by omega
      have h5 : f m = 1 := by omega
      rcases Nat.lt_succ_iff_lt_or_eq.mp hr with h6 | h6
      · exact h2.mp h4 r h6
      · rw [h6]; exact h5
    · intro hall
      have h4 := h2.mpr (fun r hr => hall r (by omega))
      have h5 := hall m (by omega)
      omega

omit [AddCommGroup K] in
theorem row_count (C : ℕ → ℕ → K) (m r : ℕ) (hr : r < m) :
    ((List.range m).filter fun col => decide (maskAt C m m 0 r col = .star)).length =
      if (pick C m r).isSome then 1 else 0 := by
  rcases hp : pick C m r with _ | c
  · have : ((List.range m).filter fun col => decide (maskAt C m m 0 r col = .star)) = [] := by
      rw [List.filter_eq_nil_iff]
      intro x _
      simp [maskAt_star, hp]
    rw [this]; simp
  · have hc := pick_lt hp
    have : ((List.range m).filter fun col => decide (maskAt C m m 0 r col = .star)) =
        (List.range m).filter (fun col => col == c) := by
      apply List.filter_congr
      intro x _
      simp only [maskAt_star, hp, hr, true_and, Option.some.injEq, Nat.not_lt_zero, false_and, and_false,
        or_false]
      by_cases hx : x = c
      · simp [hx]
      · simp [hx, Ne.symm hx]
    rw [this, ← List.countP_eq_length_filter]
    have h1 : List.count c (List.range m) = 1 :=
      List.count_eq_one_of_mem List.nodup_range (List.mem_range.mpr hc)
    simpa [List.count] using h1

omit [AddCommGroup K] in
theorem covercount_iff (C : ℕ → ℕ → K) (m : ℕ) :
    ((List.range m).map fun row =>
      ((List.range m).filter fun col => decide (maskAt C m m 0 row col = .star)).length).sum ≥ m ↔
      none ∉ firstFit C m m := by
  rw [(sum_ge_iff _ m (fun r hr => by rw [row_count C m r hr]; split_ifs <;> omega)).2]
  rw [mem_firstFit]
  constructor
  · intro h hbad
    obtain ⟨r, hr, hp⟩ := hbad
    have := h r hr
    rw [row_count C m r hr, hp] at this
    simp at this
  · intro h r hr
    rw [row_count C m r hr]
    rcases hp : pick C m r with _ | c
    · exact absurd ⟨r, hr, hp⟩ h
    · simp

/-! ### rounds -/

theorem rounds_add (a b : ℕ) (s : St K) : rounds (a + b) s = rounds b (rounds a s) := by
  induction a generalizing s with
  | zero => simp [rounds]
  | succ a ih => rw [Nat.succ_add]; exact ih (step s)

theorem rounds_stop (n : ℕ) (s : St K) (h : s.step = 0) : rounds n s = s := by
  induction n with
  | zero => rfl
  | succ n ih =>
    have : step s = s := by unfold step; rw [h]; rfl
    rw [rounds, this, ih]

/-- A set of states that is closed under rounds and contains no final state is never left. -/
theorem never_final (P : St K → Prop) (hstep : ∀ s, P s → P (step s)) (hne : ∀ s, P s → s.step ≠ 0)
    (s : St K) (h : P s) (n : ℕ) : (rounds n s).step ≠ 0 := by
  have : ∀ n s, P s → P (rounds n s) := by
    intro n
    induction n with
    | zero => intro s h; exact h
    | succ n ih => intro s h; exact ih _ (hstep s h)
  exact hne _ (this n s h)

/-- Case A: the star of row 0 is not in column 0. -/
def InvA (s : St K) : Prop :=
  s.saverow = 0 ∧ s.savecol = 0 ∧ (∃ c, c ≠ 0 ∧ c < s.max ∧ s.mask 0 c = .star) ∧
    (s.step = 3 ∨ s.step = 5)

theorem invA_step (s : St K) (h : InvA s) : InvA (step s) := by
  obtain ⟨h1, h2, ⟨c, hc0, hc, hstar⟩, h3⟩ := h
  rcases h3 with h3 | h3
  · have hs : step s = step3 s := by unfold step; rw [h3]; rfl
    rw [hs]
    unfold step3
    split_ifs with hf
    · dsimp only
      have hc' : upd s.mask s.saverow s.savecol .prime 0 c = .star := by
        unfold upd
        rw [h1, h2, if_neg (by simp [hc0])]; exact hstar
      rcases hq : (List.range s.max).find? (fun ncol =>
          decide (upd s.mask s.saverow s.savecol .prime s.saverow ncol = .star)) with _ | d
      · exfalso
        have := List.find?_eq_none.mp hq c (List.mem_range.mpr hc)
        rw [decide_eq_true_eq, h1] at this
        rw [h1] at hc'
        exact this hc'
      · exact ⟨h1, h2, ⟨c, hc0, hc, hc'⟩, Or.inl rfl⟩
    · exact ⟨h1, h2, ⟨c, hc0, hc, hstar⟩, Or.inr rfl⟩
  · have hs : step s = step5 s := by unfold step; rw [h3]; rfl
    rw [hs]
    exact ⟨h1, h2, ⟨c, hc0, hc, hstar⟩, Or.inl rfl⟩

/-- Case B: the star of row 0 is in column 0. `M` is the mask after `step1`. -/
def InvB (m : ℕ) (M : ℕ → ℕ → Z) (s : St K) : Prop :=
  s.saverow = 0 ∧ s.savecol = 0 ∧ s.max = m ∧
    ((s.mask = M ∧ (s.step = 2 ∨ s.step = 3 ∨ s.step = 5)) ∨
      (s.mask = upd M 0 0 .prime ∧ s.step = 4))

theorem invB_step (m : ℕ) (M : ℕ → ℕ → Z) (h00 : M 0 0 = .star)
    (hrow : ∀ c, c ≠ 0 → M 0 c ≠ .star) (hcol : ∀ r, r ≠ 0 → M r 0 ≠ .star)
    (hnp : ∀ r c, M r c ≠ .prime)
    (hcount : ¬ ((List.range m).map fun row =>
      ((List.range m).filter fun col => decide (M row col = .star)).length).sum ≥ m)
    (s : St K) (h : InvB m M s) : InvB m M (step s) := by
  obtain ⟨h1, h2, h3, ⟨h4, h5 | h5 | h5⟩ | ⟨h4, h5⟩⟩ := h
  · have hs : step s = step2 s := by unfold step; rw [h5]; rfl
    rw [hs]
    refine ⟨h1, h2, h3, Or.inl ⟨h4, Or.inr (Or.inl ?_)⟩⟩
    show (if _ ≥ s.max then 0 else 3) = 3
    rw [if_neg]
    rw [h3, h4]
    exact hcount
  · have hs : step s = step3 s := by unfold step; rw [h5]; rfl
    rw [hs]
    unfold step3
    split_ifs with hf
    · dsimp only
      have hnone : (List.range s.max).find? (fun ncol =>
          decide (upd s.mask s.saverow s.savecol .prime s.saverow ncol = .star)) = none := by
        rw [List.find?_eq_none]
        intro c _
        rw [decide_eq_true_eq, h1, h2, h4]
        unfold upd
        by_cases hc : c = 0
        · rw [if_pos ⟨rfl, hc⟩]; decide
        · rw [if_neg (by simp [hc])]; exact hrow c hc
      rw [hnone]
      refine ⟨h1, h2, h3, Or.inr ⟨?_, rfl⟩⟩
      show upd s.mask s.saverow s.savecol .prime = _
      rw [h1, h2, h4]
    · exact ⟨h1, h2, h3, Or.inl ⟨h4, Or.inr (Or.inr rfl)⟩⟩
  · have hs : step s = step5 s := by unfold step; rw [h5]; rfl
    rw [hs]
    exact ⟨h1, h2, h3, Or.inl ⟨h4, Or.inr (Or.inl rfl)⟩⟩
  · have hs : step s = step4 s := by unfold step; rw [h5]; rfl
    rw [hs]
    refine ⟨h1, h2, h3, Or.inl ⟨?_, Or.inl rfl⟩⟩
    have hseq : sequence s.mask s.max (s.max * s.max) s.savecol [(s.saverow, s.savecol)] = [(0, 0)] := by
      rw [h1, h2, h3, h4]
      rcases m * m with _ | fuel
      · rfl
      · unfold sequence
        have hnone : (List.range m).find? (fun row =>
            decide (upd M 0 0 Z.prime row 0 = .star ∧ (row, 0) ∉ [((0 : ℕ), (0 : ℕ))])) = none := by
          rw [List.find?_eq_none]
          intro r _
          rw [decide_eq_true_eq]
          rintro ⟨ha, _⟩
          unfold upd at ha
          by_cases hr : r = 0
          · rw [if_pos ⟨hr, rfl⟩] at ha; exact absurd ha (by decide)
          · rw [if_neg (by simp [hr])] at ha; exact hcol r hr ha
        rw [hnone]
    have hflip : flip (upd M 0 0 .prime) (0, 0) = M := by
      have e : upd M 0 0 Z.prime 0 0 = .prime := by unfold upd; simp
      unfold flip
      dsimp only
      have e2 : (if upd M 0 0 Z.prime 0 0 = .star then upd (upd M 0 0 Z.prime) 0 0 .normal
          else upd M 0 0 Z.prime) = upd M 0 0 .prime := by
        rw [if_neg]; rw [e]; decide
      rw [e2, if_pos e]
      funext r c
      unfold upd
      by_cases hrc : r = 0 ∧ c = 0
      · rw [if_pos hrc, hrc.1, hrc.2, h00]
      · rw [if_neg hrc, if_neg hrc]
    have hM : (sequence s.mask s.max (s.max * s.max) s.savecol [(s.saverow, s.savecol)]).foldl flip
        s.mask = M := by
      rw [hseq]
      simp only [List.foldl_cons, List.foldl_nil]
      rw [h4, hflip]
    funext r c
    show (if r < s.max ∧ c < s.max ∧ (sequence s.mask s.max (s.max * s.max) s.savecol
      [(s.saverow, s.savecol)]).foldl flip s.mask r c = Z.prime then Z.normal else
      (sequence s.mask s.max (s.max * s.max) s.savecol [(s.saverow, s.savecol)]).foldl flip s.mask r c) =
      M r c
    rw [hM, if_neg]
    rintro ⟨_, _, hp⟩
    exact hnp r c hp

end Ubitrack.Munkres
