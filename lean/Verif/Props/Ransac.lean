import Verif.Model.Ransac

/-!
# C21, C22: RANSAC
-/

namespace Ubitrack.Ransac

variable {K : Type} [LinearOrder K] {α Res : Type}

/-- The data points within the threshold of a hypothesis. -/
def inliers (dist : Res → α → K) (thr : K) (h : Res) (data : List α) : List α :=
  data.filter (fun x => decide (dist h x < thr))

theorem cast32_eq (z : ℤ) (h1 : -2147483648 ≤ z) (h2 : z < 2147483648) : cast32 z = z := by
  unfold cast32
  rw [BitVec.toInt_ofInt]
  rw [Int.bmod_def]
  split_ifs with h
  · omega
  · omega

theorem goOn_iff (n i nMin k : ℕ) (hi : i < n) (hn : n < 2147483648) (hm : nMin < 2147483648)
    (hk : k ≤ i) : goOn n i nMin k = true ↔ n + k ≥ nMin + i := by
  unfold goOn
  rw [cast32_eq _ (by omega) (by omega), cast32_eq _ (by omega) (by omega)]
  simp only [hi, decide_true, Bool.true_and, decide_eq_true_eq]
  omega

theorem countLoop_spec (dist : Res → α → K) (p : Params K) (n : ℕ) (h : Res) (hn : n < 2147483648)
    (hm : p.nMinInlier < 2147483648) (xs : List α) (i : ℕ) (inl : List α) (hi : i + xs.length = n)
    (hl : inl.length ≤ i) :
    let full := inl ++ inliers dist p.threshold h xs
    let got := countLoop dist p n h xs i inl
    (full.length ≥ p.nMinInlier → got = full) ∧ (full.length < p.nMinInlier → got.length < p.nMinInlier) := by
  induction xs generalizing i inl with
  | nil => simp [countLoop, inliers]
  | cons x xs ih =>
    simp only [List.length_cons] at hi
    have hlen : (inliers dist p.threshold h (x :: xs)).length ≤ xs.length + 1 := by
      have := List.length_filter_le (fun x => decide (dist h x < p.threshold)) (x :: xs)
      simpa [inliers] using this
    dsimp only
    unfold countLoop
    by_cases hg : goOn n i p.nMinInlier inl.length = true
    · rw [if_pos hg]
      by_cases hd : dist h x < p.threshold
      · rw [if_pos hd]
        have := ih (i + 1) (inl ++ [x]) (by omega) (by simp; omega)
        have e : inliers dist p.threshold h (x :: xs) = x :: inliers dist p.threshold h xs := by
          simp [inliers, hd]
        rw [e]
        simpa using this
      · rw [if_neg hd]
        have := ih (i + 1) inl (by omega) (by omega)
        have e : inliers dist p.threshold h (x :: xs) = inliers dist p.threshold h xs := by
          simp only [inliers, List.filter_cons, decide_eq_true_eq, if_neg hd]
        rw [e]
        exact this
    · rw [if_neg hg]
      rw [goOn_iff n i p.nMinInlier inl.length (by omega) hn hm hl] at hg
      simp only [List.length_append]
      constructor
      · intro h'; omega
      · intro _; omega

/-- **C22** Stopping the count early never rejects a hypothesis that has the required number of
inliers: with `nMinInlier` or more data points within the threshold, all of them are collected, in
order; with fewer, fewer than `nMinInlier` are collected. (Fewer than 2^31 data points.) -/
theorem C22_early_exit (dist : Res → α → K) (p : Params K) (h : Res) (data : List α)
    (hn : data.length < 2147483648) (hm : p.nMinInlier < 2147483648) :
    ((inliers dist p.threshold h data).length ≥ p.nMinInlier →
      countLoop dist p data.length h data 0 [] = inliers dist p.threshold h data) ∧
    ((inliers dist p.threshold h data).length < p.nMinInlier →
      (countLoop dist p data.length h data 0 []).length < p.nMinInlier) := by
  have := countLoop_spec dist p data.length h hn hm data 0 [] (by simp) (by simp)
  simpa using this

/-- **C22 (refuted for huge data)** With exactly 2^31 data points the signed comparison stops the count
at the first point: a hypothesis that all points support gets no inlier. -/
theorem C22_huge_refuted (dist : Res → α → K) (p : Params K) (h : Res) (data : List α)
    (hn : data.length = 2147483648) (hm : 1 ≤ p.nMinInlier) (hm' : p.nMinInlier < 2147483648) :
    countLoop dist p data.length h data 0 [] = [] := by
  rcases data with _ | ⟨x, xs⟩
  · rfl
  · unfold countLoop
    rw [if_neg]
    rw [hn]
    unfold goOn
    have e1 : cast32 ((2147483648 : ℕ) - (0 : ℕ)) = -2147483648 := by decide
    have e2 : cast32 ((p.nMinInlier : ℤ) - (([] : List α).length : ℕ)) = p.nMinInlier := by
      rw [cast32_eq] <;> simp <;> omega
    rw [e1, e2]
    simp
    omega

/-- Iteration with the given index order finds a hypothesis with at least the required number of
inliers. -/
def Success (est : List α → Res → Res × Bool) (d0 : Res) (dist : Res → α → K) (p : Params K)
    (data : List α) (shuffle : List ℕ) : Prop :=
  (est (sample data p shuffle) d0).2 = true ∧
  (inliers dist p.threshold (est (sample data p shuffle) d0).1 data).length ≥ p.nMinInlier

theorem iterations_spec (est : List α → Res → Res × Bool) (d0 : Res) (dist : Res → α → K) (p : Params K)
    (data : List α) (hn : data.length < 2147483648) (hm : p.nMinInlier < 2147483648)
    (hpos : 0 < p.nMinInlier) (shuffles : List (List ℕ)) :
    (∃ pre s post, shuffles = pre ++ s :: post ∧ (∀ x ∈ pre, ¬ Success est d0 dist p data x) ∧
      Success est d0 dist p data s ∧
      iterations est d0 dist p data shuffles [] =
        inliers dist p.threshold (est (sample data p s) d0).1 data) ∨
    ((∀ x ∈ shuffles, ¬ Success est d0 dist p data x) ∧
      iterations est d0 dist p data shuffles [] = []) := by
  induction shuffles with
  | nil => right; simp [iterations]
  | cons s rest ih =>
    have hcont : ¬ Success est d0 dist p data s → iterations est d0 dist p data (s :: rest) [] =
        iterations est d0 dist p data rest [] → (∃ pre s' post, s :: rest = pre ++ s' :: post ∧ (∀ x ∈ pre, ¬ Success est d0 dist p data x) ∧
        Success est d0 dist p data s' ∧ iterations est d0 dist p data (s :: rest) [] =
        inliers dist p.threshold (est (sample data p s') d0).1 data) ∨
        ((∀ x ∈ s :: rest, ¬ Success est d0 dist p data x) ∧
          iterations est d0 dist p data (s :: rest) [] = []) := by
      intro hs he
      show (∃ pre s' post, s :: rest = pre ++ s' :: post ∧ (∀ x ∈ pre, ¬ Success est d0 dist p data x) ∧
        Success est d0 dist p data s' ∧ iterations est d0 dist p data (s :: rest) [] =
        inliers dist p.threshold (est (sample data p s') d0).1 data) ∨
        ((∀ x ∈ s :: rest, ¬ Success est d0 dist p data x) ∧
          iterations est d0 dist p data (s :: rest) [] = [])
      rw [he]
      rcases ih with ⟨pre, s', post, h1, h2, h3, h4⟩ | ⟨h1, h2⟩
      · left
        refine ⟨s :: pre, s', post, by rw [h1]; rfl, ?_, h3, h4⟩
        intro x hx
        rcases List.mem_cons.mp hx with rfl | hx
        · exact hs
        · exact h2 x hx
      · right
        refine ⟨?_, h2⟩
        intro x hx
        rcases List.mem_cons.mp hx with rfl | hx
        · exact hs
        · exact h1 x hx
    rcases he : est (sample data p s) d0 with ⟨h, b⟩
    cases b with
    | false =>
      apply hcont
      · intro hS; have := hS.1; rw [he] at this; simp at this
      · simp only [iterations, he]
    | true =>
      obtain ⟨c1, c2⟩ := C22_early_exit dist p h data hn hm
      by_cases hS : (inliers dist p.threshold h data).length ≥ p.nMinInlier
      · left
        refine ⟨[], s, rest, rfl, by simp, ⟨by rw [he], by rw [he]; exact hS⟩, ?_⟩
        have hc := c1 hS
        simp only [iterations, he, hc]
        rw [if_neg (by omega)]
        have hif : (if (inliers dist p.threshold h data).length ≥ p.nMinInlier ∧
            (inliers dist p.threshold h data).length > ([] : List α).length then
            inliers dist p.threshold h data else []) = inliers dist p.threshold h data :=
          if_pos ⟨hS, by simp only [List.length_nil]; omega⟩
        rw [hif, if_pos hS]
      · apply hcont
        · intro hS'; have := hS'.2; rw [he] at this; exact hS this
        · have hc := c2 (by omega)
          simp only [iterations, he]
          by_cases h0 : (countLoop dist p data.length h data 0 []).length = 0
          · rw [if_pos h0]
          · rw [if_neg h0]
            have hif : (if (countLoop dist p data.length h data 0 []).length ≥ p.nMinInlier ∧
                (countLoop dist p data.length h data 0 []).length > ([] : List α).length then
                countLoop dist p data.length h data 0 [] else []) = [] :=
              if_neg (by rintro ⟨h1, _⟩; omega)
            rw [hif, if_neg (by simp only [List.length_nil]; omega)]

/-- **C21** For every estimator, evaluator, data and random index orders (one per permitted iteration,
sample size at most the number of data points, at least one inlier required): either some iteration
succeeds, then `ransac` returns the exact number of data points within the threshold of the
hypothesis of the first successful iteration, which is at least the required number, and the result
is the estimator's output on exactly those points; or no iteration succeeds, and `ransac` returns 0 and leaves the
result variable alone. -/
theorem C21_ransac (est : List α → Res → Res × Bool) (d0 : Res) (dist : Res → α → K) (p : Params K)
    (data : List α) (shuffles : List (List ℕ)) (result : Res) (hn : data.length < 2147483648)
    (hm : p.nMinInlier < 2147483648) (hpos : 0 < p.nMinInlier) (hset : p.setSize ≤ data.length) :
    (∃ pre s post, shuffles = pre ++ s :: post ∧ (∀ x ∈ pre, ¬ Success est d0 dist p data x) ∧
      Success est d0 dist p data s ∧
      let good := inliers dist p.threshold (est (sample data p s) d0).1 data
      good.length ≥ p.nMinInlier ∧
      ransac est d0 dist p data shuffles result = some (good.length, (est good result).1)) ∨
    ((∀ s ∈ shuffles, ¬ Success est d0 dist p data s) ∧
      ransac est d0 dist p data shuffles result = some (0, result)) := by
  have hub : ¬ (p.setSize > data.length ∧ p.nMaxIterations > 0) := by omega
  rcases iterations_spec est d0 dist p data hn hm hpos shuffles with ⟨pre, s, post, h1, h2, h3, h4⟩ | ⟨h1, h2⟩
  · left
    refine ⟨pre, s, post, h1, h2, h3, h3.2, ?_⟩
    unfold ransac
    rw [if_neg hub]
    dsimp only
    rw [h4, if_pos h3.2]
  · right
    refine ⟨h1, ?_⟩
    unfold ransac
    rw [if_neg hub]
    dsimp only
    rw [h2, if_neg (by simp only [List.length_nil]; omega)]

/-- **C21** The two-list variant: the same, for the pairs of corresponding data. -/
theorem C21_ransac2 {β γ : Type} (est : List β → List γ → Res → Res × Bool) (d0 : Res)
    (dist : Res → β → γ → K) (p : Params K) (data1 : List β) (data2 : List γ) (shuffles : List (List ℕ))
    (result : Res) (hlen : data1.length = data2.length) (hn : data1.length < 2147483648)
    (hm : p.nMinInlier < 2147483648) (hpos : 0 < p.nMinInlier) (hset : p.setSize ≤ data1.length) (k : ℕ)
    (r : Res) (hres : ransac2 est d0 dist p data1 data2 shuffles result = some (k, r)) (hk : k ≠ 0) :
    ∃ s ∈ shuffles, ∃ h : Res,
      h = (est ((sample (data1.zip data2) p s).map Prod.fst) ((sample (data1.zip data2) p s).map Prod.snd) d0).1 ∧
      let good := (data1.zip data2).filter (fun x => decide (dist h x.1 x.2 < p.threshold))
      k = good.length ∧ k ≥ p.nMinInlier ∧ r = (est (good.map Prod.fst) (good.map Prod.snd) result).1 := by
  unfold ransac2 at hres
  rw [if_neg (by omega)] at hres
  have hz : (data1.zip data2).length = data1.length := by simp [List.length_zip, hlen]
  rcases C21_ransac (fun l r => est (l.map Prod.fst) (l.map Prod.snd) r) d0 (fun h x => dist h x.1 x.2) p
    (data1.zip data2) shuffles result (by omega) hm hpos (by omega) with ⟨pre, s, post, h1, h2, h3, h4, h5⟩ | ⟨h1, h2⟩
  · rw [h5] at hres
    simp only [Option.some.injEq, Prod.mk.injEq] at hres
    refine ⟨s, by rw [h1]; simp, _, rfl, ?_⟩
    exact ⟨hres.1.symm, by rw [← hres.1]; exact h4, hres.2.symm⟩
  · rw [h2] at hres
    simp only [Option.some.injEq, Prod.mk.injEq] at hres
    exact absurd hres.1.symm hk

/-- **C21 (refuted in general)** The return value of the final estimation is ignored: `ransac` reports
3 inliers, although the estimator declined to estimate from these 3 points and left a meaningless
result. -/
theorem C21_final_estimate_refuted :
    ∃ (est : List ℕ → ℕ → ℕ × Bool) (dist : ℕ → ℕ → ℕ) (p : Params ℕ) (data : List ℕ),
      ransac est 0 dist p data [[0, 1, 2]] 77 = some (3, 77) ∧ (est data 77).2 = false := by
  refine ⟨fun l r => if l.length ≤ 2 then (0, true) else (r, false), fun _ _ => 0, ⟨1, 2, 3, 1⟩, [5, 6, 7], ?_, ?_⟩
  · decide
  · decide

/-- **C21 (refuted in general)** With a required number of 0, the return value 0 does not mean that the
result is untouched: the estimator is run on no data at all. -/
theorem C21_zero_required_refuted (est : List α → Res → Res × Bool) (d0 : Res) (dist : Res → α → K)
    (thr : K) (n : ℕ) (data : List α) (result : Res) :
    ransac est d0 dist ⟨thr, n, 0, 0⟩ data [] result = some (0, (est [] result).1) := by
  simp [ransac, iterations]

/-- A run that succeeds: the first sample is degenerate, the second supports 3 of 4 points. -/
example : ransac (K := ℕ) (fun l r => if l.head? = some 100 then (r, false) else (l.headD 0, true)) 0
    (fun h x => if h ≤ x then x - h else h - x) ⟨5, 1, 3, 2⟩ [100, 10, 11, 12] [[0, 1, 2, 3], [2, 0, 1, 3]] 77 =
    some (3, 10) := by decide

/-! ### The variant with exceptions -/

/-- Whether a data point is within the threshold; the evaluator may throw. -/
def flag (dist : Res → α → Except Exc K) (thr : K) (h : Res) (x : α) : Except Exc Bool :=
  match dist h x with
  | .error e => .error e
  | .ok d => .ok (decide (d < thr))

/-- The inlier flags of a hypothesis, if the evaluator throws for none of the data. -/
def allFlags (dist : Res → α → Except Exc K) (thr : K) (h : Res) : List α → Except Exc (List Bool)
  | [] => .ok []
  | x :: xs =>
    match flag dist thr h x with
    | .error e => .error e
    | .ok b =>
      match allFlags dist thr h xs with
      | .error e => .error e
      | .ok bs => .ok (b :: bs)

theorem allFlags_length (dist : Res → α → Except Exc K) (thr : K) (h : Res) (data : List α)
    (fs : List Bool) (hf : allFlags dist thr h data = .ok fs) : fs.length = data.length := by
  induction data generalizing fs with
  | nil => simp [allFlags] at hf; subst hf; rfl
  | cons x xs ih =>
    unfold allFlags at hf
    rcases h1 : flag dist thr h x with e | b
    · rw [h1] at hf; cases hf
    · rw [h1] at hf
      dsimp only at hf
      rcases h2 : allFlags dist thr h xs with e | bs
      · rw [h2] at hf; cases hf
      · rw [h2] at hf
        simp only [Except.ok.injEq] at hf
        subst hf
        simp [ih bs h2]

theorem take_set_succ (l : List Bool) (i : ℕ) (b : Bool) (hi : i < l.length) :
    (l.set i b).take (i + 1) = l.take i ++ [b] := by
  rw [List.take_succ_eq_append_getElem (by simpa using hi), List.take_set_of_le (le_refl i)]
  simp

theorem flagLoop_spec (dist : Res → α → Except Exc K) (thr : K) (nMin n : ℕ) (h : Res) (hn : n < 2147483648)
    (hm : nMin < 2147483648) (xs : List α) (i k : ℕ) (flags : List Bool) (hi : i + xs.length = n)
    (hk : k ≤ i) (hl : flags.length = n) :
    let got := flagLoop dist thr nMin n h xs i k flags
    got.1.length = n ∧
    (∀ cnt, got.2 = .ok cnt →
      (cnt ≥ nMin → ∃ fs, allFlags dist thr h xs = .ok fs ∧ got.1 = flags.take i ++ fs ∧
        cnt = k + fs.count true) ∧
      (∀ fs, allFlags dist thr h xs = .ok fs → cnt < nMin → k + fs.count true < nMin)) ∧
    (∀ fs, allFlags dist thr h xs = .ok fs → ∃ cnt, got.2 = .ok cnt) := by
  induction xs generalizing i k flags with
  | nil =>
    simp only [List.length_nil, Nat.add_zero] at hi
    subst hi
    dsimp only [flagLoop]
    refine ⟨hl, ?_, ?_⟩
    · intro cnt hc
      simp only [Except.ok.injEq] at hc
      subst hc
      refine ⟨fun _ => ⟨[], rfl, by rw [← hl]; simp, by simp⟩, ?_⟩
      intro fs hfs hlt
      simp only [allFlags, Except.ok.injEq] at hfs
      subst hfs
      simpa using hlt
    · intro fs _
      exact ⟨k, rfl⟩
  | cons x xs ih =>
    simp only [List.length_cons] at hi
    dsimp only
    unfold flagLoop
    by_cases hg : goOn n i nMin k = true
    · rw [if_pos hg]
      rcases hd : dist h x with e | d
      · dsimp only
        refine ⟨hl, ?_, ?_⟩
        · intro cnt hc; cases hc
        · intro fs hfs
          unfold allFlags flag at hfs
          rw [hd] at hfs
          cases hfs
      · dsimp only
        have hflag : flag dist thr h x = .ok (decide (d < thr)) := by unfold flag; rw [hd]
        by_cases hlt : d < thr
        · rw [if_pos hlt]
          have hb : decide (d < thr) = true := decide_eq_true hlt
          rw [hb] at hflag
          obtain ⟨a1, a2, a3⟩ := ih (i + 1) (k + 1) (flags.set i true) (by omega) (by omega) (by simpa using hl)
          refine ⟨a1, ?_, ?_⟩
          · intro cnt hc
            obtain ⟨b1, b2⟩ := a2 cnt hc
            refine ⟨?_, ?_⟩
            · intro hge
              obtain ⟨fs, c1, c2, c3⟩ := b1 hge
              refine ⟨true :: fs, ?_, ?_, ?_⟩
              · simp only [allFlags, hflag, c1]
              · rw [c2, take_set_succ _ _ _ (by omega)]; simp
              · rw [c3]; simp; omega
            · intro fs hfs hlt'
              simp only [allFlags, hflag] at hfs
              rcases h2 : allFlags dist thr h xs with e | bs
              · rw [h2] at hfs; cases hfs
              · rw [h2] at hfs
                simp only [Except.ok.injEq] at hfs
                subst hfs
                have := b2 bs h2 hlt'
                simp; omega
          · intro fs hfs
            simp only [allFlags, hflag] at hfs
            rcases h2 : allFlags dist thr h xs with e | bs
            · rw [h2] at hfs; cases hfs
            · exact a3 bs h2
        · rw [if_neg hlt]
          have hb : decide (d < thr) = false := decide_eq_false hlt
          rw [hb] at hflag
          obtain ⟨a1, a2, a3⟩ := ih (i + 1) k (flags.set i false) (by omega) (by omega) (by simpa using hl)
          refine ⟨a1, ?_, ?_⟩
          · intro cnt hc
            obtain ⟨b1, b2⟩ := a2 cnt hc
            refine ⟨?_, ?_⟩
            · intro hge
              obtain ⟨fs, c1, c2, c3⟩ := b1 hge
              refine ⟨false :: fs, ?_, ?_, ?_⟩
              · simp only [allFlags, hflag, c1]
              · rw [c2, take_set_succ _ _ _ (by omega)]; simp
              · rw [c3]; simp
            · intro fs hfs hlt'
              simp only [allFlags, hflag] at hfs
              rcases h2 : allFlags dist thr h xs with e | bs
              · rw [h2] at hfs; cases hfs
              · rw [h2] at hfs
                simp only [Except.ok.injEq] at hfs
                subst hfs
                have := b2 bs h2 hlt'
                simpa using this
          · intro fs hfs
            simp only [allFlags, hflag] at hfs
            rcases h2 : allFlags dist thr h xs with e | bs
            · rw [h2] at hfs; cases hfs
            · exact a3 bs h2
    · rw [if_neg hg]
      rw [goOn_iff n i nMin k (by omega) hn hm hk] at hg
      dsimp only
      refine ⟨hl, ?_, fun _ _ => ⟨k, rfl⟩⟩
      intro cnt hc
      simp only [Except.ok.injEq] at hc
      subst hc
      refine ⟨fun hge => by omega, ?_⟩
      intro fs hfs _
      have := allFlags_length dist thr h _ fs hfs
      have h2 := List.count_le_length (a := true) (l := fs)
      simp only [List.length_cons] at this
      omega

/-- The hypothesis of an iteration, if the estimator does not throw. -/
def hyp (est : List α → Except Exc Res) (data : List α) (draw : List ℕ) : Except Exc Res :=
  est (draw.filterMap (fun i => data[i]?))

/-- The best inlier set belongs to one of the iterations `draws`, or none was found yet. -/
def BestOf (est : List α → Except Exc Res) (dist : Res → α → Except Exc K) (thr : K) (nMin : ℕ)
    (data : List α) (draws : List (List ℕ)) (s : VSt) : Prop :=
  s.flags.length = data.length ∧
  (s.nBest = 0 ∨ (∃ d ∈ draws, ∃ h, hyp est data d = .ok h ∧ allFlags dist thr h data = .ok s.best ∧
    s.nBest = s.best.count true ∧ s.nBest ≥ nMin)) ∧
  (∀ d ∈ draws, ∀ h fs, hyp est data d = .ok h → allFlags dist thr h data = .ok fs →
    fs.count true ≥ nMin → fs.count true ≤ s.nBest)

theorem vTry_spec (est : List α → Except Exc Res) (dist : Res → α → Except Exc K) (thr : K) (nMin : ℕ)
    (data : List α) (hn : data.length < 2147483648) (hm : nMin < 2147483648)
    (draws : List (List ℕ)) (draw : List ℕ) (s s' : VSt)
    (hs : BestOf est dist thr nMin data draws s)
    (ht : vTry est dist thr nMin data draw s = .ok s') :
    BestOf est dist thr nMin data (draws ++ [draw]) s' := by
  obtain ⟨h1, h2, h3⟩ := hs
  have keep : ∀ t : VSt, t.flags.length = data.length → t.nBest = s.nBest → t.best = s.best →
      (∀ h fs, hyp est data draw = .ok h → allFlags dist thr h data = .ok fs →
        fs.count true ≥ nMin → fs.count true ≤ s.nBest) →
      BestOf est dist thr nMin data (draws ++ [draw]) t := by
    intro t e1 e2 e3 e4
    refine ⟨e1, ?_, ?_⟩
    · rw [e2, e3]
      rcases h2 with h2 | ⟨d, hd, r⟩
      · exact Or.inl h2
      · exact Or.inr ⟨d, by simp [hd], r⟩
    · intro d hd h fs a b c
      rw [e2]
      rcases List.mem_append.mp hd with hd | hd
      · exact h3 d hd h fs a b c
      · rw [List.mem_singleton] at hd
        subst hd
        exact e4 h fs a b c
  unfold vTry at ht
  rcases he : est (draw.filterMap (fun i => data[i]?)) with e | h
  · rw [he] at ht
    cases e with
    | other => cases ht
    | runtimeError =>
      simp only [Except.ok.injEq] at ht
      subst ht
      refine keep s h1 rfl rfl ?_
      intro h fs hh _ _
      unfold hyp at hh; rw [he] at hh; cases hh
  · rw [he] at ht
    dsimp only at ht
    obtain ⟨a1, a2, a3⟩ := flagLoop_spec dist thr nMin data.length h hn hm data 0 0 s.flags (by simp)
      le_rfl h1
    rcases hf : flagLoop dist thr nMin data.length h data 0 0 s.flags with ⟨flags, r⟩
    rw [hf] at ht a1 a2 a3
    dsimp only at a1 a2 a3
    have hh : hyp est data draw = .ok h := he
    rcases r with e | cnt
    · cases e with
      | other => cases ht
      | runtimeError =>
        simp only [Except.ok.injEq] at ht
        subst ht
        refine keep _ a1 rfl rfl ?_
        intro h' fs hh' hfs _
        rw [hh] at hh'
        obtain rfl := Except.ok.inj hh'
        obtain ⟨c, hc⟩ := a3 fs hfs
        cases hc
    · obtain ⟨b1, b2⟩ := a2 cnt rfl
      dsimp only at ht
      by_cases hsave : cnt ≥ nMin ∧ cnt > s.nBest
      · rw [if_pos hsave] at ht
        simp only [Except.ok.injEq] at ht
        subst ht
        obtain ⟨fs, c1, c2, c3⟩ := b1 hsave.1
        simp only [List.take_zero, List.nil_append] at c2
        subst c2
        refine ⟨a1, Or.inr ⟨draw, by simp, h, hh, c1, ?_, hsave.1⟩, ?_⟩
        · show cnt = flags.count true
          rw [c3, Nat.zero_add]
        · intro d hd h' fs' hh' hfs' hge
          show fs'.count true ≤ cnt
          rcases List.mem_append.mp hd with hd | hd
          · have := h3 d hd h' fs' hh' hfs' hge; omega
          · rw [List.mem_singleton] at hd
            subst hd
            rw [hh] at hh'
            obtain rfl := Except.ok.inj hh'
            rw [c1] at hfs'
            have := Except.ok.inj hfs'
            rw [← this]
            omega
      · rw [if_neg hsave] at ht
        simp only [Except.ok.injEq] at ht
        subst ht
        refine keep _ a1 rfl rfl ?_
        intro h' fs' hh' hfs' hge
        rw [hh] at hh'
        obtain rfl := Except.ok.inj hh'
        by_cases hge' : cnt ≥ nMin
        · obtain ⟨fs, c1, c2, c3⟩ := b1 hge'
          rw [c1] at hfs'
          obtain rfl := Except.ok.inj hfs'
          have : ¬ cnt > s.nBest := fun h => hsave ⟨hge', h⟩
          omega
        · have := b2 fs' hfs' (by omega)
          omega

theorem vLoop_spec (est : List α → Except Exc Res) (dist : Res → α → Except Exc K) (thr : K)
    (nMin nMinRuns : ℕ) (data : List α) (hn : data.length < 2147483648) (hm : nMin < 2147483648)
    (rest : List (List ℕ)) (done : List (List ℕ)) (s t : VSt) (runs : ℕ)
    (hs : BestOf est dist thr nMin data done s)
    (ht : vLoop est dist thr nMin nMinRuns data rest done.length s = .ok (t, runs)) :
    BestOf est dist thr nMin data ((done ++ rest).take runs) t ∧ done.length ≤ runs ∧
      runs ≤ (done ++ rest).length ∧
      (runs < (done ++ rest).length → t.nBest ≥ nMin ∧ runs ≥ nMinRuns) := by
  induction rest generalizing done s with
  | nil =>
    simp only [vLoop, Except.ok.injEq, Prod.mk.injEq] at ht
    obtain ⟨rfl, rfl⟩ := ht
    simp only [List.append_nil, List.take_length]
    exact ⟨hs, le_rfl, le_rfl, fun h => absurd h (lt_irrefl _)⟩
  | cons draw rest ih =>
    unfold vLoop at ht
    rcases hv : vTry est dist thr nMin data draw s with e | s'
    · rw [hv] at ht; cases ht
    · rw [hv] at ht
      dsimp only at ht
      have hs' := vTry_spec est dist thr nMin data hn hm done draw s s' hs hv
      by_cases hstop : vCompleted est dist thr nMin data draw s ∧ s'.nBest ≥ nMin ∧ done.length + 1 ≥ nMinRuns
      · rw [if_pos hstop] at ht
        simp only [Except.ok.injEq, Prod.mk.injEq] at ht
        obtain ⟨rfl, rfl⟩ := ht
        have e : (done ++ draw :: rest).take (done.length + 1) = done ++ [draw] := by
          rw [List.take_append, List.take_of_length_le (by omega)]; simp
        rw [e]
        exact ⟨hs', by omega, by simp, fun _ => ⟨hstop.2.1, hstop.2.2⟩⟩
      · rw [if_neg hstop] at ht
        have e : done.length + 1 = (done ++ [draw]).length := by simp
        rw [e] at ht
        have := ih (done ++ [draw]) s' hs' ht
        simp only [List.append_assoc, List.singleton_append] at this
        obtain ⟨g1, g2, g3, g4⟩ := this
        simp only [List.length_append, List.length_cons, List.length_nil] at g2
        exact ⟨g1, by omega, g3, g4⟩

/-- **C21** The variant with exceptions. If it returns a result (no exception other than
`runtime_error` escaped): the number returned is at least the required number; it is the number of data
within the threshold of the hypothesis of one of the iterations, the flags mark exactly these data
points and the result is the estimator's output on exactly these; no iteration that was run to its end
had more. At least `nMinRuns` iterations were run, unless the limit is lower. -/
theorem C21_ransacV (est : List α → Except Exc Res) (dist : Res → α → Except Exc K) (thr : K)
    (nMin nMinRuns : ℕ) (data : List α) (draws : List (List ℕ)) (hn : data.length < 2147483648)
    (hm : nMin < 2147483648) (hpos : 0 < nMin) (k : ℕ) (r : Res) (fs : List Bool)
    (hres : ransacV est dist thr nMin nMinRuns data draws = .ok (some (k, r, fs))) :
    k ≥ nMin ∧ k = fs.count true ∧
    est ((data.zip fs).filterMap (fun x => if x.2 then some x.1 else none)) = .ok r ∧
    ∃ runs ≤ draws.length, (runs = draws.length ∨ runs ≥ nMinRuns) ∧
      (∃ d ∈ draws.take runs, ∃ h, hyp est data d = .ok h ∧ allFlags dist thr h data = .ok fs) ∧
      ∀ d ∈ draws.take runs, ∀ h fs', hyp est data d = .ok h → allFlags dist thr h data = .ok fs' →
        fs'.count true ≤ k := by
  unfold ransacV at hres
  rcases hl : vLoop est dist thr nMin nMinRuns data draws 0
      ⟨List.replicate data.length false, 0, List.replicate data.length false⟩ with e | ⟨t, runs⟩
  · rw [hl] at hres; cases hres
  · rw [hl] at hres
    dsimp only at hres
    have h0 : BestOf est dist thr nMin data []
        ⟨List.replicate data.length false, 0, List.replicate data.length false⟩ :=
      ⟨by simp, Or.inl rfl, by simp⟩
    obtain ⟨⟨g1, g2, g3⟩, -, g5, g6⟩ := vLoop_spec est dist thr nMin nMinRuns data hn hm draws [] _ t runs h0 hl
    simp only [List.nil_append] at g1 g2 g3 g5 g6
    by_cases hge : t.nBest ≥ nMin
    · rw [if_pos hge] at hres
      rcases he : est ((data.zip t.best).filterMap (fun x => if x.2 then some x.1 else none)) with e | r'
      · rw [he] at hres; cases hres
      · rw [he] at hres
        simp only [Except.ok.injEq, Option.some.injEq, Prod.mk.injEq] at hres
        obtain ⟨rfl, rfl, rfl⟩ := hres
        rcases g2 with g2 | ⟨d, hd, h, c1, c2, c3, c4⟩
        · omega
        · refine ⟨hge, c3, he, runs, g5, ?_, ⟨d, hd, h, c1, c2⟩, ?_⟩
          · rcases Nat.lt_or_ge runs draws.length with hlt | hge'
            · exact Or.inr (g6 hlt).2
            · exact Or.inl (by omega)
          · intro d' hd' h' fs' a b
            by_cases hc : fs'.count true ≥ nMin
            · exact g3 d' hd' h' fs' a b hc
            · omega
    · rw [if_neg hge] at hres
      cases hres

/-- **C21** The variant with exceptions: if it returns 0, all iterations were used and none whose
estimator and evaluator did not throw had the required number of inliers. -/
theorem C21_ransacV_failure (est : List α → Except Exc Res) (dist : Res → α → Except Exc K) (thr : K)
    (nMin nMinRuns : ℕ) (data : List α) (draws : List (List ℕ)) (hn : data.length < 2147483648)
    (hm : nMin < 2147483648)
    (hres : ransacV est dist thr nMin nMinRuns data draws = .ok none) :
    ∀ d ∈ draws, ∀ h fs, hyp est data d = .ok h → allFlags dist thr h data = .ok fs →
      fs.count true < nMin := by
  unfold ransacV at hres
  rcases hl : vLoop est dist thr nMin nMinRuns data draws 0
      ⟨List.replicate data.length false, 0, List.replicate data.length false⟩ with e | ⟨t, runs⟩
  · rw [hl] at hres; cases hres
  · rw [hl] at hres
    dsimp only at hres
    have h0 : BestOf est dist thr nMin data []
        ⟨List.replicate data.length false, 0, List.replicate data.length false⟩ :=
      ⟨by simp, Or.inl rfl, by simp⟩
    obtain ⟨⟨g1, g2, g3⟩, -, g5, g6⟩ := vLoop_spec est dist thr nMin nMinRuns data hn hm draws [] _ t runs h0 hl
    simp only [List.nil_append] at g1 g2 g3 g5 g6
    by_cases hge : t.nBest ≥ nMin
    · rw [if_pos hge] at hres
      rcases he : est ((data.zip t.best).filterMap (fun x => if x.2 then some x.1 else none)) with e | r'
      · rw [he] at hres; cases hres
      · rw [he] at hres; cases hres
    · have hr : runs = draws.length := by
        by_contra hne
        exact hge (g6 (by omega)).1
      subst hr
      rw [List.take_length] at g3
      intro d hd h fs a b
      by_contra hc
      have := g3 d hd h fs a b (by omega)
      omega

/-- A run of the third variant that survives an exception and keeps the better of two hypotheses. -/
example : ransacV (K := ℕ) (Res := ℕ) (fun l => match l with
      | [] => .error .runtimeError
      | x :: _ => .ok x) (fun h x => .ok (if h ≤ x then x - h else h - x)) 5 2 3
      [100, 10, 11, 12, 101] [[], [0], [1]] = .ok (some (3, 10, [false, true, true, true, false])) := by
  decide

end Ubitrack.Ransac
