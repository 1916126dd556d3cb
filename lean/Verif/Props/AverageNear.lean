import Verif.Props.Average

/-! # C26: where the average of rotations lies -/

namespace Ubitrack.Average

open Spec Stochastic Quat

theorem align_pos {q : Quat ℝ} (h : 0 < q.w) : align q = q := by
  unfold align
  rw [if_pos h.le]

theorem dot_rawMean (data : List (Quat ℝ)) (s : Quat ℝ) :
    dot (rawMean data) s = mean (data.map fun q => dot (align q) s) := by
  have h : (data.map fun q => (align q).x).sum * s.x + (data.map fun q => (align q).y).sum * s.y +
      (data.map fun q => (align q).z).sum * s.z + (data.map fun q => (align q).w).sum * s.w =
      (data.map fun q => dot (align q) s).sum := by
    induction data with
    | nil => simp
    | cons a l ih =>
      simp only [List.map_cons, List.sum_cons]
      rw [← ih]
      simp only [dot]
      ring
  unfold rawMean mean
  simp only [dot, List.length_map] at h ⊢
  rw [← h]
  ring

theorem le_mean (data : List (Quat ℝ)) (f : Quat ℝ → ℝ) (c : ℝ) (hne : data ≠ []) (h : ∀ q ∈ data, c ≤ f q) :
    c ≤ mean (data.map f) := by
  have hs : c * data.length ≤ (data.map f).sum := by
    clear hne
    induction data with
    | nil => simp
    | cons a l ih =>
      have h1 := h a (by simp)
      have h2 := ih fun q hq => h q (by simp [hq])
      simp only [List.map_cons, List.sum_cons, List.length_cons, Nat.cast_add, Nat.cast_one]
      linarith
  unfold mean
  rw [List.length_map, le_div_iff₀ (by exact_mod_cast List.length_pos_iff.mpr hne)]
  exact hs

theorem mean_le (data : List (Quat ℝ)) (f : Quat ℝ → ℝ) (c : ℝ) (hne : data ≠ []) (h : ∀ q ∈ data, f q ≤ c) :
    mean (data.map f) ≤ c := by
  have h1 := le_mean data (fun q => -f q) (-c) hne fun q hq => by linarith [h q hq]
  have h2 : (data.map fun q => -f q).sum = -(data.map f).sum := by
    clear h h1 hne
    induction data with
    | nil => simp
    | cons a l ih => simp only [List.map_cons, List.sum_cons, ih]; ring
  unfold mean at h1 ⊢
  rw [h2, List.length_map, neg_div] at h1
  rw [List.length_map]
  linarith

/-- **C26** If all rotations, given by unit quaternions with positive real parts, are near to some rotation, then so is their
average: its angle to this rotation is not larger than the largest angle of the data (`c` is the cosine of half an angle). -/
theorem C26_quat_within (data : List (Quat ℝ)) (hne : data ≠ []) (r : Quat ℝ) (c : ℝ) (hc : 0 ≤ c)
    (h : ∀ q ∈ data, UnitQ q ∧ 0 < q.w ∧ c ≤ dot q r) : c ≤ dot (quatAverage data) r := by
  rw [C26_quat_mean]
  set M := rawMean data with hM
  have hr : c ≤ dot M r := by
    rw [hM, dot_rawMean]
    exact le_mean _ _ _ hne fun q hq => by rw [align_pos (h q hq).2.1]; exact (h q hq).2.2
  have hself : dot M M = M.normSq := by simp only [dot, normSq]; ring
  have hle : M.normSq ≤ 1 := by
    have h1 : dot M M ≤ (1 + M.normSq) / 2 := by
      conv_lhs => rw [hM, dot_rawMean, ← hM]
      refine mean_le _ _ _ hne fun q hq => ?_
      rw [align_pos (h q hq).2.1]
      have hu := (h q hq).1
      unfold UnitQ at hu
      simp only [dot, normSq]
      nlinarith [sq_nonneg (q.x - M.x), sq_nonneg (q.y - M.y), sq_nonneg (q.z - M.z), sq_nonneg (q.w - M.w)]
    linarith
  obtain ⟨q, hq⟩ := List.exists_mem_of_ne_nil _ hne
  have hw : 0 < M.w := rawMean_w_pos data ⟨q, hq, (h q hq).2.1.ne'⟩
  have hpos : 0 < M.abs := by
    unfold Quat.abs
    apply Real.sqrt_pos.mpr
    unfold normSq
    nlinarith [mul_self_nonneg M.x, mul_self_nonneg M.y, mul_self_nonneg M.z, mul_pos hw hw]
  have h1 : M.abs ≤ 1 := Real.sqrt_le_one.mpr hle
  have hd : dot M.normalize r = dot M r / M.abs := by simp only [dot, Quat.normalize]; ring
  rw [hd, le_div_iff₀ hpos]
  nlinarith

/-- Two turns about different axes, within the angle of cosine 4/5 of the identity. -/
example : ∀ q ∈ ([⟨3/5, 0, 0, 4/5⟩, ⟨0, 5/13, 0, 12/13⟩] : List (Quat ℝ)), UnitQ q ∧ 0 < q.w ∧ 4/5 ≤ dot q ⟨0, 0, 0, 1⟩ := by
  intro q hq
  simp only [List.mem_cons, List.not_mem_nil, or_false] at hq
  rcases hq with rfl | rfl <;> norm_num [UnitQ, dot]

/-- **C26, refuted.** Rotations near to each other do not have an average near to them: of two turns as close as you like,
one by a bit less and one by a bit more than half a turn, the average is no turn at all. -/
theorem C26_quat_near_halfturn_refuted (δ : ℝ) (hδ : 0 < δ) : ∃ p q : Quat ℝ, UnitQ p ∧ UnitQ q ∧ p.w ≠ 0 ∧ q.w ≠ 0 ∧
    distSq p q ≤ δ ∧ quatAverage [p, q] = ⟨0, 0, 0, 1⟩ ∧ 1 ≤ distSq p ⟨0, 0, 0, 1⟩ ∧ 1 ≤ distSq p ⟨0, 0, 0, -1⟩ := by
  obtain ⟨e, he0, he1, he2⟩ : ∃ e : ℝ, 0 < e ∧ e ≤ 1 / 4 ∧ e ≤ δ := ⟨min (1 / 4) δ, lt_min (by norm_num) hδ, min_le_left _ _, min_le_right _ _⟩
  have hs : Real.sqrt (1 - e ^ 2) ^ 2 = 1 - e ^ 2 := Real.sq_sqrt (by nlinarith)
  set s := Real.sqrt (1 - e ^ 2)
  have hu : UnitQ (⟨s, 0, 0, e⟩ : Quat ℝ) := by unfold UnitQ; simp only; linarith
  have hu' : UnitQ (⟨s, 0, 0, -e⟩ : Quat ℝ) := by unfold UnitQ; simp only; rw [neg_sq]; linarith
  refine ⟨⟨s, 0, 0, e⟩, ⟨s, 0, 0, -e⟩, hu, hu', he0.ne', (neg_neg_of_pos he0).ne, ?_, ?_, ?_, ?_⟩
  · simp only [distSq]; nlinarith
  · rw [C26_quat_mean]
    have a1 : align ⟨s, 0, 0, e⟩ = ⟨s, 0, 0, e⟩ := align_pos he0
    have a2 : align ⟨s, 0, 0, -e⟩ = ⟨-s, 0, 0, e⟩ := by
      unfold align
      rw [if_neg (by simp only [ge_iff_le, not_le]; linarith)]
      simp [Quat.neg]
    have hm : rawMean [⟨s, 0, 0, e⟩, ⟨s, 0, 0, -e⟩] = ⟨0, 0, 0, e⟩ := by
      simp [rawMean, mean, a1, a2]
    rw [hm]
    have ha : (⟨0, 0, 0, e⟩ : Quat ℝ).abs = e := by
      unfold Quat.abs normSq
      simp only
      rw [show e * e + 0 * 0 + 0 * 0 + 0 * 0 = e ^ 2 by ring, Real.sqrt_sq he0.le]
    unfold Quat.normalize
    rw [ha]
    simp [he0.ne']
  · simp only [distSq]; nlinarith
  · simp only [distSq]; nlinarith

end Ubitrack.Average
