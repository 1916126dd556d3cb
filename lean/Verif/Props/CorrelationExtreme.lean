import Verif.Props.Average

/-! # C27: when sequences are perfectly correlated -/

namespace Ubitrack.Average

private theorem fst_zip : ∀ l1 l2 : List ℝ, (l1.zip l2).map Prod.fst = l1.take l2.length
  | [], l2 => by simp
  | x :: l1, [] => by simp
  | x :: l1, y :: l2 => by simp [fst_zip l1 l2]

private theorem snd_zip : ∀ l1 l2 : List ℝ, (l1.zip l2).map Prod.snd = l2.take l1.length
  | [], l2 => by simp
  | x :: l1, [] => by simp
  | x :: l1, y :: l2 => by simp [snd_zip l1 l2]

private theorem mean_comb (l : List (ℝ × ℝ)) (f g h : ℝ × ℝ → ℝ) (a b c : ℝ) :
    mean (l.map fun p => a * f p + b * g p + c * h p) = a * mean (l.map f) + b * mean (l.map g) + c * mean (l.map h) := by
  have key : (l.map fun p => a * f p + b * g p + c * h p).sum = a * (l.map f).sum + b * (l.map g).sum + c * (l.map h).sum := by
    induction l with
    | nil => simp
    | cons x xs ih => simp only [List.map_cons, List.sum_cons, ih]; ring
  unfold mean
  simp only [List.length_map]
  rw [key]
  ring

private theorem mean_affine (l : List (ℝ × ℝ)) (hl : l ≠ []) (a b : ℝ) (h : ∀ p ∈ l, p.2 = a * p.1 + b) :
    mean (l.map Prod.snd) = a * mean (l.map Prod.fst) + b := by
  have hlen : (l.length : ℝ) ≠ 0 := by exact_mod_cast (List.length_pos_iff.mpr hl).ne'
  have key : (l.map Prod.snd).sum = a * (l.map Prod.fst).sum + l.length * b := by
    clear hl hlen
    induction l with
    | nil => simp
    | cons x xs ih =>
      simp only [List.map_cons, List.sum_cons, List.length_cons, ih fun p hp => h p (by simp [hp]), h x (by simp)]
      push_cast
      ring
  unfold mean
  rw [key, List.length_map, List.length_map]
  field_simp

private theorem zero_of_mean_sq (l : List (ℝ × ℝ)) (f : ℝ × ℝ → ℝ) (h : mean (l.map fun p => f p ^ 2) = 0) : ∀ p ∈ l, f p = 0 := by
  intro p hp
  have hlen : (0 : ℝ) < l.length := by exact_mod_cast List.length_pos_of_mem hp
  unfold mean at h
  rw [List.length_map, div_eq_zero_iff] at h
  have hs := h.resolve_right hlen.ne'
  have h1 := List.single_le_sum (l := l.map fun p => f p ^ 2) (fun z hz => by
    obtain ⟨w, -, rfl⟩ := List.mem_map.mp hz
    exact sq_nonneg _) _ (List.mem_map_of_mem hp)
  rw [hs] at h1
  exact pow_eq_zero_iff (two_ne_zero) |>.mp (le_antisymm h1 (sq_nonneg _))

private theorem pearson_extreme (l : List (ℝ × ℝ)) (h1 : NonConstant (l.map Prod.fst)) (h2 : NonConstant (l.map Prod.snd)) :
    (pearson l = 1 ↔ ∃ a b : ℝ, 0 < a ∧ ∀ p ∈ l, p.2 = a * p.1 + b) ∧
    (pearson l = -1 ↔ ∃ a b : ℝ, a < 0 ∧ ∀ p ∈ l, p.2 = a * p.1 + b) := by
  have v1 := variance_pos l Prod.fst h1
  have v2 := variance_pos l Prod.snd h2
  have hl : l ≠ [] := by
    rintro rfl
    obtain ⟨x, hx, -⟩ := h1
    simp at hx
  have hroot : 0 < Real.sqrt (covariance l Prod.fst Prod.fst * covariance l Prod.snd Prod.snd) := Real.sqrt_pos.mpr (mul_pos v1 v2)
  have hback : ∀ a b : ℝ, (∀ p ∈ l, p.2 = a * p.1 + b) → pearson l = a / |a| := by
    intro a b h
    have hm := mean_affine l hl a b h
    have c12 : covariance l Prod.fst Prod.snd = a * covariance l Prod.fst Prod.fst := by
      have := mean_comb l (fun p => (p.1 - mean (l.map Prod.fst)) * (p.1 - mean (l.map Prod.fst))) (fun _ => 0) (fun _ => 0) a 0 0
      unfold covariance
      rw [hm]
      simp only [zero_mul, add_zero] at this
      rw [← this]
      congr 1
      apply List.map_congr_left
      intro p hp
      rw [h p hp]
      ring
    have c22 : covariance l Prod.snd Prod.snd = a ^ 2 * covariance l Prod.fst Prod.fst := by
      have := mean_comb l (fun p => (p.1 - mean (l.map Prod.fst)) * (p.1 - mean (l.map Prod.fst))) (fun _ => 0) (fun _ => 0) (a ^ 2) 0 0
      unfold covariance
      rw [hm]
      simp only [zero_mul, add_zero] at this
      rw [← this]
      congr 1
      apply List.map_congr_left
      intro p hp
      rw [h p hp]
      ring
    unfold pearson
    rw [c12, c22, show covariance l Prod.fst Prod.fst * (a ^ 2 * covariance l Prod.fst Prod.fst) =
      (|a| * covariance l Prod.fst Prod.fst) ^ 2 by rw [mul_pow, sq_abs]; ring, Real.sqrt_sq (by positivity),
      mul_div_mul_right _ _ v1.ne']
  have hforth : pearson l ^ 2 = 1 → ∀ p ∈ l, p.2 = covariance l Prod.fst Prod.snd / covariance l Prod.fst Prod.fst * p.1 +
      (mean (l.map Prod.snd) - covariance l Prod.fst Prod.snd / covariance l Prod.fst Prod.fst * mean (l.map Prod.fst)) := by
    intro hp
    unfold pearson at hp
    rw [div_pow, Real.sq_sqrt (mul_pos v1 v2).le, div_eq_one_iff_eq (mul_pos v1 v2).ne'] at hp
    set c := covariance l Prod.fst Prod.snd with hc
    set u := covariance l Prod.fst Prod.fst with hu
    set w := covariance l Prod.snd Prod.snd with hw
    have hz : mean (l.map fun p => (u * (p.2 - mean (l.map Prod.snd)) - c * (p.1 - mean (l.map Prod.fst))) ^ 2) = 0 := by
      have := mean_comb l (fun p => (p.2 - mean (l.map Prod.snd)) * (p.2 - mean (l.map Prod.snd)))
        (fun p => (p.1 - mean (l.map Prod.fst)) * (p.2 - mean (l.map Prod.snd)))
        (fun p => (p.1 - mean (l.map Prod.fst)) * (p.1 - mean (l.map Prod.fst))) (u ^ 2) (-2 * u * c) (c ^ 2)
      have e : mean (l.map fun p => (u * (p.2 - mean (l.map Prod.snd)) - c * (p.1 - mean (l.map Prod.fst))) ^ 2) =
          u ^ 2 * w + -2 * u * c * c + c ^ 2 * u := by
        refine Eq.trans ?_ this
        congr 1
        apply List.map_congr_left
        intro p _
        ring
      rw [e]
      linear_combination (-u) * hp
    intro p hpl
    have h0 := zero_of_mean_sq l _ hz p hpl
    have : p.2 - mean (l.map Prod.snd) = c / u * (p.1 - mean (l.map Prod.fst)) := by
      field_simp
      linarith
    linarith
  refine ⟨⟨fun h => ?_, ?_⟩, fun h => ?_, ?_⟩
  · refine ⟨_, _, ?_, hforth (by rw [h]; norm_num)⟩
    unfold pearson at h
    rw [div_eq_one_iff_eq hroot.ne'] at h
    rw [h]
    exact div_pos hroot v1
  · rintro ⟨a, b, ha, h⟩
    rw [hback a b h, abs_of_pos ha, div_self ha.ne']
  · refine ⟨_, _, ?_, hforth (by rw [h]; norm_num)⟩
    unfold pearson at h
    rw [div_eq_iff hroot.ne'] at h
    rw [h]
    exact div_neg_of_neg_of_pos (by linarith) v1
  · rintro ⟨a, b, ha, h⟩
    rw [hback a b h, abs_of_neg ha, div_neg, div_self ha.ne]

/-- **C27** The coefficient of two sequences is 1 if and only if the values of their common part lie on a rising line, and -1 if and only
if they lie on a falling line (the common parts not being constant). -/
theorem C27_extreme (l1 l2 : List ℝ) (h1 : NonConstant (l1.take l2.length)) (h2 : NonConstant (l2.take l1.length)) :
    (correlation l1 l2 = some 1 ↔ ∃ a b : ℝ, 0 < a ∧ ∀ (i : ℕ) x y, l1[i]? = some x → l2[i]? = some y → y = a * x + b) ∧
    (correlation l1 l2 = some (-1) ↔ ∃ a b : ℝ, a < 0 ∧ ∀ (i : ℕ) x y, l1[i]? = some x → l2[i]? = some y → y = a * x + b) := by
  have e1 : l1 ≠ [] := by
    obtain ⟨x, hx, -⟩ := h1; exact List.ne_nil_of_mem (List.mem_of_mem_take hx)
  have e2 : l2 ≠ [] := by
    obtain ⟨x, hx, -⟩ := h2; exact List.ne_nil_of_mem (List.mem_of_mem_take hx)
  have f1 : (l1.zip l2).map Prod.fst = l1.take l2.length := by
    exact fst_zip l1 l2
  have f2 : (l1.zip l2).map Prod.snd = l2.take l1.length := by
    exact snd_zip l1 l2
  have hiff : ∀ a b : ℝ, (∀ p ∈ l1.zip l2, p.2 = a * p.1 + b) ↔ ∀ (i : ℕ) x y, l1[i]? = some x → l2[i]? = some y → y = a * x + b := by
    intro a b
    constructor
    · intro h i x y hx hy
      exact h (x, y) (List.mem_of_getElem? (i := i) (by rw [List.getElem?_zip_eq_some]; exact ⟨hx, hy⟩))
    · rintro h ⟨x, y⟩ hp
      obtain ⟨i, hi⟩ := List.mem_iff_getElem?.mp hp
      rw [List.getElem?_zip_eq_some] at hi
      exact h i x y hi.1 hi.2
  obtain ⟨p1, p2⟩ := pearson_extreme (l1.zip l2) (by rw [f1]; exact h1) (by rw [f2]; exact h2)
  rw [C27_pearson l1 l2 e1 e2, Option.some.injEq, Option.some.injEq, p1, p2]
  simp only [hiff, and_self]

/-- Sequences of different lengths on a falling line. -/
example : NonConstant (([1, 2, 4] : List ℝ).take ([5, 3] : List ℝ).length) ∧ NonConstant (([5, 3] : List ℝ).take ([1, 2, 4] : List ℝ).length) := by
  refine ⟨⟨1, by simp, 2, by simp, by norm_num⟩, ⟨5, by simp, 3, by simp, by norm_num⟩⟩

end Ubitrack.Average
