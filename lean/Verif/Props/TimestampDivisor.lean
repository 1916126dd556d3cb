import Verif.Props.TimestampSyncLS

/-!
# C14: when the least-squares synchronisation divides by zero
-/

namespace Ubitrack.TSyncLS

/-- The number the extrapolation divides by. -/
noncomputable def divisor (s : St) : ℝ := s.avgNativeSquare - s.avgNative * s.avgNative

theorem weight_lt (g : BitVec 64) (es : Hist) (hne : es ≠ []) (hlen : es.length < 2 ^ 32) :
    0 < weight (feed (construct g) es) ∧ weight (feed (construct g) es) < 1 := by
  have hl : 0 < es.length := List.length_pos_of_ne_nil hne
  unfold weight
  split_ifs
  · rw [feed_events]
    simp only [BitVec.toNat_ofNat]
    rw [Nat.mod_eq_of_lt (b := 2 ^ 32) hlen]
    have h1 : (0 : ℝ) < es.length := by exact_mod_cast hl
    constructor
    · positivity
    · rw [div_lt_one (by positivity)]
      linarith
  · norm_num

theorem weight_nil (g : BitVec 64) : weight (feed (construct g) []) = 1 := by
  simp [weight, feed, construct]

theorem divisor_acc {s : St} {n : ℝ} {l : BitVec 64} (h : accepted s n l) :
    divisor (convert s n l).1 =
      (1 - weight s) * divisor s + weight s * (1 - weight s) * (n - s.avgNative) ^ 2 := by
  obtain ⟨c1, _, c3, _⟩ := convert_acc h
  unfold divisor
  rw [c1, c3]
  ring

theorem divisor_rej {s : St} {n : ℝ} {l : BitVec 64} (h : ¬ accepted s n l) :
    divisor (convert s n l).1 = divisor s := by
  obtain ⟨c1, _, c3, _⟩ := convert_rej h
  unfold divisor
  rw [c1, c3]

theorem same_inv (g : BitVec 64) (a : ℝ) (es : Hist) (hne : es ≠ []) (h : ∀ e ∈ es, e.1 = a) :
    let s := feed (construct g) es
    s.avgNative = a ∧ s.avgNativeSquare = a * a ∧ s.avgLocalNative = s.avgLocal * a := by
  induction es using List.reverseRecOn with
  | nil => exact absurd rfl hne
  | append_singleton es e ih =>
    rw [feed_append]
    have he : e.1 = a := h e (by simp)
    by_cases hes : es = []
    · subst hes
      have hacc := C14_first_hundred_accepted g [] (by simp) e.1 e.2
      obtain ⟨c1, c2, c3, c4⟩ := convert_acc hacc
      intro s
      rw [c1, c2, c3, c4, weight_nil, he]
      refine ⟨by ring, by ring, by ring⟩
    · obtain ⟨i1, i2, i3⟩ := ih hes (fun x hx => h x (by simp [hx]))
      by_cases hacc : accepted (feed (construct g) es) e.1 e.2
      · obtain ⟨c1, c2, c3, c4⟩ := convert_acc hacc
        intro s
        rw [c1, c2, c3, c4, i1, i2, i3, he]
        refine ⟨by ring, by ring, by ring⟩
      · obtain ⟨c1, c2, c3, c4⟩ := convert_rej hacc
        intro s
        rw [c1, c2, c3, c4]
        exact ⟨i1, i2, i3⟩

/-- **C14** During the warm-up the number the extrapolation divides by is zero exactly when all
events carry the same native time. -/
theorem C14_divisor_zero (g : BitVec 64) (es : Hist) (hne : es ≠ []) (hlen : es.length ≤ 100) :
    let s := feed (construct g) es
    s.avgNativeSquare - s.avgNative * s.avgNative = 0 ↔ ∃ a, ∀ e ∈ es, e.1 = a := by
  intro s
  constructor
  · intro h0
    refine ⟨s.avgNative, ?_⟩
    change divisor (feed (construct g) es) = 0 at h0
    change ∀ e ∈ es, e.1 = (feed (construct g) es).avgNative
    clear s hne
    induction es using List.reverseRecOn with
    | nil => simp
    | append_singleton es e ih =>
      simp only [List.length_append, List.length_cons, List.length_nil] at hlen
      have hacc := C14_first_hundred_accepted g es (by omega) e.1 e.2
      obtain ⟨c1, -, -, -⟩ := convert_acc hacc
      rw [feed_append] at h0 ⊢
      rw [divisor_acc hacc] at h0
      rw [c1]
      by_cases hes : es = []
      · subst hes
        intro x hx
        simp only [List.nil_append, List.mem_singleton] at hx
        rw [weight_nil, hx]
        ring
      · obtain ⟨w0, w1⟩ := weight_lt g es hes (by omega)
        have hd : 0 ≤ divisor (feed (construct g) es) := C14_variance_nonneg g es
        have hw1 : 0 < 1 - weight (feed (construct g) es) := by linarith
        have p1 := mul_nonneg hw1.le hd
        have p2 := mul_nonneg (mul_pos w0 hw1).le (sq_nonneg (e.1 - (feed (construct g) es).avgNative))
        have z1 : (1 - weight (feed (construct g) es)) * divisor (feed (construct g) es) = 0 := by linarith
        have z2 : weight (feed (construct g) es) * (1 - weight (feed (construct g) es)) *
            (e.1 - (feed (construct g) es).avgNative) ^ 2 = 0 := by linarith
        have hd0 := (mul_eq_zero.mp z1).resolve_left hw1.ne'
        have he0 := pow_eq_zero_iff (two_ne_zero) |>.mp ((mul_eq_zero.mp z2).resolve_left (mul_pos w0 hw1).ne')
        rw [he0]
        intro x hx
        rcases List.mem_append.mp hx with hx | hx
        · rw [ih (by omega) hd0 x hx]; ring
        · simp only [List.mem_singleton] at hx
          rw [hx]; linarith
  · rintro ⟨a, ha⟩
    obtain ⟨i1, i2, _⟩ := same_inv g a es hne ha
    change (feed (construct g) es).avgNativeSquare - (feed (construct g) es).avgNative * (feed (construct g) es).avgNative = 0
    rw [i1, i2, sub_self]

/-- **C14** Once the native times have differed, the divisor stays positive whatever follows (as
long as the event counter does not overflow): the extrapolation is defined for ever after. -/
theorem C14_divisor_positive (g : BitVec 64) (es more : Hist) (hlen : es.length ≤ 100)
    (hdiff : ∃ x ∈ es, ∃ y ∈ es, x.1 ≠ y.1) (htot : (es ++ more).length < 2 ^ 32) :
    let s := feed (construct g) (es ++ more)
    0 < s.avgNativeSquare - s.avgNative * s.avgNative := by
  obtain ⟨x, hx, y, hy, hxy⟩ := hdiff
  have hne : es ≠ [] := List.ne_nil_of_mem hx
  change 0 < divisor (feed (construct g) (es ++ more))
  induction more using List.reverseRecOn with
  | nil =>
    rw [List.append_nil]
    refine lt_of_le_of_ne (C14_variance_nonneg g es) fun h => ?_
    obtain ⟨a, ha⟩ := (C14_divisor_zero g es hne hlen).mp h.symm
    exact hxy ((ha x hx).trans (ha y hy).symm)
  | append_singleton more e ih =>
    rw [← List.append_assoc] at htot ⊢
    have hl : (es ++ more).length < 2 ^ 32 := by
      rw [List.length_append] at htot; omega
    have i := ih hl
    rw [feed_append]
    by_cases hacc : accepted (feed (construct g) (es ++ more)) e.1 e.2
    · rw [divisor_acc hacc]
      obtain ⟨w0, w1⟩ := weight_lt g (es ++ more) (by simp [hne]) hl
      have hw1 : 0 < 1 - weight (feed (construct g) (es ++ more)) := by linarith
      have := mul_pos hw1 i
      have := mul_nonneg (mul_pos w0 hw1).le (sq_nonneg (e.1 - (feed (construct g) (es ++ more)).avgNative))
      linarith
    · rw [divisor_rej hacc]
      exact i

/-- **C14** The divisor can be zero: after more than ten events that all carry the same native time,
the next event is converted by dividing zero by zero, whatever its own times are. The result in the
code is a NaN, whose conversion to an integer is undefined. -/
theorem C14_same_time_refuted (g : BitVec 64) (a : ℝ) (es : Hist) (h10 : 10 < es.length)
    (hlen : es.length < 2 ^ 32) (h : ∀ e ∈ es, e.1 = a) (native : ℝ) :
    let s := feed (construct g) es
    s.events > 10 ∧ s.avgNativeSquare - s.avgNative * s.avgNative = 0 ∧
      native * (s.avgLocalNative - s.avgLocal * s.avgNative) +
        (s.avgNativeSquare * s.avgLocal - s.avgNative * s.avgLocalNative) = 0 := by
  have hne : es ≠ [] := by rintro rfl; simp at h10
  obtain ⟨i1, i2, i3⟩ := same_inv g a es hne h
  intro s
  refine ⟨?_, ?_, ?_⟩
  · change (feed (construct g) es).events > 10
    rw [feed_events, gt_iff_lt, BitVec.lt_def]
    simp only [BitVec.toNat_ofNat]
    rw [Nat.mod_eq_of_lt (b := 2 ^ 32) hlen]
    simpa using h10
  · change (feed (construct g) es).avgNativeSquare - (feed (construct g) es).avgNative * (feed (construct g) es).avgNative = 0
    rw [i1, i2, sub_self]
  · change native * ((feed (construct g) es).avgLocalNative - (feed (construct g) es).avgLocal * (feed (construct g) es).avgNative) +
      ((feed (construct g) es).avgNativeSquare * (feed (construct g) es).avgLocal -
        (feed (construct g) es).avgNative * (feed (construct g) es).avgLocalNative) = 0
    rw [i1, i2, i3]
    ring

/-- Eleven events of one native time: the hypotheses of `C14_same_time_refuted` are met. -/
example : let s := feed (construct 0) (List.replicate 11 ((5 : ℝ), (7 : BitVec 64)))
    s.avgNativeSquare - s.avgNative * s.avgNative = 0 :=
  (C14_same_time_refuted 0 5 (List.replicate 11 (5, 7)) (by simp) (by simp)
    (fun e he => by rw [List.eq_of_mem_replicate he]) 0).2.1

/-- Two events with different native times, then any third: the hypotheses of
`C14_divisor_positive` are met. -/
example (l : BitVec 64) : let s := feed (construct 0) ([((5 : ℝ), (7 : BitVec 64)), (6, 8)] ++ [(5, l)])
    0 < s.avgNativeSquare - s.avgNative * s.avgNative :=
  C14_divisor_positive 0 [(5, 7), (6, 8)] [(5, l)] (by simp)
    ⟨(5, 7), by simp, (6, 8), by simp, by norm_num⟩ (by simp)

end Ubitrack.TSyncLS
