import Verif.Model.TimestampSyncLS
import Mathlib.Tactic.Linarith
import Mathlib.Tactic.Positivity
import Mathlib.Tactic.FieldSimp
import Mathlib.Tactic.NormNum
import Mathlib.Algebra.Order.Floor.Ring
import Mathlib.Tactic.Push
import Mathlib.Algebra.BigOperators.Group.List.Basic
import Mathlib.Tactic.LinearCombination
import Mathlib.Analysis.Real.Sqrt

/-!
# C14: least-squares timestamp synchronisation
-/

namespace Ubitrack.TSyncLS

open Ubitrack.TSync (trunc)

/-- A history of events: (native time, local time). -/
abbrev Hist := List (ℝ × BitVec 64)

noncomputable def feed (s : St) (es : Hist) : St := es.foldl (fun s e => (convert s e.1 e.2).1) s

theorem feed_append (s : St) (es : Hist) (e : ℝ × BitVec 64) :
    feed s (es ++ [e]) = (convert (feed s es) e.1 e.2).1 := by
  simp [feed]

theorem start_events (s : St) (l : BitVec 64) : (start s l).events = s.events := by
  unfold start; split_ifs <;> rfl

theorem start_budget (s : St) (l : BitVec 64) : (start s l).outlierBudget = s.outlierBudget := by
  unfold start; split_ifs <;> rfl

theorem convert_events (s : St) (n : ℝ) (l : BitVec 64) :
    (convert s n l).1.events = s.events + 1 := by
  unfold convert; dsimp only; split_ifs <;> simp [average, start_events]

theorem convert_budget_acc {s : St} {n : ℝ} {l : BitVec 64} (h : accepted s n l) :
    (convert s n l).1.outlierBudget = min 40 (s.outlierBudget + 1) := by
  unfold accepted at h
  unfold convert; dsimp only
  rw [if_pos h]; simp only [average, start_budget]

theorem convert_budget_rej {s : St} {n : ℝ} {l : BitVec 64} (h : ¬ accepted s n l) :
    (convert s n l).1.outlierBudget = s.outlierBudget - 2 ∧ 0 ≤ s.outlierBudget := by
  unfold accepted at h
  unfold convert; dsimp only
  rw [if_neg h]
  refine ⟨by simp only [start_budget], ?_⟩
  unfold accepts at h
  push Not at h
  simpa [start_budget] using h.2.2

theorem feed_events (g : BitVec 64) (es : Hist) :
    (feed (construct g) es).events = BitVec.ofNat 32 es.length := by
  induction es using List.reverseRecOn with
  | nil => rfl
  | append_singleton es e ih =>
    rw [feed_append, convert_events, ih]
    simp [BitVec.ofNat_add]

theorem feed_firstLocal (g : BitVec 64) (e : ℝ × BitVec 64) (es : Hist)
    (hlen : es.length + 1 < 2 ^ 32) :
    (feed (construct g) (e :: es)).firstLocal = e.2 := by
  induction es using List.reverseRecOn with
  | nil =>
    simp only [feed, List.foldl]
    unfold convert; dsimp only
    split_ifs <;> simp [average, start, construct]
  | append_singleton es e' ih =>
    simp only [List.length_append, List.length_cons, List.length_nil] at hlen
    have ih := ih (by omega)
    have hev := feed_events g (e :: es)
    rw [← List.cons_append, feed_append]
    have hne : (feed (construct g) (e :: es)).events ≠ 0 := by
      rw [hev]
      intro h
      have := congrArg BitVec.toNat h
      simp [BitVec.toNat_ofNat] at this
      omega
    unfold convert; dsimp only
    have hst : start (feed (construct g) (e :: es)) e'.2 = feed (construct g) (e :: es) := by
      unfold start; rw [if_neg hne]
    rw [hst]
    split_ifs <;> simp [average, ih]

/-- **C14** The first eleven events are passed through unchanged. -/
theorem C14_warmup_identity (g : BitVec 64) (es : Hist) (hlen : es.length ≤ 10)
    (native : ℝ) (loc : BitVec 64) : (convert (feed (construct g) es) native loc).2 = loc := by
  have hev := feed_events g es
  have hle : ¬ ((start (feed (construct g) es) loc).events > 10) := by
    rw [start_events, hev]
    intro h
    rw [gt_iff_lt, BitVec.lt_def] at h
    simp at h
    omega
  generalize feed (construct g) es = s at *
  have hx : extrapolate (start s loc) native (fLocal (start s loc) loc) = fLocal (start s loc) loc := by
    unfold extrapolate; rw [if_neg hle]
  have ht : trunc (fLocal (start s loc) loc) = ((loc - (start s loc).firstLocal).toNat : ℤ) := by
    unfold trunc fLocal
    rw [if_pos (by positivity)]
    simp
  unfold convert
  dsimp only
  rw [hx, ht]
  have : ∀ b : BitVec 64, b + BitVec.ofInt 64 ((loc - b).toNat : ℤ) = loc := by
    intro b
    rw [BitVec.ofInt_natCast, BitVec.ofNat_toNat, BitVec.setWidth_eq]
    grind
  split_ifs
  · exact this _
  · exact this _

/-- **C14** The first hundred events are all used; afterwards the outlier budget never leaves
[-2, 40]. -/
theorem C14_budget_bounded (g : BitVec 64) (es : Hist) :
    -2 ≤ (feed (construct g) es).outlierBudget ∧ (feed (construct g) es).outlierBudget ≤ 40 := by
  induction es using List.reverseRecOn with
  | nil => constructor <;> simp [feed, construct]
  | append_singleton es e ih =>
    rw [feed_append]
    by_cases ha : accepted (feed (construct g) es) e.1 e.2
    · rw [convert_budget_acc ha]; omega
    · have := convert_budget_rej ha
      rw [this.1]; omega

theorem C14_first_hundred_accepted (g : BitVec 64) (es : Hist) (hlen : es.length < 100)
    (native : ℝ) (loc : BitVec 64) : accepted (feed (construct g) es) native loc := by
  left
  rw [start_events, feed_events, BitVec.lt_def]
  simp
  omega

def AllRejected (s : St) : Hist → Prop
  | [] => True
  | e :: es => ¬ accepted s e.1 e.2 ∧ AllRejected (convert s e.1 e.2).1 es

/-- **C14** After any history, no run of consecutive rejected events is longer than 21. -/
theorem C14_no_lockout (g : BitVec 64) (past es : Hist)
    (hrej : AllRejected (feed (construct g) past) es) : es.length ≤ 21 := by
  have key : ∀ (es : Hist) (s : St), AllRejected s es → es ≠ [] →
      2 * (es.length : ℤ) - 2 ≤ s.outlierBudget := by
    intro es
    induction es with
    | nil => intro s _ h; exact absurd rfl h
    | cons e es ih =>
      intro s h _
      have h1 := convert_budget_rej h.1
      by_cases hes : es = []
      · subst hes; simpa using h1.2
      · have := ih _ h.2 hes
        rw [h1.1] at this
        simp only [List.length_cons]
        push_cast
        omega
  by_cases hes : es = []
  · subst hes; simp
  · have h1 := key es _ hrej hes
    have h2 := (C14_budget_bounded g past).2
    omega

/-- The averages after an accepted event. -/
theorem convert_acc {s : St} {n : ℝ} {l : BitVec 64} (h : accepted s n l) :
    let c := (convert s n l).1
    let w := weight s
    let f := fLocal (start s l) l
    c.avgNative = s.avgNative + (n - s.avgNative) * w ∧
    c.avgLocal = s.avgLocal + (f - s.avgLocal) * w ∧
    c.avgNativeSquare = s.avgNativeSquare + (n * n - s.avgNativeSquare) * w ∧
    c.avgLocalNative = s.avgLocalNative + (f * n - s.avgLocalNative) * w := by
  unfold accepted at h
  have hw : weight (start s l) = weight s := by unfold weight; rw [start_events]
  have h0 : (start s l).avgNative = s.avgNative ∧ (start s l).avgLocal = s.avgLocal ∧
      (start s l).avgNativeSquare = s.avgNativeSquare ∧
      (start s l).avgLocalNative = s.avgLocalNative := by
    unfold start; split_ifs <;> simp
  intro c w f
  have hc : c = (convert s n l).1 := rfl
  unfold convert at hc
  dsimp only at hc
  rw [if_pos h] at hc
  rw [hc]
  simp only [average, hw, h0]
  exact ⟨rfl, rfl, rfl, rfl⟩

theorem convert_rej {s : St} {n : ℝ} {l : BitVec 64} (h : ¬ accepted s n l) :
    let c := (convert s n l).1
    c.avgNative = s.avgNative ∧ c.avgLocal = s.avgLocal ∧
    c.avgNativeSquare = s.avgNativeSquare ∧ c.avgLocalNative = s.avgLocalNative := by
  unfold accepted at h
  have h0 : (start s l).avgNative = s.avgNative ∧ (start s l).avgLocal = s.avgLocal ∧
      (start s l).avgNativeSquare = s.avgNativeSquare ∧
      (start s l).avgLocalNative = s.avgLocalNative := by
    unfold start; split_ifs <;> simp
  intro c
  have hc : c = (convert s n l).1 := rfl
  unfold convert at hc
  dsimp only at hc
  rw [if_neg h] at hc
  rw [hc]
  simpa using h0

/-- Local time since the first event of the history, as the user sees it. -/
def sinceFirst (es : Hist) (l : BitVec 64) : ℝ :=
  match es with
  | [] => 0
  | e :: _ => ((l - e.2).toNat : ℝ)

theorem fLocal_eq (g : BitVec 64) (es : Hist) (hlen : es.length < 2 ^ 32) (l : BitVec 64) :
    fLocal (start (feed (construct g) es) l) l = sinceFirst es l := by
  cases es with
  | nil => simp [feed, start, construct, fLocal, sinceFirst]
  | cons e es =>
    have h1 := feed_firstLocal g e es (by simpa using hlen)
    have hne : (feed (construct g) (e :: es)).events ≠ 0 := by
      rw [feed_events]
      intro h
      have := congrArg BitVec.toNat h
      simp only [List.length_cons] at hlen
      simp [BitVec.toNat_ofNat] at this
      omega
    unfold start
    rw [if_neg hne]
    simp only [fLocal, sinceFirst, h1]

theorem sinceFirst_append (es es' : Hist) (h : es ≠ []) (l : BitVec 64) :
    sinceFirst (es ++ es') l = sinceFirst es l := by
  cases es with
  | nil => exact absurd rfl h
  | cons e es => rfl

theorem sinceFirst_singleton (es : Hist) (e : ℝ × BitVec 64) :
    sinceFirst (es ++ [e]) e.2 = sinceFirst es e.2 := by
  cases es with
  | nil => simp [sinceFirst]
  | cons e es => rfl

/-- **C14** During the warm-up (up to 100 events) the four running averages are the exact
arithmetic means of `native`, `local`, `native²` and `native·local` over the whole history. -/
theorem C14_warmup_means (g : BitVec 64) (es : Hist) (hlen : es.length ≤ 100) (hne : es ≠ []) :
    let s := feed (construct g) es
    let n : ℝ := es.length
    s.avgNative = (es.map (fun e => e.1)).sum / n ∧
    s.avgNativeSquare = (es.map (fun e => e.1 * e.1)).sum / n ∧
    s.avgLocal = (es.map (fun e => sinceFirst es e.2)).sum / n ∧
    s.avgLocalNative = (es.map (fun e => sinceFirst es e.2 * e.1)).sum / n := by
  have key : ∀ es : Hist, es.length ≤ 100 →
      let s := feed (construct g) es
      let n : ℝ := es.length
      s.avgNative * n = (es.map (fun e => e.1)).sum ∧
      s.avgNativeSquare * n = (es.map (fun e => e.1 * e.1)).sum ∧
      s.avgLocal * n = (es.map (fun e => sinceFirst es e.2)).sum ∧
      s.avgLocalNative * n = (es.map (fun e => sinceFirst es e.2 * e.1)).sum := by
    intro es
    induction es using List.reverseRecOn with
    | nil => simp
    | append_singleton es e ih =>
      intro hl
      simp only [List.length_append, List.length_cons, List.length_nil] at hl
      obtain ⟨i1, i2, i3, i4⟩ := ih (by omega)
      have hacc := C14_first_hundred_accepted g es (by omega) e.1 e.2
      obtain ⟨c1, c2, c3, c4⟩ := convert_acc hacc
      have hw : weight (feed (construct g) es) = 1 / ((es.length : ℝ) + 1) := by
        unfold weight
        have hlt : (feed (construct g) es).events < 100 := by
          rw [feed_events, BitVec.lt_def]; simp; omega
        rw [if_pos hlt, feed_events]
        simp only [BitVec.toNat_ofNat]
        rw [Nat.mod_eq_of_lt (by omega)]
      rw [fLocal_eq g es (by omega)] at c2 c4
      rw [hw] at c1 c2 c3 c4
      have hsum : ∀ f : ℝ → ℝ × BitVec 64 → ℝ,
          ((es ++ [e]).map (fun x => f (sinceFirst (es ++ [e]) x.2) x)).sum =
            (es.map (fun x => f (sinceFirst es x.2) x)).sum + f (sinceFirst es e.2) e := by
        intro f
        rw [List.map_append, List.sum_append]
        congr 1
        · by_cases h : es = []
          · subst h; simp
          · congr 1
            apply List.map_congr_left
            intro x _
            rw [sinceFirst_append es [e] h]
        · simp [sinceFirst_singleton]
      have hpos : (0 : ℝ) < (es.length : ℝ) + 1 := by positivity
      intro s n
      have hn : n = (es.length : ℝ) + 1 := by simp [n]
      have hs : s = (convert (feed (construct g) es) e.1 e.2).1 := feed_append _ _ _
      rw [hs, hn]
      refine ⟨?_, ?_, ?_, ?_⟩
      · rw [c1, List.map_append, List.sum_append, ← i1]; simp; field_simp; ring
      · rw [c3, List.map_append, List.sum_append, ← i2]; simp; field_simp; ring
      · rw [c2, hsum (fun f _ => f), ← i3]; field_simp; ring
      · rw [c4, hsum (fun f x => f * x.1), ← i4]; field_simp; ring
  intro s n
  have hn : (0 : ℝ) < n := by
    simp only [n]
    exact_mod_cast List.length_pos_of_ne_nil hne
  obtain ⟨k1, k2, k3, k4⟩ := key es hlen
  refine ⟨?_, ?_, ?_, ?_⟩ <;> rw [eq_div_iff hn.ne'] <;> assumption

/-- The history lies exactly on one straight line: local time since the first event is
`gain * native + offset`. -/
def Linear (gain offset : ℝ) (es : Hist) : Prop :=
  ∀ e ∈ es, sinceFirst es e.2 = gain * e.1 + offset

theorem weight_first (s : St) (h : s.events = 0) : weight s = 1 := by
  unfold weight; rw [h]; simp

theorem linear_inv (g : BitVec 64) (gain offset : ℝ) (es : Hist) (hne : es ≠ [])
    (hlen : es.length < 2 ^ 32) (hlin : Linear gain offset es) :
    let s := feed (construct g) es
    s.avgLocal = gain * s.avgNative + offset ∧
    s.avgLocalNative = gain * s.avgNativeSquare + offset * s.avgNative := by
  induction es using List.reverseRecOn with
  | nil => exact absurd rfl hne
  | append_singleton es e ih =>
    simp only [List.length_append, List.length_cons, List.length_nil] at hlen
    have hfl := fLocal_eq g es (by omega) e.2
    have he : sinceFirst es e.2 = gain * e.1 + offset := by
      rw [← sinceFirst_singleton]; exact hlin e (by simp)
    rw [feed_append]
    by_cases hes : es = []
    · subst hes
      have hacc := C14_first_hundred_accepted g [] (by simp) e.1 e.2
      obtain ⟨c1, c2, c3, c4⟩ := convert_acc hacc
      rw [hfl, he] at c2 c4
      have hw : weight (feed (construct g) []) = 1 := weight_first _ rfl
      rw [hw] at c1 c2 c3 c4
      intro s
      rw [c1, c2, c3, c4]
      constructor <;> ring
    · have hl' : Linear gain offset es := by
        intro x hx
        rw [← sinceFirst_append es [e] hes]
        exact hlin x (by simp [hx])
      obtain ⟨i1, i2⟩ := ih hes (by omega) hl'
      by_cases hacc : accepted (feed (construct g) es) e.1 e.2
      · obtain ⟨c1, c2, c3, c4⟩ := convert_acc hacc
        rw [hfl, he] at c2 c4
        intro s
        rw [c1, c2, c3, c4, i1, i2]
        constructor <;> ring
      · obtain ⟨c1, c2, c3, c4⟩ := convert_rej hacc
        intro s
        rw [c1, c2, c3, c4]
        exact ⟨i1, i2⟩

/-- **C14** The variance used as a divisor is never negative, after any history. -/
theorem C14_variance_nonneg (g : BitVec 64) (es : Hist) :
    let s := feed (construct g) es
    0 ≤ s.avgNativeSquare - s.avgNative * s.avgNative := by
  induction es using List.reverseRecOn with
  | nil => simp [feed, construct]
  | append_singleton es e ih =>
    rw [feed_append]
    by_cases hacc : accepted (feed (construct g) es) e.1 e.2
    · obtain ⟨c1, c2, c3, c4⟩ := convert_acc hacc
      intro s
      rw [c1, c3]
      have hw : 0 ≤ weight (feed (construct g) es) ∧ weight (feed (construct g) es) ≤ 1 := by
        unfold weight
        split_ifs
        · constructor
          · positivity
          · rw [div_le_one (by positivity)]
            have : (0 : ℝ) ≤ ((feed (construct g) es).events.toNat : ℝ) := by positivity
            linarith
        · norm_num
      dsimp only at ih
      generalize weight (feed (construct g) es) = w at *
      generalize (feed (construct g) es).avgNative = m at *
      generalize (feed (construct g) es).avgNativeSquare = q at *
      have e1 : q + (e.1 * e.1 - q) * w - (m + (e.1 - m) * w) * (m + (e.1 - m) * w) =
          (1 - w) * (q - m * m) + w * (1 - w) * (e.1 - m) ^ 2 := by ring
      rw [e1]
      have h1 : 0 ≤ (1 - w) * (q - m * m) := mul_nonneg (sub_nonneg.mpr hw.2) ih
      have := mul_nonneg (mul_nonneg hw.1 (sub_nonneg.mpr hw.2)) (sq_nonneg (e.1 - m))
      linarith
    · obtain ⟨c1, c2, c3, c4⟩ := convert_rej hacc
      intro s
      rw [c1, c3]
      exact ih

/-- **C14** Perfect clocks are reproduced exactly: if all events so far, including the new one, lie
on one straight line and native times have varied, then the new event is returned unchanged, no
matter how long the history is. -/
theorem C14_linear_clock_exact (g : BitVec 64) (gain offset : ℝ) (es : Hist) (hne : es ≠ [])
    (hlen : es.length < 2 ^ 32) (native : ℝ) (loc : BitVec 64)
    (hlin : Linear gain offset (es ++ [(native, loc)]))
    (hvar : let s := feed (construct g) es; s.avgNativeSquare ≠ s.avgNative * s.avgNative) :
    (convert (feed (construct g) es) native loc).2 = loc ∧
      accepted (feed (construct g) es) native loc := by
  have hl' : Linear gain offset es := by
    intro x hx
    rw [← sinceFirst_append es [(native, loc)] hne]
    exact hlin x (by simp [hx])
  have he : sinceFirst es loc = gain * native + offset := by
    have := hlin (native, loc) (by simp)
    rwa [sinceFirst_append es _ hne] at this
  obtain ⟨i1, i2⟩ := linear_inv g gain offset es hne hlen hl'
  have hfl := fLocal_eq g es hlen loc
  have hdev : ∀ es : Hist, 0 < (feed (construct g) es).avgDeviationSquare := by
    intro es
    induction es using List.reverseRecOn with
    | nil => norm_num [feed, construct]
    | append_singleton es e ih =>
      rw [feed_append]
      have hsd : ∀ (s : St) l, (start s l).avgDeviationSquare = s.avgDeviationSquare := by
        intro s l; unfold start; split_ifs <;> rfl
      unfold convert; dsimp only
      split_ifs
      · simp only [average, hsd]
        split_ifs
        · nlinarith [mul_self_nonneg (extrapolate (start (feed (construct g) es) e.2) e.1
            (fLocal (start (feed (construct g) es) e.2) e.2) -
            fLocal (start (feed (construct g) es) e.2) e.2)]
        · exact ih
      · simpa [hsd] using ih
  have hd := hdev es
  generalize feed (construct g) es = s at *
  have hav : (start s loc).avgNative = s.avgNative ∧ (start s loc).avgLocal = s.avgLocal ∧
      (start s loc).avgNativeSquare = s.avgNativeSquare ∧
      (start s loc).avgLocalNative = s.avgLocalNative ∧
      (start s loc).avgDeviationSquare = s.avgDeviationSquare := by
    unfold start; split_ifs <;> simp
  have hx : extrapolate (start s loc) native (fLocal (start s loc) loc) = fLocal (start s loc) loc := by
    unfold extrapolate
    split_ifs
    · have hv : s.avgNativeSquare - s.avgNative * s.avgNative ≠ 0 := sub_ne_zero.mpr hvar
      simp only [hav]
      rw [hfl, he, div_eq_iff hv, i1, i2]
      ring
    · rfl
  have ht : trunc (fLocal (start s loc) loc) = ((loc - (start s loc).firstLocal).toNat : ℤ) := by
    unfold trunc fLocal
    rw [if_pos (by positivity)]
    simp
  have hadd : ∀ b : BitVec 64, b + BitVec.ofInt 64 ((loc - b).toNat : ℤ) = loc := by
    intro b
    rw [BitVec.ofInt_natCast, BitVec.ofNat_toNat, BitVec.setWidth_eq]
    grind
  constructor
  · unfold convert
    dsimp only
    rw [hx, ht]
    split_ifs <;> exact hadd _
  · right; left
    rw [hx, hav.2.2.2.2]
    simp
    exact hd

/-- The least-squares line through the (weighted) events so far, at a native time: mean plus slope times the distance from the mean. -/
noncomputable def line (s : St) (native : ℝ) : ℝ :=
  s.avgLocal + (s.avgLocalNative - s.avgLocal * s.avgNative) / (s.avgNativeSquare - s.avgNative * s.avgNative) * (native - s.avgNative)

theorem extrapolate_line (g : BitVec 64) (es : Hist) (h10 : 10 < es.length) (hlen : es.length < 2 ^ 32) (native f : ℝ) (loc : BitVec 64)
    (hvar : let s := feed (construct g) es; s.avgNativeSquare ≠ s.avgNative * s.avgNative) :
    extrapolate (start (feed (construct g) es) loc) native f = line (feed (construct g) es) native := by
  have hev : (start (feed (construct g) es) loc).events > 10 := by
    rw [start_events, feed_events, gt_iff_lt, BitVec.lt_def]
    simp only [BitVec.toNat_ofNat]
    rw [Nat.mod_eq_of_lt (b := 2 ^ 32) hlen]
    simpa using h10
  have hav : (start (feed (construct g) es) loc).avgNative = (feed (construct g) es).avgNative ∧
      (start (feed (construct g) es) loc).avgLocal = (feed (construct g) es).avgLocal ∧
      (start (feed (construct g) es) loc).avgNativeSquare = (feed (construct g) es).avgNativeSquare ∧
      (start (feed (construct g) es) loc).avgLocalNative = (feed (construct g) es).avgLocalNative := by
    unfold start; split_ifs <;> simp
  unfold extrapolate line
  rw [if_pos hev]
  simp only [hav]
  have hv := sub_ne_zero.mpr hvar
  rw [div_eq_iff hv, add_mul, mul_right_comm, div_mul_cancel₀ _ hv]
  ring

/-- **C14** After eleven events the result is the value of the least-squares line, cut to whole local ticks, counted from the first event. -/
theorem C14_prediction (g : BitVec 64) (e : ℝ × BitVec 64) (es : Hist) (h10 : 10 ≤ es.length) (hlen : es.length + 1 < 2 ^ 32) (native : ℝ)
    (loc : BitVec 64) (hvar : let s := feed (construct g) (e :: es); s.avgNativeSquare ≠ s.avgNative * s.avgNative) :
    (convert (feed (construct g) (e :: es)) native loc).2 = e.2 + BitVec.ofInt 64 (trunc (line (feed (construct g) (e :: es)) native)) := by
  have hl := extrapolate_line g (e :: es) (by simp; omega) (by simpa using hlen) native (fLocal (start (feed (construct g) (e :: es)) loc) loc) loc hvar
  have hf : (start (feed (construct g) (e :: es)) loc).firstLocal = e.2 := by
    have h1 := feed_firstLocal g e es hlen
    have hne : (feed (construct g) (e :: es)).events ≠ 0 := by
      rw [feed_events]
      intro h
      have := congrArg BitVec.toNat h
      simp [BitVec.toNat_ofNat] at this
      omega
    unfold start
    rw [if_neg hne, h1]
  unfold convert
  dsimp only
  rw [hl]
  split_ifs <;> simp [average, hf]

/-- **C14** After a hundred events, an event is used if its local time is less than three standard deviations away from the line, or if there have been too
many outliers, and not otherwise. -/
theorem C14_outlier (g : BitVec 64) (es : Hist) (h100 : 100 ≤ es.length) (hlen : es.length < 2 ^ 32) (native : ℝ) (loc : BitVec 64)
    (hvar : let s := feed (construct g) es; s.avgNativeSquare ≠ s.avgNative * s.avgNative) :
    accepted (feed (construct g) es) native loc ↔
      |line (feed (construct g) es) native - sinceFirst es loc| < 3 * Real.sqrt (feed (construct g) es).avgDeviationSquare ∨
        (feed (construct g) es).outlierBudget < 0 := by
  have hl := extrapolate_line g es (by omega) hlen native (fLocal (start (feed (construct g) es) loc) loc) loc hvar
  have hev : ¬ (start (feed (construct g) es) loc).events < 100 := by
    rw [start_events, feed_events, BitVec.lt_def]
    simp only [BitVec.toNat_ofNat]
    rw [Nat.mod_eq_of_lt (b := 2 ^ 32) hlen]
    simpa using h100
  have hd : (start (feed (construct g) es) loc).avgDeviationSquare = (feed (construct g) es).avgDeviationSquare := by
    unfold start; split_ifs <;> rfl
  unfold accepted accepts
  rw [hl, fLocal_eq g es hlen, start_budget, hd]
  simp only [hev, false_or]
  have key : ∀ a d : ℝ, a * a < d * 9 ↔ |a| < 3 * Real.sqrt d := by
    intro a d
    have h3 : 3 * Real.sqrt d = Real.sqrt (d * 9) := by
      rw [mul_comm d, Real.sqrt_mul (by norm_num), show (9 : ℝ) = 3 ^ 2 by norm_num, Real.sqrt_sq (by norm_num)]
    rw [h3, ← pow_two, ← sq_abs]
    exact (Real.lt_sqrt (abs_nonneg _)).symm
  rw [key]

/-- **C14** What an event changes: with weight `1/(n+1)` for the first hundred and `1/1000` afterwards, a used event enters the averages of native time, local
time and their products, and after eleven events with weight `1/100` its squared distance from the line enters the variance; one that is not used changes none of these. -/
theorem C14_update (g : BitVec 64) (es : Hist) (hlen : es.length < 2 ^ 32) (native : ℝ) (loc : BitVec 64)
    (hvar : let s := feed (construct g) es; s.avgNativeSquare ≠ s.avgNative * s.avgNative) :
    let s := feed (construct g) es
    let c := (convert s native loc).1
    let w : ℝ := if es.length < 100 then 1 / (es.length + 1) else 1 / 1000
    let f := sinceFirst es loc
    (accepted s native loc →
      c.avgNative = (1 - w) * s.avgNative + w * native ∧ c.avgLocal = (1 - w) * s.avgLocal + w * f ∧
      c.avgNativeSquare = (1 - w) * s.avgNativeSquare + w * (native * native) ∧ c.avgLocalNative = (1 - w) * s.avgLocalNative + w * (f * native) ∧
      c.avgDeviationSquare = (if 10 < es.length then 99 / 100 * s.avgDeviationSquare + 1 / 100 * (line s native - f) ^ 2 else s.avgDeviationSquare) ∧
      c.outlierBudget = min 40 (s.outlierBudget + 1)) ∧
    (¬ accepted s native loc →
      c.avgNative = s.avgNative ∧ c.avgLocal = s.avgLocal ∧ c.avgNativeSquare = s.avgNativeSquare ∧ c.avgLocalNative = s.avgLocalNative ∧
      c.avgDeviationSquare = s.avgDeviationSquare ∧ c.outlierBudget = s.outlierBudget - 2) := by
  intro s c w f
  have hmod : (feed (construct g) es).events.toNat = es.length := by
    rw [feed_events, BitVec.toNat_ofNat, Nat.mod_eq_of_lt hlen]
  have hw : weight s = w := by
    unfold weight
    simp only [w, s, BitVec.lt_def, hmod]
    norm_num
    rfl
  have hfl : fLocal (start s loc) loc = f := fLocal_eq g es hlen loc
  have hsd : (start s loc).avgDeviationSquare = s.avgDeviationSquare := by unfold start; split_ifs <;> rfl
  constructor
  · intro ha
    obtain ⟨c1, c2, c3, c4⟩ := convert_acc ha
    rw [hw] at c1 c2 c3 c4
    rw [hfl] at c2 c4
    refine ⟨?_, ?_, ?_, ?_, ?_, convert_budget_acc ha⟩
    · rw [c1]; ring
    · rw [c2]; ring
    · rw [c3]; ring
    · rw [c4]; ring
    · have hc : c.avgDeviationSquare = (average (start s loc) native (extrapolate (start s loc) native (fLocal (start s loc) loc))
          (fLocal (start s loc) loc)).avgDeviationSquare := by
        have ha' := ha
        unfold accepted at ha'
        simp only [c]
        unfold convert
        dsimp only
        rw [if_pos ha']
      rw [hc]
      simp only [average, hsd, start_events, hfl]
      have hgt : s.events > 10 ↔ 10 < es.length := by
        rw [gt_iff_lt, BitVec.lt_def]
        simp only [s, hmod]
        rfl
      simp only [hgt]
      split_ifs with h10
      · rw [extrapolate_line g es h10 hlen native f loc hvar]
        ring
      · rfl
  · intro ha
    obtain ⟨c1, c2, c3, c4⟩ := convert_rej ha
    refine ⟨c1, c2, c3, c4, ?_, (convert_budget_rej ha).1⟩
    have ha' := ha
    unfold accepted at ha'
    simp only [c]
    unfold convert
    dsimp only
    rw [if_neg ha']
    exact hsd

/-- Hypotheses are met: a clock ticking at 1000 native units per 2000 local units. -/
example : Linear 2 0 [(0, 100), (10, 120), (20, 140)] ∧
    (let s := feed (construct 7) [(0, 100), (10, 120)]
     s.avgNativeSquare ≠ s.avgNative * s.avgNative) := by
  constructor
  · intro e he
    simp only [List.mem_cons, List.not_mem_nil, or_false] at he
    have h1 : ((120 : BitVec 64) - 100).toNat = 20 := by decide
    have h2 : ((140 : BitVec 64) - 100).toNat = 40 := by decide
    rcases he with rfl | rfl | rfl
    · simp [sinceFirst]
    · simp only [sinceFirst, h1]; norm_num
    · simp only [sinceFirst, h2]; norm_num
  · obtain ⟨h1, h2, -⟩ := C14_warmup_means 7 [(0, 100), (10, 120)] (by simp) (by simp)
    intro s
    rw [h1, h2]
    norm_num

/-- The same for a history of a hundred events. -/
example : let es : Hist := (10, 120) :: List.replicate 99 (0, 100)
    100 ≤ es.length ∧ (let s := feed (construct 7) es; s.avgNativeSquare ≠ s.avgNative * s.avgNative) := by
  refine ⟨by simp, ?_⟩
  obtain ⟨h1, h2, -⟩ := C14_warmup_means 7 ((10, 120) :: List.replicate 99 (0, 100)) (by simp) (by simp)
  intro s
  rw [h1, h2]
  simp
  norm_num

end Ubitrack.TSyncLS
