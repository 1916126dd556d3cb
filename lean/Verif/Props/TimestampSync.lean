import Verif.Model.TimestampSync
import Mathlib.Tactic.Linarith
import Mathlib.Tactic.Positivity
import Mathlib.Tactic.FieldSimp
import Mathlib.Tactic.NormNum
import Mathlib.Algebra.Order.Floor.Ring
import Mathlib.Tactic.Push
import Mathlib.Analysis.SpecialFunctions.Pow.Real

/-!
# C12, C13: timestamp synchronisation
-/

namespace Ubitrack.TSync

/-- Something a user can do with a synchroniser: feed an event, or change the frequencies. -/
inductive Act where
  | event (native : ℝ) (loc : BitVec 64)
  | freq (native loc : ℝ)

noncomputable def act (s : St) : Act → St
  | .event n l => (convert s n l).1
  | .freq n l => setFrequency s n l

noncomputable def runAll (s : St) (as : List Act) : St := as.foldl act s

/-- Frequencies passed by the user are positive. -/
def Act.ok : Act → Prop
  | .event _ _ => True
  | .freq n l => 0 < n ∧ 0 < l

theorem predict_budget (s : St) (n : ℝ) (l : BitVec 64) :
    (predict s n l).outlierBudget = s.outlierBudget := by
  unfold predict; dsimp only; split_ifs <;> rfl

theorem predict_events (s : St) (n : ℝ) (l : BitVec 64) :
    (predict s n l).events = s.events := by
  unfold predict; dsimp only; split_ifs <;> rfl

/-- Budget after an event. -/
theorem convert_budget_acc {s : St} {n : ℝ} {l : BitVec 64} (h : accepted s n l) :
    (convert s n l).1.outlierBudget = min 40 (s.outlierBudget + 1) := by
  unfold accepted at h
  unfold convert; dsimp only
  rw [if_pos h]; simp only [correct, predict_budget]

theorem convert_budget_rej {s : St} {n : ℝ} {l : BitVec 64} (h : ¬ accepted s n l) :
    (convert s n l).1.outlierBudget = s.outlierBudget - 2 ∧ 0 ≤ s.outlierBudget := by
  unfold accepted at h
  unfold convert; dsimp only
  rw [if_neg h]
  refine ⟨by simp only [predict_budget], ?_⟩
  unfold accepts at h
  push Not at h
  simpa [predict_budget] using h.2

theorem act_budget (s : St) (a : Act) (h : -100 ≤ s.outlierBudget ∧ s.outlierBudget ≤ 40) :
    -100 ≤ (act s a).outlierBudget ∧ (act s a).outlierBudget ≤ 40 := by
  cases a with
  | event n l =>
    simp only [act]
    by_cases ha : accepted s n l
    · rw [convert_budget_acc ha]; omega
    · have := convert_budget_rej ha
      rw [this.1]; omega
  | freq n l => exact h

/-- **C12** The very first event of a newly constructed synchroniser is returned unchanged,
whatever the frequencies, whatever the storage contained before. -/
theorem C12_first_event_unchanged (garbage : St) (fn fl native : ℝ) (loc : BitVec 64) :
    (convert (construct garbage fn fl) native loc).2 = loc := by
  have hp : (predict (construct garbage fn fl) native loc).estLocal = loc := by
    simp [predict, construct, setFrequency, trunc]
  have hd : deltaL (predict (construct garbage fn fl) native loc) loc = 0 := by
    unfold deltaL; rw [hp]; simp
  unfold convert
  dsimp only
  split_ifs
  · simp [correct, hd, hp, trunc]
  · simp [hp]

/-- **C12** Whatever events and frequency changes happen, the outlier budget stays between -100
and 40. -/
theorem C12_budget_bounded (garbage : St) (fn fl : ℝ) (as : List Act) :
    -100 ≤ (runAll (construct garbage fn fl) as).outlierBudget ∧
    (runAll (construct garbage fn fl) as).outlierBudget ≤ 40 := by
  have : ∀ (s : St), (-100 ≤ s.outlierBudget ∧ s.outlierBudget ≤ 40) →
      (-100 ≤ (runAll s as).outlierBudget ∧ (runAll s as).outlierBudget ≤ 40) := by
    induction as with
    | nil => intro s h; exact h
    | cons a as ih => intro s h; exact ih (act s a) (act_budget s a h)
  apply this
  constructor <;> simp [construct, setFrequency]

/-- Events only, as a list of (native, local) pairs. -/
noncomputable def feed (s : St) (es : List (ℝ × BitVec 64)) : St :=
  es.foldl (fun s e => (convert s e.1 e.2).1) s

/-- **C12** None of the first 100 events after construction is treated as an outlier. -/
theorem C12_warmup_never_rejects (garbage : St) (fn fl : ℝ) (es : List (ℝ × BitVec 64))
    (hlen : es.length < 100) (native : ℝ) (loc : BitVec 64) :
    accepted (feed (construct garbage fn fl) es) native loc := by
  have key : ∀ (es : List (ℝ × BitVec 64)) (s : St), s.outlierBudget + es.length < 0 →
      (feed s es).outlierBudget < 0 := by
    intro es
    induction es with
    | nil => intro s h; simpa [feed] using h
    | cons e es ih =>
      intro s h
      have hb : s.outlierBudget < 0 := by simp at h; omega
      have ha : accepted s e.1 e.2 := Or.inr (by rw [predict_budget]; exact hb)
      apply ih
      rw [convert_budget_acc ha]
      simp only [List.length_cons] at h
      push_cast at h
      omega
  right
  rw [predict_budget]
  apply key
  simp [construct, setFrequency]; omega

/-- Number of events at the front of the list that are rejected one after the other. -/
def AllRejected (s : St) : List (ℝ × BitVec 64) → Prop
  | [] => True
  | e :: es => ¬ accepted s e.1 e.2 ∧ AllRejected (convert s e.1 e.2).1 es

/-- **C12** After any history, no run of consecutive rejected events is longer than 21: the filter
cannot be locked out. -/
theorem C12_no_lockout (garbage : St) (fn fl : ℝ) (as : List Act) (es : List (ℝ × BitVec 64))
    (hrej : AllRejected (runAll (construct garbage fn fl) as) es) : es.length ≤ 21 := by
  have key : ∀ (es : List (ℝ × BitVec 64)) (s : St), AllRejected s es → es ≠ [] →
      2 * (es.length : ℤ) - 2 ≤ s.outlierBudget := by
    intro es
    induction es with
    | nil => intro s _ h; exact absurd rfl h
    | cons e es ih =>
      intro s h _
      have h1 := convert_budget_rej h.1
      by_cases hes : es = []
      · subst hes; simpa using h1.2
      · have := ih _ h.2 hes
        rw [h1.1] at this
        simp only [List.length_cons]
        push_cast
        omega
  by_cases hes : es = []
  · subst hes; simp
  · have h1 := key es _ hrej hes
    have h2 := (C12_budget_bounded garbage fn fl as).2
    omega

/-- **C12** After any history, only an event that deviates from the prediction by at least three times the
running average deviation is rejected, and only while the budget is not negative; every such event is
rejected then. -/
theorem C12_rejects_three_sigma (garbage : St) (fn fl : ℝ) (as : List Act) (native : ℝ) (loc : BitVec 64) :
    let s := runAll (construct garbage fn fl) as
    let p := predict s native loc
    let deviation : ℤ := (loc - p.estLocal).toInt
    ¬ accepted s native loc ↔ 3 * Real.sqrt p.avgDeviationSquare ≤ |(deviation : ℝ)| ∧ 0 ≤ s.outlierBudget := by
  intro s p deviation
  have hb : p.outlierBudget = s.outlierBudget := predict_budget s native loc
  unfold accepted accepts
  push Not
  change (p.avgDeviationSquare * 9 ≤ (deviation : ℝ) * deviation ∧ 0 ≤ p.outlierBudget) ↔ _
  rw [hb]
  have : 3 * Real.sqrt p.avgDeviationSquare ≤ |(deviation : ℝ)| ↔ p.avgDeviationSquare * 9 ≤ (deviation : ℝ) * deviation := by
    rw [show (3 : ℝ) = Real.sqrt 9 by rw [show (9 : ℝ) = 3 ^ 2 by norm_num]; rw [Real.sqrt_sq (by norm_num)],
      ← Real.sqrt_mul (by norm_num), Real.sqrt_le_left (abs_nonneg _), sq_abs]
    constructor <;> intro h <;> nlinarith
  rw [this]

/-- The conditions under which the filter is well conditioned. -/
def Good (s : St) : Prop :=
  0 < s.p1 ∧ 0 < s.p3 ∧ s.p2 ^ 2 < s.p1 * s.p3 ∧ 0 < s.measurementNoise ∧ 0 < s.localNoise ∧
    0 < s.gainNoise ∧ 0 < s.avgDeviationSquare

theorem good_setFrequency (s : St) (n l : ℝ) (hn : 0 < n) (hl : 0 < l) :
    Good (setFrequency s n l) := by
  unfold Good setFrequency
  have : 0 < l / n := div_pos hl hn
  refine ⟨?_, ?_, ?_, ?_, ?_, ?_, ?_⟩ <;> dsimp only
  case refine_3 =>
    have : 0 < l ^ 2 * (1e1 * (l / n)) ^ 2 := by positivity
    simpa using this
  all_goals positivity

theorem good_predict {s : St} (n : ℝ) (l : BitVec 64) (h : Good s) : Good (predict s n l) := by
  obtain ⟨h1, h3, h2, hm, hl, hg, ha⟩ := h
  have key : ∀ d : ℝ, 0 < s.p1 + (2 * d * s.p2 + d * d * s.p3 + s.localNoise) ∧ 0 < s.p3 + s.gainNoise ∧
      (s.p2 + d * s.p3) ^ 2 < (s.p1 + (2 * d * s.p2 + d * d * s.p3 + s.localNoise)) * (s.p3 + s.gainNoise) := by
    intro d
    have hq : 0 < s.p1 + 2 * d * s.p2 + d * d * s.p3 := by
      have : 0 < s.p3 * (s.p1 + 2 * d * s.p2 + d * d * s.p3) := by
        nlinarith [sq_nonneg (s.p2 + d * s.p3)]
      exact (mul_pos_iff_of_pos_left h3).mp this
    refine ⟨by linarith, by linarith, ?_⟩
    have e : (s.p1 + (2 * d * s.p2 + d * d * s.p3 + s.localNoise)) * (s.p3 + s.gainNoise)
        = (s.p1 * s.p3 - s.p2 ^ 2) + (s.p2 + d * s.p3) ^ 2
          + s.gainNoise * (s.p1 + 2 * d * s.p2 + d * d * s.p3) + s.localNoise * (s.p3 + s.gainNoise) := by
      ring
    rw [e]
    have t1 : 0 < s.gainNoise * (s.p1 + 2 * d * s.p2 + d * d * s.p3) := mul_pos hg hq
    have t2 : 0 < s.localNoise * (s.p3 + s.gainNoise) := mul_pos hl (by linarith)
    linarith
  unfold predict
  dsimp only
  split_ifs
  · obtain ⟨a, b, c⟩ := key (n - n)
    exact ⟨a, b, c, hm, hl, hg, ha⟩
  · obtain ⟨a, b, c⟩ := key (n - s.lastNative)
    exact ⟨a, b, c, hm, hl, hg, ha⟩

theorem gain_bounds {s : St} (h : Good s) :
    0 < s.p1 / (s.measurementNoise + s.p1) ∧ s.p1 / (s.measurementNoise + s.p1) < 1 := by
  obtain ⟨h1, _, _, hm, _⟩ := h
  have hd : 0 < s.measurementNoise + s.p1 := by linarith
  exact ⟨div_pos h1 hd, (div_lt_one hd).mpr (by linarith)⟩

theorem good_correct {s : St} (l : BitVec 64) (h : Good s) : Good (correct s l) := by
  have hgood := h
  obtain ⟨h1, h3, h2, hm, hl, hg, ha⟩ := h
  have hd : 0 < s.measurementNoise + s.p1 := by linarith
  have hk := gain_bounds hgood
  unfold correct Good
  dsimp only
  have hp3 : 0 < s.p3 - s.p2 * (s.p2 / (s.measurementNoise + s.p1)) := by
    rw [← mul_div_assoc, sub_pos, div_lt_iff₀ hd]
    nlinarith
  refine ⟨mul_pos hm hk.1, hp3, ?_, hm, hl, hg, ?_⟩
  · have e1 : (s.measurementNoise * (s.p2 / (s.measurementNoise + s.p1))) ^ 2 =
        (s.measurementNoise ^ 2 * s.p2 ^ 2) / (s.measurementNoise + s.p1) ^ 2 := by field_simp
    have e2 : s.measurementNoise * (s.p1 / (s.measurementNoise + s.p1)) *
        (s.p3 - s.p2 * (s.p2 / (s.measurementNoise + s.p1))) =
        (s.measurementNoise * s.p1 * ((s.measurementNoise + s.p1) * s.p3 - s.p2 ^ 2))
          / (s.measurementNoise + s.p1) ^ 2 := by field_simp
    rw [e1, e2]
    apply div_lt_div_of_pos_right _ (by positivity)
    have : s.measurementNoise * s.p1 * ((s.measurementNoise + s.p1) * s.p3 - s.p2 ^ 2) -
        s.measurementNoise ^ 2 * s.p2 ^ 2 =
        s.measurementNoise * (s.measurementNoise + s.p1) * (s.p1 * s.p3 - s.p2 ^ 2) := by ring
    have : 0 < s.measurementNoise * (s.measurementNoise + s.p1) * (s.p1 * s.p3 - s.p2 ^ 2) :=
      mul_pos (mul_pos hm hd) (by linarith)
    linarith
  · split_ifs
    · nlinarith [mul_self_nonneg ((deltaL s l : ℝ))]
    · exact ha

theorem good_act {s : St} (a : Act) (ha : a.ok) (h : Good s) : Good (act s a) := by
  cases a with
  | event n l =>
    have hp := good_predict n l h
    simp only [act, convert]
    split_ifs
    · exact good_correct l hp
    · exact hp
  | freq n l => exact good_setFrequency s n l ha.1 ha.2

theorem good_runAll {s : St} (as : List Act) (has : ∀ a ∈ as, a.ok) (h : Good s) :
    Good (runAll s as) := by
  induction as generalizing s with
  | nil => exact h
  | cons a as ih =>
    exact ih (fun b hb => has b (by simp [hb])) (good_act a (has a (by simp)) h)

/-- **C13** After any history (positive frequencies, arbitrary events), the filter covariance
`[p1 p2; p2 p3]` is positive definite: `p1 x² + 2 p2 x y + p3 y² > 0` for all `(x,y) ≠ 0`. -/
theorem C13_covariance_positive_definite (garbage : St) (fn fl : ℝ) (hn : 0 < fn) (hl : 0 < fl)
    (as : List Act) (has : ∀ a ∈ as, a.ok) (x y : ℝ) (hxy : x ≠ 0 ∨ y ≠ 0) :
    let s := runAll (construct garbage fn fl) as
    0 < s.p1 * x ^ 2 + 2 * s.p2 * x * y + s.p3 * y ^ 2 := by
  intro s
  obtain ⟨h1, h3, h2, _⟩ := good_runAll as has (good_setFrequency
    { garbage with events := 0, outlierBudget := -100 } fn fl hn hl)
  have hs : s = runAll (setFrequency { garbage with events := 0, outlierBudget := -100 } fn fl) as := rfl
  rw [← hs] at h1 h3 h2
  have key : s.p1 * (s.p1 * x ^ 2 + 2 * s.p2 * x * y + s.p3 * y ^ 2) =
      (s.p1 * x + s.p2 * y) ^ 2 + (s.p1 * s.p3 - s.p2 ^ 2) * y ^ 2 := by ring
  have hpos : 0 < s.p1 * (s.p1 * x ^ 2 + 2 * s.p2 * x * y + s.p3 * y ^ 2) := by
    rw [key]
    by_cases hy : y = 0
    · have hx : x ≠ 0 := by rcases hxy with h | h; exacts [h, absurd hy h]
      subst hy
      have : 0 < (s.p1 * x) ^ 2 := by positivity
      nlinarith
    · have hy2 : 0 < y ^ 2 := by positivity
      have : 0 < (s.p1 * s.p3 - s.p2 ^ 2) * y ^ 2 := mul_pos (by linarith) hy2
      nlinarith [sq_nonneg (s.p1 * x + s.p2 * y)]
  exact (mul_pos_iff_of_pos_left h1).mp hpos

theorem trunc_between {k d : ℝ} (hk0 : 0 < k) (hk1 : k < 1) (z : ℤ) (hz : d = (z : ℝ)) :
    (0 ≤ z → 0 ≤ trunc (k * d) ∧ trunc (k * d) ≤ z) ∧
    (z ≤ 0 → z ≤ trunc (k * d) ∧ trunc (k * d) ≤ 0) := by
  subst hz
  constructor
  · intro h
    have hz : (0 : ℝ) ≤ (z : ℝ) := by exact_mod_cast h
    have h0 : 0 ≤ k * (z : ℝ) := mul_nonneg hk0.le hz
    unfold trunc
    rw [if_pos h0]
    refine ⟨Int.floor_nonneg.mpr h0, ?_⟩
    have : ((⌊k * (z : ℝ)⌋ : ℤ) : ℝ) ≤ (z : ℝ) := (Int.floor_le _).trans (by nlinarith)
    exact_mod_cast this
  · intro h
    have hz : (z : ℝ) ≤ 0 := by exact_mod_cast h
    unfold trunc
    by_cases h0 : 0 ≤ k * (z : ℝ)
    · have hz0 : (z : ℝ) = 0 := by
        by_contra hne
        have : (z : ℝ) < 0 := lt_of_le_of_ne hz hne
        nlinarith
      have hz0' : z = 0 := by exact_mod_cast hz0
      subst hz0'
      simp
    · rw [if_neg h0]
      constructor
      · have : (z : ℝ) ≤ ((⌈k * (z : ℝ)⌉ : ℤ) : ℝ) := le_trans (by nlinarith) (Int.le_ceil _)
        exact_mod_cast this
      · rw [Int.ceil_le]; push_cast; linarith [not_le.mp h0]

theorem predict_eq_estLocal (s : St) (n : ℝ) (l : BitVec 64) (h : ¬ accepted s n l) :
    (convert s n l).2 = (predict s n l).estLocal := by
  unfold accepted at h
  unfold convert; dsimp only; rw [if_neg h]

/-- **C13** After any history, the correction gain lies strictly between 0 and 1 and an accepted
event moves the estimate towards the given local time without overshooting: the signed remaining
deviation has the sign of the predicted deviation and is not larger. A rejected event returns the
prediction. -/
theorem C13_no_overshoot (garbage : St) (fn fl : ℝ) (hn : 0 < fn) (hl : 0 < fl)
    (as : List Act) (has : ∀ a ∈ as, a.ok) (native : ℝ) (loc : BitVec 64) :
    let s := runAll (construct garbage fn fl) as
    let p := predict s native loc
    let before : ℤ := (loc - p.estLocal).toInt
    let after : ℤ := (loc - (convert s native loc).2).toInt
    (0 < p.p1 / (p.measurementNoise + p.p1) ∧ p.p1 / (p.measurementNoise + p.p1) < 1) ∧
    (accepted s native loc → (0 ≤ before → 0 ≤ after ∧ after ≤ before) ∧
      (before ≤ 0 → before ≤ after ∧ after ≤ 0)) ∧
    (¬ accepted s native loc → (convert s native loc).2 = p.estLocal) := by
  intro s p before after
  have hg : Good p := good_predict native loc (good_runAll as has (good_setFrequency _ fn fl hn hl))
  have hk := gain_bounds hg
  refine ⟨hk, fun ha => ?_, fun ha => predict_eq_estLocal s native loc ha⟩
  have hret : (convert s native loc).2 = p.estLocal + BitVec.ofInt 64
      (trunc (p.p1 / (p.measurementNoise + p.p1) * (deltaL p loc : ℝ))) := by
    unfold accepted at ha
    simp only [convert]
    rw [if_pos ha]
    rfl
  have htr := trunc_between hk.1 hk.2 before (d := (deltaL p loc : ℝ)) rfl
  set c := trunc (p.p1 / (p.measurementNoise + p.p1) * (deltaL p loc : ℝ)) with hc
  have hbound := BitVec.toInt_lt (x := loc - p.estLocal)
  have hbound' := BitVec.le_toInt (x := loc - p.estLocal)
  have hafter : after = before - c ∨ ¬ (-(2 : ℤ) ^ 63 ≤ before - c ∧ before - c < 2 ^ 63) := by
    by_cases hr : -(2 : ℤ) ^ 63 ≤ before - c ∧ before - c < 2 ^ 63
    · left
      have e : loc - (convert s native loc).2 = BitVec.ofInt 64 (before - c) := by
        rw [hret, sub_eq_add_neg before c, BitVec.ofInt_add, BitVec.ofInt_neg,
          show before = (loc - p.estLocal).toInt from rfl, BitVec.ofInt_toInt]
        generalize BitVec.ofInt 64 c = b
        grind
      show (loc - (convert s native loc).2).toInt = _
      rw [e, BitVec.toInt_ofInt]
      rw [Int.bmod_eq_of_le] <;> norm_num <;> omega
    · exact Or.inr hr
  have hb1 : before < 2 ^ 63 := hbound
  have hb2 : -(2 : ℤ) ^ 63 ≤ before := hbound'
  constructor
  · intro h0
    obtain ⟨t1, t2⟩ := htr.1 h0
    rcases hafter with e | e
    · rw [e]; omega
    · exfalso; apply e; constructor <;> omega
  · intro h0
    obtain ⟨t1, t2⟩ := htr.2 h0
    rcases hafter with e | e
    · rw [e]; omega
    · exfalso; apply e; constructor <;> omega

/-- **C13** After any history, an event that agrees exactly with the prediction is never treated as
an outlier. -/
theorem C13_exact_event_accepted (garbage : St) (fn fl : ℝ) (hn : 0 < fn) (hl : 0 < fl)
    (as : List Act) (has : ∀ a ∈ as, a.ok) (native : ℝ) (loc : BitVec 64) :
    let s := runAll (construct garbage fn fl) as
    (predict s native loc).estLocal = loc → accepted s native loc := by
  intro s he
  have hg : Good (predict s native loc) :=
    good_predict native loc (good_runAll as has (good_setFrequency _ fn fl hn hl))
  left
  have : deltaL (predict s native loc) loc = 0 := by unfold deltaL; rw [he]; simp
  rw [this]
  have := hg.2.2.2.2.2.2
  simp only [Int.cast_zero, mul_zero]
  linarith

/-- Two synchronisers whose native clocks count in units that differ by the factor `c`. -/
def Scaled (c : ℝ) (s t : St) : Prop :=
  t.events = s.events ∧ (s.events ≠ 0 → t.lastNative = c * s.lastNative) ∧
  t.localNoise = s.localNoise ∧ t.gainNoise = s.gainNoise / c ^ 2 ∧
  t.measurementNoise = s.measurementNoise ∧ (s.events ≠ 0 → t.estLocal = s.estLocal) ∧
  t.estGain = s.estGain / c ∧ t.p1 = s.p1 ∧ t.p2 = s.p2 / c ∧ t.p3 = s.p3 / c ^ 2 ∧
  t.outlierBudget = s.outlierBudget ∧ t.avgDeviationSquare = s.avgDeviationSquare

theorem scaled_setFrequency {c : ℝ} (hc : 0 < c) {s t : St}
    (h1 : t.events = s.events) (h2 : s.events ≠ 0 → t.lastNative = c * s.lastNative)
    (h3 : s.events ≠ 0 → t.estLocal = s.estLocal) (h4 : t.outlierBudget = s.outlierBudget) (fn fl : ℝ) :
    Scaled c (setFrequency s fn fl) (setFrequency t (c * fn) fl) := by
  have hc' := hc.ne'
  refine ⟨h1, h2, ?_, ?_, ?_, h3, ?_, ?_, ?_, ?_, h4, ?_⟩ <;> simp only [setFrequency] <;>
    first | rfl | (by_cases hf : fn = 0 <;> [simp [hf]; (field_simp <;> simp)])

theorem scaled_predict {c : ℝ} (hc : 0 < c) {s t : St} (h : Scaled c s t) (n : ℝ) (l : BitVec 64) :
    Scaled c (predict s n l) (predict t (c * n) l) ∧
      (predict t (c * n) l).estLocal = (predict s n l).estLocal := by
  have hc' := hc.ne'
  obtain ⟨h1, h2, h3, h4, h5, h6, h7, h8, h9, h10, h11, h12⟩ := h
  unfold predict
  rw [h1]
  by_cases he : s.events = 0
  · simp only [if_pos he, sub_self, zero_mul, mul_zero, zero_add, add_zero]
    refine ⟨⟨rfl, fun h => absurd he h, h3, h4, h5, fun h => absurd he h, h7, ?_, h9, ?_, h11, h12⟩, trivial⟩
    · simp only [h8, h3]
    · simp only [h10, h4]; field_simp
  · simp only [if_neg he]
    have hl := h2 he
    have hd : (c * n - t.lastNative) = c * (n - s.lastNative) := by rw [hl]; ring
    have hg : (c * n - t.lastNative) * t.estGain = (n - s.lastNative) * s.estGain := by
      rw [hd, h7]; field_simp
    have hL : t.estLocal + BitVec.ofInt 64 (trunc ((c * n - t.lastNative) * t.estGain)) =
        s.estLocal + BitVec.ofInt 64 (trunc ((n - s.lastNative) * s.estGain)) := by
      rw [hg, h6 he]
    refine ⟨⟨by first | rfl | exact h1, h2, h3, h4, h5, fun _ => hL, h7, ?_, ?_, ?_, h11, h12⟩, hL⟩
    · simp only [hd, h8, h9, h10, h3]; field_simp
    · simp only [hd, h9, h10]; field_simp
    · simp only [h10, h4]; field_simp

theorem scaled_convert {c : ℝ} (hc : 0 < c) {s t : St} (h : Scaled c s t) (n : ℝ) (l : BitVec 64) :
    Scaled c (convert s n l).1 (convert t (c * n) l).1 ∧
      (convert t (c * n) l).2 = (convert s n l).2 := by
  have hc' := hc.ne'
  obtain ⟨hp, hloc0⟩ := scaled_predict hc h n l
  unfold convert
  dsimp only
  generalize predict s n l = p at hp hloc0 ⊢
  generalize predict t (c * n) l = q at hp hloc0 ⊢
  obtain ⟨h1, h2, h3, h4, h5, h6, h7, h8, h9, h10, h11, h12⟩ := hp
  have hdl : deltaL q l = deltaL p l := by unfold deltaL; rw [hloc0]
  have hacc : accepts q l ↔ accepts p l := by unfold accepts; rw [hdl, h11, h12]
  by_cases ha : accepts p l
  · rw [if_pos ha, if_pos (hacc.2 ha)]
    have hloc : (correct q l).estLocal = (correct p l).estLocal := by
      simp only [correct, hdl, h5, hloc0, h8]
    refine ⟨⟨?_, fun _ => rfl, h3, h4, h5, fun _ => hloc, ?_, ?_, ?_, ?_, ?_, ?_⟩, hloc⟩ <;>
      simp only [correct, hdl, h1, h5, h7, h8, h9, h10, h11, h12] <;> ring
  · rw [if_neg ha, if_neg (fun h => ha (hacc.1 h))]
    exact ⟨⟨by simp only [h1], fun _ => rfl, h3, h4, h5, fun _ => hloc0, h7, h8, h9, h10,
      by simp only [h11], h12⟩, hloc0⟩

/-- The same action of a sensor whose clock counts `c` times as fast. -/
def Act.rescale (c : ℝ) : Act → Act
  | .event n l => .event (c * n) l
  | .freq n l => .freq (c * n) l

theorem scaled_runAll {c : ℝ} (hc : 0 < c) (as : List Act) {s t : St} (h : Scaled c s t) :
    Scaled c (runAll s as) (runAll t (as.map (Act.rescale c))) := by
  induction as generalizing s t with
  | nil => exact h
  | cons a as ih =>
    apply ih
    cases a with
    | event n l => exact (scaled_convert hc h n l).1
    | freq n l =>
      exact scaled_setFrequency hc h.1 h.2.1 h.2.2.2.2.2.1 h.2.2.2.2.2.2.2.2.2.2.1 n l

/-- **C13** The unit in which the sensor counts its time does not matter: a synchroniser whose
native time stamps and native frequencies are all `c` times as large returns the same local time
stamps, after every history. -/
theorem C13_native_unit (garbage garbage' : St) (c : ℝ) (hc : 0 < c) (fn fl : ℝ) (as : List Act)
    (native : ℝ) (loc : BitVec 64) :
    (convert (runAll (construct garbage' (c * fn) fl) (as.map (Act.rescale c))) (c * native) loc).2 =
      (convert (runAll (construct garbage fn fl) as) native loc).2 := by
  apply (scaled_convert hc (scaled_runAll hc as _) native loc).2
  unfold construct
  refine scaled_setFrequency hc ?_ ?_ ?_ ?_ fn fl
  · rfl
  · intro h; exact (h rfl).elim
  · intro h; exact (h rfl).elim
  · rfl

/-- A clock in ticks of 1 kHz and the same clock in seconds, with an event and a change of frequency. -/
example : (0 : ℝ) < 1000 ∧ [Act.event 5 17, Act.freq 1 1000000000].map (Act.rescale 1000) =
    [Act.event 5000 17, Act.freq 1000 1000000000] := by
  refine ⟨by norm_num, ?_⟩
  simp only [List.map, Act.rescale]; norm_num

/-- Hypotheses are met by a typical set-up (1 kHz sensor clock, nanosecond local clock), and
rejection really happens: with a non-negative budget an event far off the prediction is rejected. -/
example : Act.ok (.event 5 17) ∧ Act.ok (.freq 1000 1000000000) := by
  constructor
  · trivial
  · constructor <;> norm_num

example : ∃ s : St, ¬ accepted s 0 1000 ∧ s.outlierBudget = 3 := by
  refine ⟨⟨1, 0, 1, 1, 1, 0, 1, 1, 0, 1, 3, 1⟩, ?_, rfl⟩
  have h1 : predict ⟨1, 0, 1, 1, 1, 0, 1, 1, 0, 1, 3, 1⟩ 0 1000 =
      ⟨1, 0, 1, 1, 1, 0, 1, 2, 0, 2, 3, 1⟩ := by
    have h10 : ¬ ((1 : BitVec 32) = 0) := by decide
    simp only [predict, if_neg h10]
    norm_num [trunc]
  unfold accepted
  rw [h1]
  unfold accepts
  have : deltaL ⟨1, 0, 1, 1, 1, 0, 1, 2, 0, 2, 3, 1⟩ 1000 = 1000 := by decide
  rw [this]
  norm_num

end Ubitrack.TSync
