import Verif.Props.TimestampSync

/-! # C113: whether synchronised times run backwards -/

namespace Ubitrack.TSync

private theorem toInt_small (z : ℤ) (h1 : -(2 : ℤ) ^ 63 ≤ z) (h2 : z < 2 ^ 63) : (BitVec.ofInt 64 z).toInt = z := by
  rw [BitVec.toInt_ofInt, Int.bmod_eq_of_le] <;> norm_num <;> omega

/-- **C113** After any history: if the sensor's time has not gone back, the estimated ratio of the clocks is not negative and the event was
not received before the time returned last, then the time returned next is not before the time returned last (missing: events received
before the time returned last, which is ahead of the clock then; see `C113_backwards_refuted`). Differences are below 2^62. -/
theorem C113_forward_partial (garbage : St) (fn fl : ℝ) (hn : 0 < fn) (hl : 0 < fl) (as : List Act) (has : ∀ a ∈ as, a.ok)
    (n0 n : ℝ) (l0 l : BitVec 64) :
    let s0 := runAll (construct garbage fn fl) as
    let s := (convert s0 n0 l0).1
    let last := (convert s0 n0 l0).2
    s.events ≠ 0 → n0 ≤ n → 0 ≤ s.estGain → (n - n0) * s.estGain < 2 ^ 62 → 0 ≤ (l - last).toInt → (l - last).toInt < 2 ^ 62 →
    0 ≤ ((convert s n l).2 - last).toInt := by
  intro s0 s last he hnn hgain hadv hl0 hl1
  have hlast : s.estLocal = last := rfl
  have hnat : s.lastNative = n0 := by
    show (convert s0 n0 l0).1.lastNative = n0
    simp [convert]
  have hg : Good s := good_act (.event n0 l0) trivial (good_runAll as has (good_setFrequency _ fn fl hn hl))
  have hgp : Good (predict s n l) := good_predict n l hg
  have hk := gain_bounds hgp
  have hd0 : 0 ≤ (n - n0) * s.estGain := mul_nonneg (by linarith) hgain
  set a := trunc ((n - n0) * s.estGain) with ha
  have ha' : a = ⌊(n - n0) * s.estGain⌋ := by rw [ha, trunc, if_pos hd0]
  have a0 : 0 ≤ a := by rw [ha']; exact Int.floor_nonneg.mpr hd0
  have a1 : a < 2 ^ 62 := by
    rw [ha', Int.floor_lt]
    norm_num at hadv ⊢
    exact hadv
  have hp : (predict s n l).estLocal = last + BitVec.ofInt 64 a := by
    rw [ha, ← hnat, ← hlast]
    simp only [predict, if_neg he]
  set X := (l - last).toInt with hX
  have hbefore : (l - (predict s n l).estLocal) = BitVec.ofInt 64 (X - a) := by
    rw [hp, sub_eq_add_neg X a, BitVec.ofInt_add, BitVec.ofInt_neg, hX, BitVec.ofInt_toInt]
    generalize BitVec.ofInt 64 a = b
    grind
  have hb : (l - (predict s n l).estLocal).toInt = X - a := by
    rw [hbefore, toInt_small _ (by omega) (by omega)]
  by_cases hacc : accepted s n l
  · have hret : (convert s n l).2 = (predict s n l).estLocal + BitVec.ofInt 64
        (trunc ((predict s n l).p1 / ((predict s n l).measurementNoise + (predict s n l).p1) * (deltaL (predict s n l) l : ℝ))) := by
      unfold accepted at hacc
      simp only [convert]
      rw [if_pos hacc]
      rfl
    have htr := trunc_between hk.1 hk.2 (X - a) (d := (deltaL (predict s n l) l : ℝ)) (by rw [deltaL, hb])
    set c := trunc ((predict s n l).p1 / ((predict s n l).measurementNoise + (predict s n l).p1) * (deltaL (predict s n l) l : ℝ)) with hc
    have e : (convert s n l).2 - last = BitVec.ofInt 64 (a + c) := by
      rw [hret, hp, BitVec.ofInt_add]
      generalize BitVec.ofInt 64 a = b
      generalize BitVec.ofInt 64 c = b'
      grind
    rw [e]
    rcases le_total 0 (X - a) with h | h
    · obtain ⟨t1, t2⟩ := htr.1 h
      rw [toInt_small _ (by omega) (by omega)]
      omega
    · obtain ⟨t1, t2⟩ := htr.2 h
      rw [toInt_small _ (by omega) (by omega)]
      omega
  · have e : (convert s n l).2 - last = BitVec.ofInt 64 a := by
      rw [predict_eq_estLocal s n l hacc, hp]
      generalize BitVec.ofInt 64 a = b
      grind
    rw [e, toInt_small _ (by omega) (by omega)]
    exact a0

/-- A new synchroniser and its second event. -/
example (garbage : St) :
    let s := (convert (runAll (construct garbage 1 1e9) []) 0 1000).1
    let last := (convert (runAll (construct garbage 1 1e9) []) 0 1000).2
    s.events ≠ 0 ∧ (0 : ℝ) ≤ 1 / 1000 ∧ 0 ≤ s.estGain ∧ (1 / 1000 - 0) * s.estGain < 2 ^ 62 ∧ 0 ≤ ((1001 : BitVec 64) - last).toInt ∧
      ((1001 : BitVec 64) - last).toInt < 2 ^ 62 := by
  intro s last
  have hacc0 : accepts (predict (construct garbage 1 1e9) 0 1000) 1000 := Or.inr (by simp [predict, construct, setFrequency])
  have t0 : trunc 0 = 0 := by simp [trunc]
  have e_ev : s.events = 1 := by
    show (convert (construct garbage 1 1e9) 0 1000).1.events = 1
    simp only [convert, if_pos hacc0]
    simp [correct, predict, construct, setFrequency]
  have e_est : last = 1000 := by
    show (convert (construct garbage 1 1e9) 0 1000).1.estLocal = 1000
    simp only [convert, if_pos hacc0]
    simp [correct, predict, construct, setFrequency, deltaL, t0]
  have e_gain : s.estGain = 1e9 := by
    show (convert (construct garbage 1 1e9) 0 1000).1.estGain = 1e9
    simp only [convert, if_pos hacc0]
    simp [correct, predict, construct, setFrequency, deltaL, t0]
  rw [e_ev, e_est, e_gain]
  refine ⟨by decide, by norm_num, by norm_num, by norm_num, by decide, by decide⟩

/-- What an event during the warm-up does. -/
private theorem step (s : St) (n : ℝ) (l : BitVec 64) (he : s.events ≠ 0) (hb : s.outlierBudget < 0) (est : BitVec 64) (d P1 P2 : ℝ)
    (hest : est = s.estLocal + BitVec.ofInt 64 (trunc ((n - s.lastNative) * s.estGain))) (hd : d = ((l - est).toInt : ℝ))
    (h1 : P1 = s.p1 + (2 * (n - s.lastNative) * s.p2 + (n - s.lastNative) * (n - s.lastNative) * s.p3 + s.localNoise))
    (h2 : P2 = s.p2 + (n - s.lastNative) * s.p3) :
    (convert s n l).2 = est + BitVec.ofInt 64 (trunc (P1 / (s.measurementNoise + P1) * d)) ∧
    (convert s n l).1 = { s with
      lastNative := n
      events := s.events + 1
      estLocal := est + BitVec.ofInt 64 (trunc (P1 / (s.measurementNoise + P1) * d))
      estGain := s.estGain + P2 / (s.measurementNoise + P1) * d
      p1 := s.measurementNoise * (P1 / (s.measurementNoise + P1))
      p2 := s.measurementNoise * (P2 / (s.measurementNoise + P1))
      p3 := s.p3 + s.gainNoise - P2 * (P2 / (s.measurementNoise + P1))
      avgDeviationSquare := if s.events > 50 then s.avgDeviationSquare + (d * d - s.avgDeviationSquare) * 0.01 else s.avgDeviationSquare
      outlierBudget := min 40 (s.outlierBudget + 1) } := by
  subst hd h1 h2 hest
  have hacc : accepts (predict s n l) l := Or.inr (by simp only [predict, if_neg he]; exact hb)
  constructor
  · simp only [convert, if_pos hacc]
    simp only [correct, predict, deltaL, if_neg he]
  · simp only [convert, if_pos hacc]
    simp only [correct, predict, deltaL, if_neg he]

/-- **C113** (refuted in general) Three events in a burst, with increasing sensor times and increasing times of receipt: the third time
returned is before the second. The synchroniser has just been created with the right frequencies (seconds and nanoseconds). -/
theorem C113_backwards_refuted (garbage : St) :
    let s1 := (convert (construct garbage 1 1e9) 0 1000).1
    let s2 := (convert s1 (1 / 1000) 1001).1
    (convert s2 (1 / 1000 + 1e-12) 1002).2.toNat < (convert s1 (1 / 1000) 1001).2.toNat := by
  intro s1 s2
  -- the first event
  have hacc0 : accepts (predict (construct garbage 1 1e9) 0 1000) 1000 := Or.inr (by simp [predict, construct, setFrequency])
  have e_ev : s1.events = 1 := by
    show (convert (construct garbage 1 1e9) 0 1000).1.events = 1
    simp only [convert, if_pos hacc0]
    simp [correct, predict, construct, setFrequency]
  have e_bud : s1.outlierBudget = -99 := by
    show (convert (construct garbage 1 1e9) 0 1000).1.outlierBudget = -99
    simp only [convert, if_pos hacc0]
    simp [correct, predict, construct, setFrequency]
  have e_nat : s1.lastNative = 0 := rfl
  have t0 : trunc 0 = 0 := by simp [trunc]
  have e_est : s1.estLocal = 1000 := by
    show (convert (construct garbage 1 1e9) 0 1000).1.estLocal = 1000
    simp only [convert, if_pos hacc0]
    simp [correct, predict, construct, setFrequency, deltaL, t0]
  have e_gain : s1.estGain = 1e9 := by
    show (convert (construct garbage 1 1e9) 0 1000).1.estGain = 1e9
    simp only [convert, if_pos hacc0]
    simp [correct, predict, construct, setFrequency, deltaL, t0]
  have e_M : s1.measurementNoise = 9e14 := by
    show (convert (construct garbage 1 1e9) 0 1000).1.measurementNoise = 9e14
    simp only [convert, if_pos hacc0]
    simp only [correct, predict, construct, setFrequency]
    norm_num
  have e_L : s1.localNoise = 1e12 := by
    show (convert (construct garbage 1 1e9) 0 1000).1.localNoise = 1e12
    simp only [convert, if_pos hacc0]
    simp only [correct, predict, construct, setFrequency]
    norm_num
  have e_G : s1.gainNoise = 1e10 := by
    show (convert (construct garbage 1 1e9) 0 1000).1.gainNoise = 1e10
    simp only [convert, if_pos hacc0]
    simp only [correct, predict, construct, setFrequency]
    norm_num
  have e_p2 : s1.p2 = 0 := by
    show (convert (construct garbage 1 1e9) 0 1000).1.p2 = 0
    simp only [convert, if_pos hacc0]
    simp [correct, predict, construct, setFrequency]
  have e_p3 : s1.p3 = 1e20 + 1e10 := by
    show (convert (construct garbage 1 1e9) 0 1000).1.p3 = 1e20 + 1e10
    simp only [convert, if_pos hacc0]
    simp [correct, predict, construct, setFrequency]
    norm_num
  have e_p1 : 8.9e14 < s1.p1 ∧ s1.p1 < 9e14 := by
    have : s1.p1 = 9e14 * ((1e18 + 1e12) / (9e14 + (1e18 + 1e12))) := by
      show (convert (construct garbage 1 1e9) 0 1000).1.p1 = _
      simp only [convert, if_pos hacc0]
      simp only [correct, predict, construct, setFrequency]
      norm_num
    rw [this]
    norm_num
  -- the second event
  have tr2 : trunc ((1 / 1000 - s1.lastNative) * s1.estGain) = 1000000 := by
    rw [e_nat, e_gain, show ((1 : ℝ) / 1000 - 0) * 1e9 = ((1000000 : ℤ) : ℝ) by norm_num, trunc, if_pos (by norm_num), Int.floor_intCast]
  obtain ⟨P1, hP1⟩ : ∃ P1, P1 = s1.p1 + (2 * (1 / 1000 - s1.lastNative) * s1.p2 +
      (1 / 1000 - s1.lastNative) * (1 / 1000 - s1.lastNative) * s1.p3 + s1.localNoise) := ⟨_, rfl⟩
  obtain ⟨P2, hP2⟩ : ∃ P2, P2 = s1.p2 + (1 / 1000 - s1.lastNative) * s1.p3 := ⟨_, rfl⟩
  have d2 : (((1001 : BitVec 64) - (1001000 : BitVec 64)).toInt : ℝ) = -999999 := by
    have : ((1001 : BitVec 64) - (1001000 : BitVec 64)).toInt = -999999 := by decide
    rw [this]; norm_num
  obtain ⟨r2, st2⟩ := step s1 (1 / 1000) 1001 (by rw [e_ev]; decide) (by rw [e_bud]; norm_num) 1001000 (-999999) P1 P2
    (by rw [e_est, tr2]; decide) d2.symm hP1 hP2
  rw [e_nat, e_p2, e_p3, e_L] at hP1
  rw [e_nat, e_p2, e_p3] at hP2
  have b1 : 9.9e14 < P1 ∧ P1 < 1.1e15 := by rw [hP1]; constructor <;> norm_num <;> linarith [e_p1.1, e_p1.2]
  have b2 : P2 = 1e17 + 1e7 := by rw [hP2]; norm_num
  rw [e_M] at r2 st2
  have hS : (0 : ℝ) < 9e14 + P1 := by linarith [b1.1]
  have k1 : 1 / 2 < P1 / (9e14 + P1) ∧ P1 / (9e14 + P1) < 3 / 5 := by
    constructor
    · rw [lt_div_iff₀ hS]; linarith [b1.1]
    · rw [div_lt_iff₀ hS]; linarith [b1.2]
  have k2 : 0 < P2 / (9e14 + P1) ∧ P2 / (9e14 + P1) < 60 := by
    constructor
    · rw [b2]; positivity
    · rw [div_lt_iff₀ hS, b2]; linarith [b1.1]
  obtain ⟨c, hc⟩ : ∃ c, c = trunc (P1 / (9e14 + P1) * -999999) := ⟨_, rfl⟩
  have hcb : -600000 ≤ c ∧ c ≤ -499999 := by
    rw [hc, trunc, if_neg (by nlinarith [k1.1])]
    constructor
    · have h := Int.le_ceil (P1 / (9e14 + P1) * -999999 : ℝ)
      have h2 : (-600000 : ℝ) ≤ ((⌈(P1 / (9e14 + P1) * -999999 : ℝ)⌉ : ℤ) : ℝ) := by linarith [k1.2]
      exact_mod_cast h2
    · rw [Int.ceil_le]
      push_cast
      linarith [k1.1]
  rw [← hc] at r2 st2
  -- the third event
  have s2e : s2 = _ := st2
  have hr2 : (convert s1 (1 / 1000) 1001).2 = BitVec.ofInt 64 (1001000 + c) := by
    rw [r2, BitVec.ofInt_add]; rfl
  have f_est : s2.estLocal = BitVec.ofInt 64 (1001000 + c) := hr2
  have f_ev : s2.events ≠ 0 := by rw [s2e]; simp only; rw [e_ev]; decide
  have f_bud : s2.outlierBudget < 0 := by rw [s2e]; simp only; rw [e_bud]; norm_num
  have f_nat : s2.lastNative = 1 / 1000 := by rw [s2e]
  have f_gain : 0 ≤ s2.estGain ∧ s2.estGain ≤ 1e9 := by
    rw [s2e]
    simp only
    rw [e_gain]
    constructor <;> norm_num <;> linarith [k2.1, k2.2]
  have f_M : s2.measurementNoise = 9e14 := by rw [s2e]
  have f_L : s2.localNoise = 1e12 := by rw [s2e]; exact e_L
  have f_p1 : 4.5e14 < s2.p1 := by rw [s2e]; simp only; linarith [k1.1]
  have f_p2 : 0 < s2.p2 := by rw [s2e]; simp only; linarith [k2.1]
  have f_p3 : 0 < s2.p3 := by
    rw [s2e]
    simp only
    rw [e_p3, e_G]
    have : P2 * (P2 / (9e14 + P1)) < (1e17 + 1e7) * 60 := by
      rw [← b2]
      exact mul_lt_mul_of_pos_left k2.2 (by rw [b2]; norm_num)
    norm_num at this ⊢
    linarith
  have tr3 : trunc ((1 / 1000 + 1e-12 - s2.lastNative) * s2.estGain) = 0 := by
    rw [f_nat, show (1 : ℝ) / 1000 + 1e-12 - 1 / 1000 = 1e-12 by norm_num, trunc, if_pos (by linarith [f_gain.1]), Int.floor_eq_zero_iff]
    constructor
    · linarith [f_gain.1]
    · have := f_gain.2
      norm_num at this ⊢
      linarith
  obtain ⟨Q1, hQ1⟩ : ∃ Q1, Q1 = s2.p1 + (2 * (1 / 1000 + 1e-12 - s2.lastNative) * s2.p2 +
      (1 / 1000 + 1e-12 - s2.lastNative) * (1 / 1000 + 1e-12 - s2.lastNative) * s2.p3 + s2.localNoise) := ⟨_, rfl⟩
  have d3 : (((1002 : BitVec 64) - BitVec.ofInt 64 (1001000 + c)).toInt : ℝ) = ((1002 - (1001000 + c) : ℤ) : ℝ) := by
    have : ∀ w : ℤ, (1002 : BitVec 64) - BitVec.ofInt 64 w = BitVec.ofInt 64 (1002 - w) := by
      intro w
      rw [sub_eq_add_neg (1002 : ℤ), BitVec.ofInt_add, BitVec.ofInt_neg]
      generalize BitVec.ofInt 64 w = b
      rw [show BitVec.ofInt 64 1002 = (1002 : BitVec 64) from rfl]
      grind
    rw [this, toInt_small _ (by omega) (by omega)]
  obtain ⟨r3, -⟩ := step s2 (1 / 1000 + 1e-12) 1002 f_ev f_bud (BitVec.ofInt 64 (1001000 + c)) _ Q1 _
    (by rw [f_est, tr3]; simp) rfl hQ1 rfl
  rw [d3, f_M] at r3
  have q1 : 4.5e14 < Q1 := by
    rw [hQ1, f_nat, show (1 : ℝ) / 1000 + 1e-12 - 1 / 1000 = 1e-12 by norm_num, f_L]
    have h1 : 0 < 2 * (1e-12 : ℝ) * s2.p2 := mul_pos (by norm_num) f_p2
    have h2 : 0 < (1e-12 : ℝ) * 1e-12 * s2.p3 := mul_pos (by norm_num) f_p3
    linarith
  have hT : (0 : ℝ) < 9e14 + Q1 := by linarith
  have kq : 1 / 4 < Q1 / (9e14 + Q1) ∧ Q1 / (9e14 + Q1) < 1 := by
    constructor
    · rw [lt_div_iff₀ hT]; linarith
    · rw [div_lt_iff₀ hT]; linarith
  obtain ⟨z, hz⟩ : ∃ z : ℤ, z = 1002 - (1001000 + c) := ⟨_, rfl⟩
  rw [← hz] at r3
  have hzb : z ≤ -100 ∧ -600000 ≤ z := by omega
  have hzr : (z : ℝ) ≤ -100 := by exact_mod_cast hzb.1
  obtain ⟨e, he⟩ : ∃ e, e = trunc (Q1 / (9e14 + Q1) * (z : ℝ)) := ⟨_, rfl⟩
  rw [← he] at r3
  have heb : z ≤ e ∧ e ≤ -1 := by
    refine ⟨?_, ?_⟩
    · rw [he]
      exact ((trunc_between (by linarith [kq.1]) kq.2 z rfl).2 (by omega)).1
    · rw [he, trunc, if_neg (by nlinarith [kq.1]), Int.ceil_le]
      push_cast
      nlinarith [kq.1]
  rw [hr2, r3, ← BitVec.ofInt_add, BitVec.toNat_ofInt, BitVec.toNat_ofInt]
  omega

end Ubitrack.TSync
