import Verif.Props.TimestampSync
import Verif.Props.TimestampSyncLS

/-!
# C13, C14: the origins of the clocks
-/

namespace Ubitrack.TSync

/-- Two synchronisers whose clocks are set differently: the sensor's by `d`, the local one by `k`. -/
def Shifted (d : ℝ) (k : BitVec 64) (s t : St) : Prop :=
  (s.events ≠ 0 → t.lastNative = s.lastNative + d ∧ t.estLocal = s.estLocal + k) ∧
  { t with lastNative := 0, estLocal := 0 } = { s with lastNative := 0, estLocal := 0 }

theorem Shifted.fields {d : ℝ} {k : BitVec 64} {s t : St} (h : Shifted d k s t) :
    t.events = s.events ∧ t.localNoise = s.localNoise ∧ t.gainNoise = s.gainNoise ∧
    t.measurementNoise = s.measurementNoise ∧ t.estGain = s.estGain ∧ t.p1 = s.p1 ∧ t.p2 = s.p2 ∧
    t.p3 = s.p3 ∧ t.outlierBudget = s.outlierBudget ∧ t.avgDeviationSquare = s.avgDeviationSquare := by
  have h2 := h.2
  simp only [St.mk.injEq] at h2
  tauto

theorem shifted_predict {d : ℝ} {k : BitVec 64} {s t : St} (h : Shifted d k s t) (n : ℝ) (l : BitVec 64) :
    (predict t (n + d) (l + k)).estLocal = (predict s n l).estLocal + k ∧
    { predict t (n + d) (l + k) with lastNative := 0, estLocal := 0 } =
      { predict s n l with lastNative := 0, estLocal := 0 } := by
  obtain ⟨h1, h2, h3, h4, h5, h6, h7, h8, h9, h10⟩ := h.fields
  unfold predict
  rw [h1]
  by_cases he : s.events = 0
  · simp only [if_pos he, sub_self, zero_mul, mul_zero, h2, h3, h4, h5, h6, h7, h8, h9, h10]
    exact ⟨by grind, trivial⟩
  · simp only [if_neg he]
    obtain ⟨a, b⟩ := h.1 he
    have hd : n + d - t.lastNative = n - s.lastNative := by rw [a]; ring
    rw [hd, b]
    simp only [h1, h2, h3, h4, h5, h6, h7, h8, h9, h10]
    exact ⟨by grind, trivial⟩

theorem shifted_convert {d : ℝ} {k : BitVec 64} {s t : St} (h : Shifted d k s t) (n : ℝ) (l : BitVec 64) :
    Shifted d k (convert s n l).1 (convert t (n + d) (l + k)).1 ∧
      (convert t (n + d) (l + k)).2 = (convert s n l).2 + k := by
  obtain ⟨hl, hr⟩ := shifted_predict h n l
  unfold convert
  dsimp only
  generalize predict s n l = p at hl hr ⊢
  generalize predict t (n + d) (l + k) = q at hl hr ⊢
  simp only [St.mk.injEq] at hr
  obtain ⟨h1, -, h2, h3, h4, -, h5, h6, h7, h8, h9, h10⟩ := hr
  have hdl : deltaL q (l + k) = deltaL p l := by
    unfold deltaL
    rw [hl]
    congr 1
    grind
  have hacc : accepts q (l + k) ↔ accepts p l := by unfold accepts; rw [hdl, h9, h10]
  by_cases ha : accepts p l
  · rw [if_pos ha, if_pos (hacc.2 ha)]
    have hloc : (correct q (l + k)).estLocal = (correct p l).estLocal + k := by
      simp only [correct, hdl, h4, hl, h6]
      grind
    refine ⟨⟨fun _ => ⟨rfl, hloc⟩, ?_⟩, hloc⟩
    simp only [correct, hdl, h1, h2, h3, h4, h5, h6, h7, h8, h9, h10]
  · rw [if_neg ha, if_neg (fun h => ha (hacc.1 h))]
    refine ⟨⟨fun _ => ⟨rfl, hl⟩, ?_⟩, hl⟩
    simp only [h1, h2, h3, h4, h5, h6, h7, h8, h9, h10]

theorem shifted_setFrequency {d : ℝ} {k : BitVec 64} {s t : St} (h : Shifted d k s t) (fn fl : ℝ) :
    Shifted d k (setFrequency s fn fl) (setFrequency t fn fl) := by
  obtain ⟨h1, h2, h3, h4, h5, h6, h7, h8, h9, h10⟩ := h.fields
  refine ⟨h.1, ?_⟩
  simp only [setFrequency, h1, h9]

/-- The same action seen by clocks that are set differently. -/
def Act.reset (d : ℝ) (k : BitVec 64) : Act → Act
  | .event n l => .event (n + d) (l + k)
  | .freq n l => .freq n l

/-- **C13** The origins of the clocks do not matter: if the sensor's clock is set forward by `d` and
the local clock by `k` (both possibly negative; 64-bit times wrap round), every event of every
history is given the same time, read on the clock set forward by `k`. -/
theorem C13_origins (garbage garbage' : St) (fn fl : ℝ) (d : ℝ) (k : BitVec 64) (as : List Act)
    (native : ℝ) (loc : BitVec 64) :
    (convert (runAll (construct garbage' fn fl) (as.map (Act.reset d k))) (native + d) (loc + k)).2 =
      (convert (runAll (construct garbage fn fl) as) native loc).2 + k := by
  have key : ∀ (as : List Act) (s t : St), Shifted d k s t →
      Shifted d k (runAll s as) (runAll t (as.map (Act.reset d k))) := by
    intro as
    induction as with
    | nil => intro s t h; exact h
    | cons a as ih =>
      intro s t h
      apply ih
      cases a with
      | event n l => exact (shifted_convert h n l).1
      | freq n l => exact shifted_setFrequency h n l
  refine (shifted_convert (key as _ _ ⟨fun h => (h rfl).elim, ?_⟩) native loc).2
  simp only [construct, setFrequency]

/-- A local clock set back by ten, a sensor clock set forward by a half. -/
example (garbage : St) :
    (convert (runAll (construct garbage 1 1000) ([Act.event 5 17].map (Act.reset 0.5 (-10)))) (6 + 0.5) (1017 + -10)).2 =
      (convert (runAll (construct garbage 1 1000) [Act.event 5 17]) 6 1017).2 + -10 :=
  C13_origins garbage garbage 1 1000 0.5 (-10) [Act.event 5 17] 6 1017

end Ubitrack.TSync

namespace Ubitrack.TSyncLS

/-- Two synchronisers that differ in the origin of the local clock only. -/
def Shifted (k : BitVec 64) (s t : St) : Prop :=
  (s.events ≠ 0 → t.firstLocal = s.firstLocal + k) ∧
  { t with firstLocal := 0 } = { s with firstLocal := 0 }

theorem shifted_start {k : BitVec 64} {s t : St} (h : Shifted k s t) (l : BitVec 64) :
    (start t (l + k)).firstLocal = (start s l).firstLocal + k ∧
      { start t (l + k) with firstLocal := 0 } = { start s l with firstLocal := 0 } := by
  have he : t.events = s.events := by
    have := congrArg St.events h.2
    exact this
  unfold start
  rw [he]
  split_ifs with h0
  · have h2 := h.2
    rw [he] at h2
    exact ⟨rfl, h2⟩
  · exact ⟨h.1 h0, h.2⟩

theorem shifted_convert {k : BitVec 64} {s t : St} (h : Shifted k s t) (n : ℝ) (l : BitVec 64) :
    Shifted k (convert s n l).1 (convert t n (l + k)).1 ∧
      (convert t n (l + k)).2 = (convert s n l).2 + k := by
  obtain ⟨hf, hr⟩ := shifted_start h l
  unfold convert
  dsimp only
  generalize start s l = p at hf hr ⊢
  generalize start t (l + k) = q at hf hr ⊢
  simp only [St.mk.injEq] at hr
  obtain ⟨h1, -, h2, h3, h4, h5, h6, h7⟩ := hr
  have hl : fLocal q (l + k) = fLocal p l := by
    unfold fLocal
    rw [hf]
    congr 2
    grind
  have hx : extrapolate q n (fLocal p l) = extrapolate p n (fLocal p l) := by
    unfold extrapolate
    rw [h1, h2, h3, h4, h5]
  rw [hl, hx]
  have hacc : accepts q (extrapolate p n (fLocal p l)) (fLocal p l) ↔
      accepts p (extrapolate p n (fLocal p l)) (fLocal p l) := by
    unfold accepts
    rw [h1, h6, h7]
  have hw : weight q = weight p := by unfold weight; rw [h1]
  by_cases ha : accepts p (extrapolate p n (fLocal p l)) (fLocal p l)
  · rw [if_pos ha, if_pos (hacc.2 ha)]
    refine ⟨⟨fun _ => hf, ?_⟩, ?_⟩
    · simp only [average, hw, h1, h2, h3, h4, h5, h6, h7]
    · simp only [average, hf]
      grind
  · rw [if_neg ha, if_neg (fun h => ha (hacc.1 h))]
    refine ⟨⟨fun _ => hf, ?_⟩, ?_⟩
    · simp only [h1, h2, h3, h4, h5, h6, h7]
    · simp only [hf]
      grind

/-- **C14** The origin of the local clock does not matter: if it is set forward by `k` (64-bit times
wrap round), every event of every history is given the same time, read on that clock. -/
theorem C14_local_origin (g g' : BitVec 64) (k : BitVec 64) (es : Hist) (native : ℝ) (loc : BitVec 64) :
    (convert (feed (construct g') (es.map fun e => (e.1, e.2 + k))) native (loc + k)).2 =
      (convert (feed (construct g) es) native loc).2 + k := by
  have key : ∀ (es : Hist) (s t : St), Shifted k s t →
      Shifted k (feed s es) (feed t (es.map fun e => (e.1, e.2 + k))) := by
    intro es
    induction es with
    | nil => intro s t h; exact h
    | cons e es ih =>
      intro s t h
      exact ih _ _ (shifted_convert h e.1 e.2).1
  exact (shifted_convert (key es (construct g) (construct g') ⟨fun h => (h rfl).elim, rfl⟩) native loc).2

/-- A local clock set forward by a thousand, so that it wraps round. -/
example : (convert (feed (construct 0) ([((1 : ℝ), (-5 : BitVec 64))].map fun e => (e.1, e.2 + 1000))) 2 (-3 + 1000)).2 =
    (convert (feed (construct 0) [((1 : ℝ), (-5 : BitVec 64))]) 2 (-3)).2 + 1000 :=
  C14_local_origin 0 0 1000 [(1, -5)] 2 (-3)

end Ubitrack.TSyncLS
