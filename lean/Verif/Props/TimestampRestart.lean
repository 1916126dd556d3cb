import Verif.Props.TimestampSync

/-! # C12: the synchronisation starts again when the number of events overflows -/

namespace Ubitrack.TSync

/-- The number of events of a history (without changes of frequencies). -/
def eventCount : List Act → ℕ
  | [] => 0
  | .event _ _ :: as => eventCount as + 1
  | .freq _ _ :: as => eventCount as

private theorem events_run (as : List Act) (s : St) : (runAll s as).events = s.events + BitVec.ofNat 32 (eventCount as) := by
  induction as generalizing s with
  | nil => simp [runAll, eventCount]
  | cons a as ih =>
    have h : runAll s (a :: as) = runAll (act s a) as := rfl
    rw [h, ih]
    cases a with
    | event n l =>
      have e : (act s (.event n l)).events = s.events + 1 := by
        simp only [act, convert]
        split_ifs <;> simp [correct, predict_events]
      rw [e, eventCount, BitVec.ofNat_add]
      generalize BitVec.ofNat 32 (eventCount as) = b
      show s.events + 1 + b = s.events + (b + 1)
      grind
    | freq n l => rfl

private theorem trunc_zero : trunc 0 = 0 := by simp [trunc]

/-- **C12** After every 2^32 events the counter of events is zero again and the synchronisation starts anew: the next event is returned
unchanged, however far it is off the prediction. -/
theorem C12_restart (garbage : St) (fn fl : ℝ) (as : List Act) (h : 2 ^ 32 ∣ eventCount as) (native : ℝ) (loc : BitVec 64) :
    (convert (runAll (construct garbage fn fl) as) native loc).2 = loc := by
  have he : (runAll (construct garbage fn fl) as).events = 0 := by
    rw [events_run]
    obtain ⟨k, hk⟩ := h
    have : BitVec.ofNat 32 (eventCount as) = 0 := by
      rw [hk]
      apply BitVec.eq_of_toNat_eq
      simp [BitVec.toNat_ofNat]
    rw [this]
    simp [construct, setFrequency]
  generalize runAll (construct garbage fn fl) as = s at he
  have hp : (predict s native loc).estLocal = loc := by
    simp [predict, he, trunc_zero]
  by_cases ha : accepted s native loc
  · unfold accepted at ha
    simp only [convert]
    rw [if_pos ha]
    simp [correct, deltaL, hp, trunc_zero]
  · rw [predict_eq_estLocal s native loc ha, hp]

/-- A history of 2^32 events. -/
example : eventCount (List.replicate (2 ^ 32) (.event 0 0)) = 2 ^ 32 := by
  have h : ∀ n, eventCount (List.replicate n (.event 0 0)) = n := by
    intro n
    induction n with
    | zero => rfl
    | succ n ih => rw [List.replicate_succ, eventCount, ih]
  exact h _

end Ubitrack.TSync
