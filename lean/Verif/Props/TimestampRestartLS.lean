import Verif.Props.TimestampSyncLS

/-! # C14: the least-squares synchronisation starts again when the number of events overflows -/

namespace Ubitrack.TSyncLS

open Ubitrack.TSync (trunc)

/-- Two synchronisers that differ in what they know about outliers only. -/
def SameLine (s t : St) : Prop :=
  t.events = s.events ∧ t.firstLocal = s.firstLocal ∧ t.avgNative = s.avgNative ∧
  t.avgNativeSquare = s.avgNativeSquare ∧ t.avgLocal = s.avgLocal ∧ t.avgLocalNative = s.avgLocalNative

private theorem accepts_early {s : St} (h : s.events < 100) (l : BitVec 64) (x y : ℝ) :
    accepts (start s l) x y := by
  unfold accepts
  left
  rw [start_events]
  exact h

theorem sameLine_convert {s t : St} (h : SameLine s t) (n : ℝ) (l : BitVec 64) :
    (convert t n l).2 = (convert s n l).2 ∧
      (s.events < 100 → SameLine (convert s n l).1 (convert t n l).1) := by
  obtain ⟨h1, h2, h3, h4, h5, h6⟩ := h
  have hs : SameLine (start s l) (start t l) := by
    unfold start
    rw [h1]
    split_ifs
    · exact ⟨rfl, rfl, h3, h4, h5, h6⟩
    · exact ⟨h1, h2, h3, h4, h5, h6⟩
  obtain ⟨a1, a2, a3, a4, a5, a6⟩ := hs
  have hl : fLocal (start t l) l = fLocal (start s l) l := by unfold fLocal; rw [a2]
  have hx : extrapolate (start t l) n (fLocal (start s l) l) = extrapolate (start s l) n (fLocal (start s l) l) := by
    unfold extrapolate
    rw [a1, a3, a4, a5, a6]
  have hw : weight (start t l) = weight (start s l) := by unfold weight; rw [a1]
  constructor
  · unfold convert
    dsimp only
    rw [hl, hx]
    split_ifs <;> simp only [average, a2]
  · intro he
    unfold convert
    dsimp only
    rw [hl, hx, if_pos (accepts_early he l _ _), if_pos (accepts_early (by rw [h1]; exact he) l _ _)]
    refine ⟨?_, ?_, ?_, ?_, ?_, ?_⟩ <;> simp only [average, hw, a1, a2, a3, a4, a5, a6]

/-- **C14** After every 2^32 events the synchronisation starts anew: the next 101 events are given
the times that a new synchroniser would give them, whatever happened before. -/
theorem C14_restart (g g' : BitVec 64) (es more : Hist) (h : 2 ^ 32 ∣ es.length) (hmore : more.length ≤ 100)
    (native : ℝ) (loc : BitVec 64) :
    (convert (feed (construct g) (es ++ more)) native loc).2 =
      (convert (feed (construct g') more) native loc).2 := by
  have h0 : (feed (construct g) es).events = 0 := by
    rw [feed_events]
    obtain ⟨k, hk⟩ := h
    rw [hk]
    apply BitVec.eq_of_toNat_eq
    simp [BitVec.toNat_ofNat]
  have hap : ∀ more : Hist, feed (construct g) (es ++ more) = feed (feed (construct g) es) more := by
    intro more
    simp [feed, List.foldl_append]
  rw [hap]
  generalize feed (construct g) es = s at h0
  have first : ∀ (s : St) (n : ℝ) (l : BitVec 64), s.events = 0 →
      let c := (convert s n l).1
      c.events = 1 ∧ c.firstLocal = l ∧ c.avgNative = n ∧ c.avgNativeSquare = n * n ∧ c.avgLocal = 0 ∧
        c.avgLocalNative = 0 := by
    intro s n l he
    unfold convert
    dsimp only
    rw [if_pos (accepts_early (by rw [he]; decide) l _ _)]
    simp [average, weight, start, he, fLocal]
  have firstOut : ∀ (s : St) (n : ℝ) (l : BitVec 64), s.events = 0 → (convert s n l).2 = l := by
    intro s n l he
    unfold convert
    dsimp only
    rw [if_pos (accepts_early (by rw [he]; decide) l _ _)]
    simp [average, start, he, fLocal, extrapolate, trunc]
  rcases more with _ | ⟨e, more⟩
  · exact (firstOut s native loc h0).trans (firstOut (construct g') native loc rfl).symm
  · have key : ∀ (more : Hist) (s t : St) (m : ℕ), SameLine s t → s.events = BitVec.ofNat 32 m → m + more.length ≤ 100 →
        (convert (feed s more) native loc).2 = (convert (feed t more) native loc).2 := by
      intro more
      induction more with
      | nil => intro s t m hst _ _; exact (sameLine_convert hst native loc).1.symm
      | cons e more ih =>
        intro s t m hst hm hle
        simp only [List.length_cons] at hle
        refine ih _ _ (m + 1) ((sameLine_convert hst e.1 e.2).2 ?_) ?_ (by omega)
        · rw [hm, BitVec.lt_def]
          simp [BitVec.toNat_ofNat]
          omega
        · rw [convert_events, hm, BitVec.ofNat_add]
          rfl
    obtain ⟨a1, a2, a3, a4, a5, a6⟩ := first s e.1 e.2 h0
    obtain ⟨b1, b2, b3, b4, b5, b6⟩ := first (construct g') e.1 e.2 rfl
    refine key more _ _ 1 ⟨b1.trans a1.symm, b2.trans a2.symm, b3.trans a3.symm, b4.trans a4.symm,
      b5.trans a5.symm, b6.trans a6.symm⟩ a1 ?_
    simpa [Nat.add_comm] using hmore

/-- A history of 2^32 events, then two more. -/
example (l : BitVec 64) : (convert (feed (construct 0) (List.replicate (2 ^ 32) (5, 7) ++ [(1, 2), (3, 4)])) 5 l).2 =
    (convert (feed (construct 0) [(1, 2), (3, 4)]) 5 l).2 :=
  C14_restart 0 0 _ _ (by rw [List.length_replicate]) (by simp) 5 l

end Ubitrack.TSyncLS
