import Verif.Props.TimestampSyncLS

/-! # C113: whether the times of the least-squares synchronisation run backwards -/

namespace Ubitrack.TSyncLS

open Ubitrack.TSync (trunc)

/-- Ten events received at once and the eleventh received late. -/
def lateEvents : Hist :=
  [(0, 0), (1, 1), (2, 2), (3, 3), (4, 4), (5, 5), (6, 6), (7, 7), (8, 8), (9, 9)]

/-- **C113** (refuted for the least-squares synchronisation) Increasing sensor times and increasing times of receipt, the eleventh event
received late: the time returned for the twelfth event is before the one returned for the eleventh. -/
theorem C113_least_squares_refuted (g : BitVec 64) :
    (convert (feed (construct g) lateEvents) 10 1110).2 = 1110 ∧
    (convert (convert (feed (construct g) lateEvents) 10 1110).1 11 1111).2 = 411 := by
  refine ⟨C14_warmup_identity g lateEvents (by simp [lateEvents]) 10 1110, ?_⟩
  obtain ⟨rest, hrest⟩ : ∃ rest : Hist, rest = [(1, 1), (2, 2), (3, 3), (4, 4), (5, 5), (6, 6), (7, 7), (8, 8), (9, 9), (10, 1110)] := ⟨_, rfl⟩
  have hfeed : (convert (feed (construct g) lateEvents) 10 1110).1 = feed (construct g) ((0, 0) :: rest) := by
    rw [show ((0, 0) :: rest : Hist) = lateEvents ++ [(10, 1110)] by rw [hrest]; rfl, feed, feed, List.foldl_append, List.foldl_cons, List.foldl_nil]
  have hlen : rest.length = 10 := by rw [hrest]; rfl
  obtain ⟨m1, m2, m3, m4⟩ := C14_warmup_means g ((0, 0) :: rest) (by simp [hlen]) (by simp)
  rw [hfeed]
  set s := feed (construct g) ((0, 0) :: rest) with hs
  have n1 : s.avgNative = 5 := by
    rw [m1]; simp [hrest]; norm_num
  have n2 : s.avgNativeSquare = 35 := by
    rw [m2]; simp [hrest]; norm_num
  have n3 : s.avgLocal = 105 := by
    rw [m3]; simp [hrest, sinceFirst]; norm_num
  have n4 : s.avgLocalNative = 1035 := by
    rw [m4]; simp [hrest, sinceFirst]; norm_num
  have hp := C14_prediction g (0, 0) rest (by omega) (by omega) 11 1111 (by
    rw [← hs]
    intro s'
    show s.avgNativeSquare ≠ s.avgNative * s.avgNative
    rw [n1, n2]; norm_num)
  rw [← hs] at hp
  have hline : line s 11 = ((411 : ℤ) : ℝ) := by
    rw [line, n1, n2, n3, n4]; norm_num
  rw [hp, hline, trunc, if_pos (by norm_num), Int.floor_intCast]
  decide

/-- **C113** The first eleven times returned are in the order of receipt. -/
theorem C113_least_squares_warmup (g : BitVec 64) (es : Hist) (hlen : es.length ≤ 9) (n n' : ℝ) (l l' : BitVec 64) (h : l.toNat ≤ l'.toNat) :
    (convert (feed (construct g) es) n l).2.toNat ≤ (convert (convert (feed (construct g) es) n l).1 n' l').2.toNat := by
  have hfeed : (convert (feed (construct g) es) n l).1 = feed (construct g) (es ++ [(n, l)]) := by
    simp [feed]
  rw [hfeed, C14_warmup_identity g es (by omega), C14_warmup_identity g _ (by simp; omega)]
  exact h

/-- The ninth and tenth of the events above. -/
example : (lateEvents.take 8).length ≤ 9 ∧ (8 : BitVec 64).toNat ≤ (9 : BitVec 64).toNat := by
  constructor
  · simp [lateEvents]
  · decide

end Ubitrack.TSyncLS
