import Verif.Props.TimestampSyncLS

/-!
# C14: unit and origin of the sensor's clock
-/

namespace Ubitrack.TSyncLS

open Ubitrack.TSync (trunc)

/-- The same state, seen with the native time `c * native + d`. -/
structure Scaled (c d : ℝ) (s s' : St) : Prop where
  events : s'.events = s.events
  firstLocal : s'.firstLocal = s.firstLocal
  avgLocal : s'.avgLocal = s.avgLocal
  outlierBudget : s'.outlierBudget = s.outlierBudget
  avgDeviationSquare : s'.avgDeviationSquare = s.avgDeviationSquare
  avgNative : s'.avgNative = c * s.avgNative + d
  avgNativeSquare : s'.avgNativeSquare = c * c * s.avgNativeSquare + 2 * c * d * s.avgNative + d * d
  avgLocalNative : s'.avgLocalNative = c * s.avgLocalNative + d * s.avgLocal

theorem Scaled.start {c d : ℝ} {s s' : St} (h : Scaled c d s s') (l : BitVec 64) :
    Scaled c d (TSyncLS.start s l) (TSyncLS.start s' l) := by
  unfold TSyncLS.start
  rw [h.events]
  split_ifs
  · exact ⟨rfl, rfl, h.avgLocal, h.outlierBudget, h.avgDeviationSquare, h.avgNative, h.avgNativeSquare, h.avgLocalNative⟩
  · exact h

theorem Scaled.extrapolate {c d : ℝ} (hc : c ≠ 0) {s s' : St} (h : Scaled c d s s') (n f : ℝ) :
    TSyncLS.extrapolate s' (c * n + d) f = TSyncLS.extrapolate s n f := by
  unfold TSyncLS.extrapolate
  rw [h.events]
  split_ifs
  · dsimp only
    rw [h.avgLocal, h.avgNative, h.avgNativeSquare, h.avgLocalNative]
    rw [← mul_div_mul_left _ (s.avgNativeSquare - s.avgNative * s.avgNative) (mul_ne_zero hc hc)]
    congr 1 <;> ring
  · rfl

theorem Scaled.convert {c d : ℝ} (hc : c ≠ 0) {s s' : St} (h : Scaled c d s s') (n : ℝ) (l : BitVec 64) :
    Scaled c d (TSyncLS.convert s n l).1 (TSyncLS.convert s' (c * n + d) l).1 ∧
      (TSyncLS.convert s' (c * n + d) l).2 = (TSyncLS.convert s n l).2 := by
  have hs := h.start l
  unfold TSyncLS.convert
  dsimp only
  generalize TSyncLS.start s l = t at *
  generalize TSyncLS.start s' l = t' at *
  have hf : fLocal t' l = fLocal t l := by unfold fLocal; rw [hs.firstLocal]
  rw [hf, hs.extrapolate hc]
  have ha : accepts t' (TSyncLS.extrapolate t n (fLocal t l)) (fLocal t l) ↔
      accepts t (TSyncLS.extrapolate t n (fLocal t l)) (fLocal t l) := by
    unfold accepts
    rw [hs.events, hs.avgDeviationSquare, hs.outlierBudget]
  have hw : weight t' = weight t := by unfold weight; rw [hs.events]
  by_cases h0 : accepts t (TSyncLS.extrapolate t n (fLocal t l)) (fLocal t l)
  · rw [if_pos h0, if_pos (ha.mpr h0)]
    refine ⟨⟨?_, ?_, ?_, ?_, ?_, ?_, ?_, ?_⟩, ?_⟩ <;>
      simp only [average, hs.events, hs.firstLocal, hs.avgLocal, hs.outlierBudget, hs.avgDeviationSquare,
        hs.avgNative, hs.avgNativeSquare, hs.avgLocalNative, hw] <;> ring
  · rw [if_neg h0, if_neg (fun h => h0 (ha.mp h))]
    exact ⟨⟨by simp only [hs.events], hs.firstLocal, hs.avgLocal, by simp only [hs.outlierBudget], hs.avgDeviationSquare,
      hs.avgNative, hs.avgNativeSquare, hs.avgLocalNative⟩, by simp only [hs.firstLocal]⟩

theorem scaled_first (c d : ℝ) (g g' : BitVec 64) (n : ℝ) (l : BitVec 64) :
    Scaled c d (TSyncLS.convert (construct g) n l).1 (TSyncLS.convert (construct g') (c * n + d) l).1 := by
  have h1 : ∀ (g : BitVec 64) (n : ℝ), (TSyncLS.convert (construct g) n l).1 =
      ⟨1, l, n, n * n, 0, 0, 1, 1e6 * 1e6⟩ := by
    intro g n
    unfold TSyncLS.convert
    dsimp only
    have ha : ∀ x y, accepts (TSyncLS.start (construct g) l) x y := fun x y => by
      unfold accepts
      left
      simp [TSyncLS.start, construct]
    rw [if_pos (ha _ _)]
    simp [average, TSyncLS.start, construct, weight, fLocal, TSyncLS.extrapolate]
  rw [h1, h1]
  refine ⟨rfl, rfl, rfl, rfl, rfl, rfl, ?_, ?_⟩ <;> ring

/-- **C14** Neither the unit nor the origin (nor the direction) of the sensor's clock changes a
returned time: if all native times are replaced by `c * native + d` with `c ≠ 0`, every event of
every history gets the same result. -/
theorem C14_native_unit (g g' : BitVec 64) (c d : ℝ) (hc : c ≠ 0) (es : Hist) (native : ℝ)
    (loc : BitVec 64) :
    (TSyncLS.convert (feed (construct g') (es.map fun e => (c * e.1 + d, e.2))) (c * native + d) loc).2 =
      (TSyncLS.convert (feed (construct g) es) native loc).2 := by
  by_cases hes : es = []
  · subst hes
    have h1 := C14_warmup_identity g [] (by simp) native loc
    have h2 := C14_warmup_identity g' [] (by simp) (c * native + d) loc
    rw [h1]
    exact h2
  · have key : ∀ es : Hist, es ≠ [] →
        Scaled c d (feed (construct g) es) (feed (construct g') (es.map fun e => (c * e.1 + d, e.2))) := by
      intro es
      induction es using List.reverseRecOn with
      | nil => intro h; exact absurd rfl h
      | append_singleton es e ih =>
        intro _
        rw [List.map_append, List.map_cons, List.map_nil, feed_append, feed_append]
        by_cases h : es = []
        · subst h
          exact scaled_first c d g g' e.1 e.2
        · exact ((ih h).convert hc e.1 e.2).1
    exact ((key es hes).convert hc native loc).2

/-- A clock that counts microseconds instead of seconds, from another origin. -/
example : (TSyncLS.convert (feed (construct 3) ([((1 : ℝ), (10 : BitVec 64)), (2, 21)].map
      fun e => (1000000 * e.1 + 17, e.2))) (1000000 * 3 + 17) 30).2 =
    (TSyncLS.convert (feed (construct 0) [(1, 10), (2, 21)]) 3 30).2 :=
  C14_native_unit 0 3 1000000 17 (by norm_num) _ _ _

end Ubitrack.TSyncLS
