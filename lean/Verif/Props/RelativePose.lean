import Verif.Model.HandEye
import Verif.Props.Pose
import Mathlib.Data.List.FinRange
import Mathlib.Data.List.Nodup

/-!
# C46: relative poses enumerate every pair exactly once, also incrementally
-/

namespace Ubitrack.HandEye

variable {α β : Type*}

/-- Specification: `out` holds exactly one entry for every pair of positions `i < j` of the list that fulfils `P`,
made by `f` from the element at `i` and the element at `j`. -/
def EnumeratesPairs (l : List α) (P : ℕ → ℕ → Prop) (f : α → α → β) (out : List β) : Prop :=
  ∃ idx : List (Fin l.length × Fin l.length), idx.Nodup ∧ (∀ i j, (i, j) ∈ idx ↔ i < j ∧ P i j) ∧
    out = idx.map fun p => f (l.get p.1) (l.get p.2)

/-- **C46** With `use_all_pairs`, the generator outputs for every pair of poses exactly one relative pose, that of the
later one relative to the earlier one. -/
theorem C46_all_pairs (op : α → α → β) (l : List α) :
    EnumeratesPairs l (fun _ _ => True) (fun earlier later => op later earlier) (allPairs op l) := by
  induction l with
  | nil => exact ⟨[], by simp, fun i => i.elim0, rfl⟩
  | cons p rest ih =>
    obtain ⟨idx, h1, h2, h3⟩ := ih
    refine ⟨(List.finRange rest.length).map (fun j => (0, j.succ)) ++ idx.map (fun q => (q.1.succ, q.2.succ)), ?_, ?_, ?_⟩
    · rw [List.nodup_append]
      refine ⟨(List.nodup_finRange _).map fun a b h => by simpa using h, h1.map fun a b h => ?_, ?_⟩
      · have h' := Prod.mk.inj h
        exact Prod.ext (Fin.succ_injective _ h'.1) (Fin.succ_injective _ h'.2)
      · intro a ha b hb hab
        obtain ⟨j, _, rfl⟩ := List.mem_map.mp ha
        obtain ⟨q, _, rfl⟩ := List.mem_map.mp hb
        exact (Fin.succ_ne_zero q.1) (Prod.mk.inj hab).1.symm
    · intro i j
      simp only [List.mem_append, List.mem_map, List.mem_finRange, true_and, Prod.mk.injEq, and_true, Prod.exists]
      constructor
      · rintro (⟨a, rfl, rfl⟩ | ⟨a, b, hab, rfl, rfl⟩)
        · exact Fin.succ_pos a
        · exact Fin.succ_lt_succ_iff.mpr ((h2 a b).mp hab).1
      · intro hij
        induction i using Fin.cases with
        | zero =>
          left
          exact ⟨j.pred (Fin.pos_iff_ne_zero.mp hij), rfl, by simp⟩
        | succ i =>
          right
          induction j using Fin.cases with
          | zero => exact absurd hij (by simp)
          | succ j => exact ⟨i, j, (h2 i j).mpr ⟨Fin.succ_lt_succ_iff.mp hij, trivial⟩, rfl, rfl⟩
    · simp only [allPairs, List.map_append, List.map_map, h3]
      congr 1
      apply List.ext_getElem
      · simp
      · intro i h1 h2; simp

/-- **C46** In particular there are n(n-1)/2 of them. -/
theorem C46_count (op : α → α → β) (l : List α) : 2 * (allPairs op l).length = l.length * (l.length - 1) := by
  induction l with
  | nil => rfl
  | cons p rest ih =>
    simp only [allPairs, List.length_append, List.length_map, List.length_cons, mul_add, ih]
    cases rest.length with
    | zero => rfl
    | succ n => simp; ring

/-- **C46** Without `use_all_pairs`, the output is the list of the poses relative to their predecessors. -/
theorem C46_adjacent (op : α → α → β) (l : List α) :
    (adjacentDifference op l).length = l.length - 1 ∧
    ∀ i (h : i + 1 < l.length), (adjacentDifference op l)[i]? = some (op l[i + 1] l[i]) := by
  cases l with
  | nil => simp [adjacentDifference]
  | cons first rest =>
    suffices key : ∀ (rest : List α) (first : α), (adjacentDifference.go op first rest).length = rest.length ∧
        ∀ i (h : i < rest.length), (adjacentDifference.go op first rest)[i]? =
          some (op rest[i] ((first :: rest)[i]'(by simp; omega))) by
      refine ⟨by simpa [adjacentDifference] using (key rest first).1, fun i h => ?_⟩
      have := (key rest first).2 i (by simpa using h)
      simpa [adjacentDifference] using this
    intro rest
    induction rest with
    | nil => intro first; simp [adjacentDifference.go]
    | cons val rest ih =>
      intro first
      refine ⟨by simp [adjacentDifference.go, (ih val).1], fun i h => ?_⟩
      cases i with
      | zero => simp [adjacentDifference.go]
      | succ i =>
        have := (ih val).2 i (by simpa using h)
        simpa [adjacentDifference.go] using this

/-- **C46** The update of the incremental calibration outputs exactly one relative pose for every pair whose later pose is
new, that of the earlier one relative to the later one. -/
theorem C46_new_pairs (op : α → α → β) (l : List α) (index : ℕ) :
    EnumeratesPairs l (fun _ j => index ≤ j) op (newPairs op l index) := by
  refine ⟨((List.finRange l.length).drop index).flatMap fun (j : Fin l.length) => ((List.finRange l.length).take j.val).map fun i => (i, j), ?_, ?_, ?_⟩
  · rw [List.nodup_flatMap]
    refine ⟨fun j _ => List.Nodup.map (fun a b h => (Prod.mk.inj h).1) ((List.nodup_finRange _).sublist (List.take_sublist _ _)), ?_⟩
    refine ((List.nodup_finRange _).sublist (List.drop_sublist _ _)).imp fun {a b} hab => ?_
    intro x hx hx'
    obtain ⟨i, _, rfl⟩ := List.mem_map.mp hx
    obtain ⟨i', _, h⟩ := List.mem_map.mp hx'
    exact hab (Prod.mk.inj h).2.symm
  · have hd : ∀ (k : ℕ) (j : Fin l.length), j ∈ (List.finRange l.length).drop k ↔ k ≤ j := by
      intro k j
      rw [List.mem_drop_iff_getElem]
      constructor
      · rintro ⟨i, hi, h⟩
        rw [← h]; simp
      · intro hk
        exact ⟨j - k, by simp; omega, by ext; simp; omega⟩
    have ht : ∀ (k : ℕ) (j : Fin l.length), j ∈ (List.finRange l.length).take k ↔ j < k := by
      intro k j
      rw [List.mem_take_iff_getElem]
      constructor
      · rintro ⟨i, hi, h⟩
        rw [← h]; simp; simp at hi; omega
      · intro hk
        exact ⟨j, by simp; omega, by ext; simp⟩
    intro i j
    simp only [List.mem_flatMap, List.mem_map, Prod.mk.injEq, hd, ht]
    constructor
    · rintro ⟨j', h1, i', h2, rfl, rfl⟩
      exact ⟨h2, h1⟩
    · rintro ⟨h1, h2⟩
      exact ⟨j, h2, i, h1, rfl, rfl⟩
  · have e : l.zipIdx = (List.finRange l.length).map fun j => (l.get j, j.val) := by
      apply List.ext_getElem
      · simp
      · intro i h1 h2; simp
    unfold newPairs
    rw [e, ← List.map_drop, List.flatMap_map, List.map_flatMap]
    refine List.flatMap_congr fun j _ => ?_
    apply List.ext_getElem
    · simp
    · intro i h1 h2; simp

/-- Growing a list adds exactly the pairs with a new pose. -/
theorem newPairs_append (op : α → α → β) (l m : List α) :
    newPairs op (l ++ m) 0 = newPairs op l 0 ++ newPairs op (l ++ m) l.length := by
  unfold newPairs
  rw [List.zipIdx_append, List.drop_zero, List.drop_zero, List.drop_append_of_le_length (by simp), List.drop_of_length_le (by simp),
    List.flatMap_append, List.nil_append]
  congr 1
  refine List.flatMap_congr fun x hx => ?_
  have hx2 : x.2 ≤ l.length := by
    have := List.snd_lt_of_mem_zipIdx hx
    omega
  rw [List.take_append_of_le_length hx2]

/-! ### Histories of the incremental calibration -/

/-- A history of calls with growing lists of corresponding poses. -/
inductive History : Calibration → List (Pose ℝ) → List (Pose ℝ) → Prop
  | start : History Calibration.fresh [] []
  | call {c c' : Calibration} {eyes hands eyes' hands' : List (Pose ℝ)} (h : History c eyes hands) (he : eyes <+: eyes')
      (hh : hands <+: hands') (hlen : eyes'.length = hands'.length) (hu : c.update eyes' hands' = some c') : History c' eyes' hands'

theorem history_inv {c : Calibration} {eyes hands : List (Pose ℝ)} (h : History c eyes hands) :
    c.lastIndex ≤ eyes.length ∧ (3 ≤ eyes.length → c.lastIndex = eyes.length) ∧ eyes.length = hands.length ∧
    c.allA = newPairs (fun p q => toDual (relForward p q)) (hands.take c.lastIndex) 0 ∧
    c.allB = newPairs (fun p q => toDual (relBackward p q)) (eyes.take c.lastIndex) 0 := by
  induction h with
  | start => simp [Calibration.fresh, newPairs]
  | @call c c' eyes hands eyes' hands' h he hh hlen hu ih =>
    obtain ⟨i1, i2, i3, i4, i5⟩ := ih
    have hle := he.length_le
    unfold Calibration.update at hu
    split at hu
    · rename_i hs
      simp only [Option.some.injEq] at hu
      subst hu
      have h3 : eyes'.length < 3 := hs.resolve_right (by simp [hlen])
      refine ⟨i1.trans hle, fun h => by omega, hlen, ?_, ?_⟩
      · obtain ⟨t, rfl⟩ := hh
        rw [i4, List.take_append_of_le_length (by omega)]
      · obtain ⟨t, rfl⟩ := he
        rw [i5, List.take_append_of_le_length (by omega)]
    · split at hu
      · simp at hu
      · simp only [Option.some.injEq] at hu
        subst hu
        refine ⟨le_refl _, fun _ => rfl, hlen, ?_, ?_⟩
        · have e : hands' = hands.take c.lastIndex ++ hands'.drop c.lastIndex := by
            obtain ⟨t, rfl⟩ := hh
            rw [← List.take_append_of_le_length (l₂ := t) (by omega : c.lastIndex ≤ hands.length), List.take_append_drop]
          have hl : (hands.take c.lastIndex).length = c.lastIndex := by simp; omega
          have := newPairs_append (fun p q => toDual (relForward p q)) (hands.take c.lastIndex) (hands'.drop c.lastIndex)
          rw [← e, hl] at this
          dsimp only
          rw [hlen, List.take_length, this, i4]
        · have e : eyes' = eyes.take c.lastIndex ++ eyes'.drop c.lastIndex := by
            obtain ⟨t, rfl⟩ := he
            rw [← List.take_append_of_le_length (l₂ := t) (by omega : c.lastIndex ≤ eyes.length), List.take_append_drop]
          have hl : (eyes.take c.lastIndex).length = c.lastIndex := by simp; omega
          have := newPairs_append (fun p q => toDual (relBackward p q)) (eyes.take c.lastIndex) (eyes'.drop c.lastIndex)
          rw [← e, hl] at this
          dsimp only
          rw [List.take_length, this, i5]

/-- **C46** However the lists of poses grew, after a call with at least three poses the calibration holds exactly one
relative pose for every pair of them, on both sides, in the same order. -/
theorem C46_history {c : Calibration} {eyes hands : List (Pose ℝ)} (h : History c eyes hands) (h3 : 3 ≤ eyes.length) :
    EnumeratesPairs hands (fun _ _ => True) (fun p q => toDual (relForward p q)) c.allA ∧
    EnumeratesPairs eyes (fun _ _ => True) (fun p q => toDual (relBackward p q)) c.allB ∧
    c.allA = newPairs (fun p q => toDual (relForward p q)) hands 0 ∧
    c.allB = newPairs (fun p q => toDual (relBackward p q)) eyes 0 := by
  obtain ⟨i1, i2, i3, i4, i5⟩ := history_inv h
  rw [i2 h3, i3, List.take_length] at i4
  rw [i2 h3, List.take_length] at i5
  refine ⟨?_, ?_, i4, i5⟩
  · rw [i4]; simpa using C46_new_pairs (fun p q => toDual (relForward p q)) hands 0
  · rw [i5]; simpa using C46_new_pairs (fun p q => toDual (relBackward p q)) eyes 0

/-- **C46** No such call moves an iterator past the end. -/
theorem C46_no_overrun {c : Calibration} {eyes hands eyes' hands' : List (Pose ℝ)} (h : History c eyes hands) (he : eyes <+: eyes')
    : ∃ c', c.update eyes' hands' = some c' := by
  have h1 := (history_inv h).1
  have h2 := he.length_le
  unfold Calibration.update
  split
  · exact ⟨_, rfl⟩
  · rw [if_neg (by omega)]
    exact ⟨_, rfl⟩

/-- Non-vacuity: a history with a growing list. -/
example (p : Pose ℝ) : ∃ c, History c [p, p, p, p, p] [p, p, p, p, p] ∧ c.lastIndex = 5 := by
  obtain ⟨c1, h1⟩ := C46_no_overrun (eyes' := [p, p, p]) (hands' := [p, p, p]) History.start (by simp)
  have g1 := History.call History.start (by simp) (by simp) rfl h1
  obtain ⟨c2, h2⟩ := C46_no_overrun (eyes' := [p, p, p, p, p]) (hands' := [p, p, p, p, p]) g1 ⟨[p, p], rfl⟩
  have g2 := History.call g1 ⟨[p, p], rfl⟩ ⟨[p, p], rfl⟩ rfl h2
  exact ⟨c2, g2, (history_inv g2).2.1 (by simp)⟩

end Ubitrack.HandEye
