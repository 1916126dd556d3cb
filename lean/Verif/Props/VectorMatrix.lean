import Verif.Model.VectorMatrix
import Verif.Model.Pose
import Verif.Spec.VectorMatrix
import Verif.Props.Blas
import Mathlib.LinearAlgebra.CrossProduct
import Mathlib.LinearAlgebra.Matrix.Determinant.Basic
import Mathlib.Analysis.InnerProductSpace.PiL2

/-!
# Vectors and matrices: order, equality, distance, handedness
-/

namespace Ubitrack.VectorMatrix
open Spec
open scoped Matrix

section order

variable {α : Type*} [LinearOrder α] {n : ℕ}

lemma lessLoop_iff (a b : Vec α n) (l : List (Fin n)) (hl : l.Pairwise (· < ·)) :
    lessLoop a b l = true ↔ ∃ i ∈ l, a i < b i ∧ ∀ j ∈ l, j < i → a j = b j := by
  induction l with
  | nil => simp [lessLoop]
  | cons k l ih =>
    obtain ⟨hk, hl'⟩ := List.pairwise_cons.mp hl
    unfold lessLoop
    split_ifs with h1 h2
    · simp only [true_iff]
      refine ⟨k, List.mem_cons_self, h1, fun j hj hjk => ?_⟩
      rcases List.mem_cons.mp hj with rfl | hj
      · exact absurd hjk (lt_irrefl _)
      · exact absurd (hk j hj) (not_lt.mpr hjk.le)
    · simp only [Bool.false_eq_true, false_iff]
      rintro ⟨i, hi, hlt, hall⟩
      rcases List.mem_cons.mp hi with rfl | hi
      · exact h1 hlt
      · have := hall k List.mem_cons_self (hk i hi)
        rw [this] at h2
        exact lt_irrefl _ h2
    · have he : a k = b k := le_antisymm (not_lt.mp h2) (not_lt.mp h1)
      rw [ih hl']
      constructor
      · rintro ⟨i, hi, hlt, hall⟩
        refine ⟨i, List.mem_cons_of_mem _ hi, hlt, fun j hj hji => ?_⟩
        rcases List.mem_cons.mp hj with rfl | hj
        · exact he
        · exact hall j hj hji
      · rintro ⟨i, hi, hlt, hall⟩
        rcases List.mem_cons.mp hi with rfl | hi
        · exact absurd hlt h1
        · exact ⟨i, hi, hlt, fun j hj => hall j (List.mem_cons_of_mem _ hj)⟩

/-- **C74** A vector is less than another one when it is less in the first component in which they differ. -/
theorem C74_less (a b : Vec α n) : less a b = true ↔ ∃ i, a i < b i ∧ ∀ j < i, a j = b j := by
  unfold less
  rw [lessLoop_iff a b _ (List.pairwise_lt_finRange n)]
  simp

lemma equalLoop_iff (a b : Vec α n) (l : List (Fin n)) : equalLoop a b l = true ↔ ∀ i ∈ l, a i = b i := by
  induction l with
  | nil => simp [equalLoop]
  | cons k l ih =>
    unfold equalLoop
    by_cases h : a k = b k
    · simp [h, ih]
    · simp [h]

/-- **C74** Two vectors compare equal when they are, and so do two matrices. -/
theorem C74_equal (a b : Vec α n) {m : ℕ} (x y : Mat α m n) :
    (equal a b = true ↔ a = b) ∧ (equalMatrix x y (List.finRange m) = true ↔ x = y) := by
  constructor
  · unfold equal
    rw [equalLoop_iff]
    simp [funext_iff]
  · have hrow : ∀ (r : Fin m) (l : List (Fin n)), equalRow x y r l = true ↔ ∀ c ∈ l, x r c = y r c := by
      intro r l
      induction l with
      | nil => simp [equalRow]
      | cons k l ih =>
        unfold equalRow
        by_cases h : x r k = y r k
        · simp [h, ih]
        · simp [h]
    have hmat : ∀ l : List (Fin m), equalMatrix x y l = true ↔ ∀ r ∈ l, x r = y r := by
      intro l
      induction l with
      | nil => simp [equalMatrix]
      | cons k l ih =>
        unfold equalMatrix
        have h1 := hrow k (List.finRange n)
        have h2 : (∀ c ∈ List.finRange n, x k c = y k c) ↔ x k = y k := by simp [funext_iff]
        rw [h2] at h1
        by_cases h : x k = y k
        · rw [if_pos (h1.mpr h), ih]; simp [h]
        · rw [if_neg (fun h' => h (h1.mp h'))]; simp [h]
    rw [hmat]
    exact ⟨fun h => funext fun r => h r (List.mem_finRange r), fun h r _ => congrFun h r⟩

/-- **C74** The comparison is a strict total order that agrees with equality, so vectors can be sorted and used as keys:
exactly one of less, equal and greater holds, and less is transitive. -/
theorem C74_order (a b c : Vec α n) :
    (less a b = true → less b c = true → less a c = true) ∧
    (less a b = true ∧ equal a b = false ∧ less b a = false ∨ less a b = false ∧ equal a b = true ∧ less b a = false ∨
      less a b = false ∧ equal a b = false ∧ less b a = true) := by
  constructor
  · rw [C74_less, C74_less, C74_less]
    rintro ⟨i, hi, hi'⟩ ⟨j, hj, hj'⟩
    rcases lt_trichotomy i j with h | h | h
    · exact ⟨i, hj' i h ▸ hi, fun k hk => (hi' k hk).trans (hj' k (hk.trans h))⟩
    · subst h
      exact ⟨i, hi.trans hj, fun k hk => (hi' k hk).trans (hj' k hk)⟩
    · refine ⟨j, ?_, fun k hk => (hi' k (hk.trans h)).trans (hj' k hk)⟩
      rw [hi' j h]
      exact hj
  · have hne : ∀ x y : Vec α n, less x y = true → ¬ less y x = true ∧ x ≠ y := by
      intro x y h
      obtain ⟨i, hi, hi'⟩ := (C74_less x y).mp h
      refine ⟨fun h2 => ?_, fun h2 => by rw [h2] at hi; exact lt_irrefl _ hi⟩
      obtain ⟨j, hj, hj'⟩ := (C74_less y x).mp h2
      rcases lt_trichotomy i j with h | h | h
      · rw [hj' i h] at hi; exact lt_irrefl _ hi
      · subst h; exact lt_asymm hi hj
      · rw [hi' j h] at hj; exact lt_irrefl _ hj
    have heq : ∀ x y : Vec α n, equal x y = true ↔ x = y := fun x y => (C74_equal x y (m := 1) (fun _ => x) fun _ => x).1
    by_cases h : a = b
    · right; left
      refine ⟨?_, (heq a b).mpr h, ?_⟩
      · by_contra h'
        exact (hne a b (by simpa using h')).2 h
      · by_contra h'
        exact (hne b a (by simpa using h')).2 h.symm
    · have he : equal a b = false := by
        by_contra h'
        exact h ((heq a b).mp (by simpa using h'))
      -- the first difference
      have hex : ∃ i, a i ≠ b i := by
        by_contra h'
        push Not at h'
        exact h (funext h')
      obtain ⟨i, hi, hmin⟩ : ∃ i, a i ≠ b i ∧ ∀ j < i, a j = b j := by
        have hwf := WellFounded.has_min (wellFounded_lt (α := Fin n)) {i | a i ≠ b i} hex
        obtain ⟨i, hi, hmin⟩ := hwf
        exact ⟨i, hi, fun j hj => by_contra fun h' => hmin j h' hj⟩
      rcases lt_or_gt_of_ne hi with h1 | h1
      · left
        have h2 := (C74_less a b).mpr ⟨i, h1, hmin⟩
        exact ⟨h2, he, by simpa using (hne a b h2).1⟩
      · right; right
        have h2 := (C74_less b a).mpr ⟨i, h1, fun j hj => (hmin j hj).symm⟩
        exact ⟨by simpa using (hne b a h2).1, he, h2⟩

end order

/-- **C74** (refuted for floating point) With a component that is not a number the comparison has a cycle, so it orders nothing:
containers sorted by it may lose elements. -/
theorem C74_nan_refuted : ∃ a b c : Vec MaybeNumber 2, less a b = true ∧ less b c = true ∧ less c a = true := by
  have h : ∀ x y : ℝ, (MaybeNumber.num x < MaybeNumber.num y) ↔ x < y := fun x y => Iff.rfl
  have h1 : ∀ y, ¬ (MaybeNumber.nan < y) := fun y h => h.elim
  have h2 : ∀ x, ¬ (x < MaybeNumber.nan) := fun x h => by cases x <;> exact h.elim
  refine ⟨![.num 2, .num 0], ![.nan, .num 1], ![.num 1, .num 2], ?_, ?_, ?_⟩
  · simp [less, lessLoop, List.finRange_succ, h, h1, h2]
  · simp [less, lessLoop, List.finRange_succ, h, h1, h2]
  · simp [less, lessLoop, List.finRange_succ, h, h1, h2]

/-- **C74** (refuted for integral element types) Halfway between two vectors is the zero vector, whatever the vectors are: the
weights are rounded to zero before they are used. -/
theorem C74_interpolate_int_refuted {n : ℕ} (x y : Vec ℤ n) (t : ℝ) (h0 : 0 < t) (h1 : t < 1) : linearInterpolateInt x y t = 0 := by
  have e1 : truncate t = 0 := by
    unfold truncate
    rw [if_pos h0.le, Int.floor_eq_zero_iff]
    exact ⟨h0.le, h1⟩
  have e2 : truncate (1 - t) = 0 := by
    unfold truncate
    rw [if_pos (by linarith), Int.floor_eq_zero_iff]
    exact ⟨by linarith, by linarith⟩
  funext i
  simp [linearInterpolateInt, e1, e2]

/-- **C74** For real element types the interpolation runs at constant speed from the first vector to the second. -/
theorem C74_interpolate {n : ℕ} (x y : Vec ℝ n) (s t : ℝ) :
    Vec.linearInterpolate x y 0 = x ∧ Vec.linearInterpolate x y 1 = y ∧
    Vec.linearInterpolate x y s - Vec.linearInterpolate x y t = (s - t) • (y - x) := by
  refine ⟨?_, ?_, ?_⟩ <;> funext i <;> simp [Vec.linearInterpolate]
  ring

section distance

variable {n : ℕ}

lemma holds_entries (v : Vec ℝ n) : HoldsVec (entries v) v := fun i => by simp [entries]

lemma length_eq (v : Vec ℝ n) : length v = ‖(WithLp.toLp 2 v : EuclideanSpace ℝ (Fin n))‖ := by
  obtain ⟨h1, h2, _⟩ := Blas.C49_norm_2 (entries v) v (holds_entries v)
  rw [EuclideanSpace.norm_eq]
  simp only [Real.norm_eq_abs, sq_abs]
  rw [← h2, Real.sqrt_sq h1]
  rfl

/-- **C74** The distance is a metric, for every dimension; the squared distance is its square. -/
theorem C74_distance (a b c : Vec ℝ n) :
    0 ≤ distance a b ∧ (distance a b = 0 ↔ a = b) ∧ distance a b = distance b a ∧ distance a c ≤ distance a b + distance b c ∧
    squaredDistance a b = distance a b ^ 2 ∧ squaredDistance a b = ∑ i, (a i - b i) ^ 2 := by
  have hd : ∀ x y : Vec ℝ n, distance x y = dist (WithLp.toLp 2 x : EuclideanSpace ℝ (Fin n)) (WithLp.toLp 2 y) := by
    intro x y
    rw [distance, length_eq, dist_eq_norm]
    rfl
  have hs : squaredDistance a b = ∑ i, (a i - b i) ^ 2 := by
    unfold squaredDistance
    rw [Blas.C49_inner_fixed _ _ _ _ (holds_entries (a - b)) (holds_entries (a - b))]
    exact Finset.sum_congr rfl fun i _ => by rw [Pi.sub_apply, sq]
  refine ⟨by rw [hd]; exact dist_nonneg, ?_, ?_, ?_, ?_, hs⟩
  · rw [hd, dist_eq_zero]
    exact (WithLp.toLp_injective 2).eq_iff
  · rw [hd, hd, dist_comm]
  · rw [hd, hd, hd]; exact dist_triangle _ _ _
  · rw [hs]
    have := (Blas.C49_norm_2 (entries (a - b)) (a - b) (holds_entries _)).2.1
    exact this.symm

/-- **C74** Normalising fails for the zero vector only; otherwise the result has length one and the direction of the vector. -/
theorem C74_normalize (v : Vec ℝ n) :
    (normalize v = none ↔ v = 0) ∧ ∀ w ∈ normalize v, length w = 1 ∧ v = length v • w ∧ 0 < length v := by
  have h0 : length v = 0 ↔ v = 0 := by
    rw [length_eq, norm_eq_zero]
    exact ⟨fun h => by simpa using congrArg WithLp.ofLp h, fun h => by rw [h]; rfl⟩
  have hn : 0 ≤ length v := by rw [length_eq]; exact norm_nonneg _
  unfold normalize
  constructor
  · simp only []
    split_ifs with h
    · simp [h0.mp h]
    · simpa using fun h' => h (h0.mpr h')
  · intro w hw
    simp only [] at hw
    split_ifs at hw with h
    · simp at hw
    · have hpos : 0 < length v := lt_of_le_of_ne hn (Ne.symm h)
      have hw' : (fun i => v i / length v) = w := by simpa using hw
      have e : w = (length v)⁻¹ • v := by
        rw [← hw']
        funext i
        rw [Pi.smul_apply, smul_eq_mul, div_eq_inv_mul]
      refine ⟨?_, ?_, hpos⟩
      · rw [e, length_eq]
        have : (WithLp.toLp 2 ((length v)⁻¹ • v) : EuclideanSpace ℝ (Fin n)) = (length v)⁻¹ • WithLp.toLp 2 v := rfl
        rw [this, norm_smul, ← length_eq, Real.norm_eq_abs, abs_of_pos (by positivity), inv_mul_cancel₀ h]
      · rw [e, smul_smul, mul_inv_cancel₀ h, one_smul]

end distance

/-- **C74** The cross product is the cross product: perpendicular to both vectors, and as long as the area they span. -/
theorem C74_cross (a b : Vec ℝ 3) :
    crossProductOf a b = crossProduct a b ∧ a ⬝ᵥ crossProductOf a b = 0 ∧ b ⬝ᵥ crossProductOf a b = 0 ∧
    crossProductOf a b ⬝ᵥ crossProductOf a b = (a ⬝ᵥ a) * (b ⬝ᵥ b) - (a ⬝ᵥ b) ^ 2 := by
  refine ⟨by rw [cross_apply]; rfl, ?_, ?_, ?_⟩ <;>
    simp [crossProductOf, dotProduct, Fin.sum_univ_three] <;> ring

/-- **C74** The conversion between left-handed and right-handed coordinates: the new matrix moves the mirrored point to the
mirror image of where the old one moves the point. -/
theorem C74_handedness (m : Mat ℝ 4 4) (x : Vec ℝ 4) : leftHandToRightHand m *ᵥ mirrored x = mirrored (m *ᵥ x) := by
  ext i
  fin_cases i <;>
    simp [leftHandToRightHand, negateEntry, mirrored, Matrix.mulVec, dotProduct, Fin.sum_univ_four]
  ring

lemma mirrored_mirrored (x : Vec ℝ 4) : mirrored (mirrored x) = x := by
  ext i
  fin_cases i <;> simp [mirrored]

lemma leftHand_unique (m m' : Mat ℝ 4 4) (h : ∀ x, m' *ᵥ mirrored x = mirrored (m *ᵥ x)) : m' = leftHandToRightHand m := by
  have h2 : ∀ x, m' *ᵥ x = leftHandToRightHand m *ᵥ x := fun x => by
    have h3 := h (mirrored x)
    have h4 := C74_handedness m (mirrored x)
    rw [mirrored_mirrored] at h3 h4
    rw [h3, h4]
  ext i j
  have := congrFun (h2 (Pi.single j 1)) i
  simpa using this

/-- **C74** The conversion is compatible with products and undoes itself. -/
theorem C74_handedness_product (a b : Mat ℝ 4 4) :
    leftHandToRightHand (a * b) = leftHandToRightHand a * leftHandToRightHand b ∧
    leftHandToRightHand (leftHandToRightHand a) = a ∧ leftHandToRightHand 1 = 1 := by
  refine ⟨(leftHand_unique _ _ fun x => ?_).symm, (leftHand_unique _ _ fun x => ?_).symm, (leftHand_unique _ _ fun x => ?_).symm⟩
  · rw [← Matrix.mulVec_mulVec, C74_handedness, C74_handedness, Matrix.mulVec_mulVec]
  · have := C74_handedness a (mirrored x)
    rw [mirrored_mirrored] at this
    rw [this, mirrored_mirrored]
  · rw [Matrix.one_mulVec, Matrix.one_mulVec]

/-- **C74** A matrix built from the array its elements are written to is the matrix. -/
theorem C74_row_major {α : Type*} [Inhabited α] {m n : ℕ} (a : Mat α m n) : fromArray (fun k => (serialize a).getD k default) = a := by
  have key : ∀ (l : List (Fin m)) (i : ℕ) (hi : i < l.length) (j : Fin n),
      (l.flatMap fun i => (List.finRange n).map fun j => a i j).getD (i * n + j.val) default = a l[i] j := by
    intro l
    induction l with
    | nil => intro i hi; simp at hi
    | cons k l ih =>
      intro i hi j
      rw [List.flatMap_cons]
      have hlen : ((List.finRange n).map fun j => a k j).length = n := by simp
      rcases i with _ | i
      · rw [Nat.zero_mul, Nat.zero_add, List.getD_eq_getElem?_getD, List.getElem?_append_left (by rw [hlen]; exact j.isLt)]
        simp
      · rw [List.getD_eq_getElem?_getD, List.getElem?_append_right (by rw [hlen]; nlinarith [j.isLt]), hlen, ← List.getD_eq_getElem?_getD]
        have : (i + 1) * n + j.val - n = i * n + j.val := by
          rw [Nat.add_mul, Nat.one_mul]; omega
        rw [this, ih i (by simpa using hi)]
        simp
  ext i j
  have := key (List.finRange m) i.val (by simp) j
  simpa [fromArray, serialize] using this

/-- Some values. -/
example : less (![1, 5] : Vec ℝ 2) ![2, 0] = true ∧ less (![2, 0] : Vec ℝ 2) ![1, 5] = false ∧
    leftHandToRightHand 1 = 1 ∧ normalize (![3, 4] : Vec ℝ 2) ≠ none := by
  refine ⟨by rw [C74_less]; exact ⟨0, by norm_num, fun j hj => by simp at hj⟩, ?_, (C74_handedness_product 1 1).2.2, ?_⟩
  · rw [Bool.eq_false_iff, Ne, C74_less]
    rintro ⟨i, hi, hall⟩
    fin_cases i
    · norm_num at hi
    · have := hall 0 (by simp)
      norm_num at this
  · rw [Ne, (C74_normalize _).1]
    intro h
    have := congrFun h 0
    norm_num at this

end Ubitrack.VectorMatrix
