import Verif.Model.Conic
import Verif.Spec.Conic
import Mathlib.Tactic.FieldSimp
import Mathlib.Tactic.LinearCombination
import Mathlib.Analysis.SpecialFunctions.Trigonometric.Arctan
import Mathlib.Analysis.Complex.Trigonometric
import Mathlib.MeasureTheory.Measure.Lebesgue.VolumeOfBalls
import Mathlib.MeasureTheory.Measure.Lebesgue.Complex

/-!
# C34: conics
-/

namespace Ubitrack.Conic

open Spec
open scoped Matrix

section Field
variable {K : Type*} [Field K]

/-- The matrix of a conic is symmetric and gives the polynomial as `(x, y, 1) M (x, y, 1)ᵀ`. -/
theorem C34_matrix (h2 : (2 : K) ≠ 0) (v : Vec K 6) (x y : K) :
    (toMatrix v).IsSymm ∧ ![x, y, 1] ⬝ᵥ (toMatrix v).mulVec ![x, y, 1] = conicAt v x y := by
  constructor
  · ext i j
    fin_cases i <;> fin_cases j <;> simp [toMatrix]
  · simp [toMatrix, conicAt, dotProduct, Matrix.mulVec, Fin.sum_univ_three]
    field_simp
    ring

/-- Coefficients to matrix and back, and back again for symmetric matrices. -/
theorem C34_roundtrip (h2 : (2 : K) ≠ 0) (v : Vec K 6) (M : Mat K 3 3) (hM : M.IsSymm) :
    fromMatrix (toMatrix v) = v ∧ toMatrix (fromMatrix M) = M := by
  constructor
  · funext i
    fin_cases i <;> simp [fromMatrix, toMatrix] <;> field_simp <;> ring
  · have h := fun i j => hM.apply i j
    ext i j
    fin_cases i <;> fin_cases j <;> simp [fromMatrix, toMatrix] <;> field_simp
    · linear_combination h 0 1
    · linear_combination h 0 2
    · linear_combination h 1 0
    · linear_combination h 1 2
    · linear_combination h 2 0
    · linear_combination h 2 1

/-- The value at a pixel is the polynomial. -/
theorem C34_pixel (h2 : (2 : K) ≠ 0) (v : Vec K 6) (p : Vec K 2) : pixel v p = conicAt v (p 0) (p 1) := by
  simp only [pixel, conicAt]
  field_simp
  ring

/-- The determinant is that of the matrix. -/
theorem C34_determinant (h2 : (2 : K) ≠ 0) (v : Vec K 6) : determinant v = (toMatrix v).det := by
  rw [Matrix.det_fin_three]
  simp [determinant, toMatrix]
  have h4 : (4 : K) = 2 * 2 := by norm_num
  rw [h4]
  field_simp
  ring

theorem inverseDenominator_eq (h2 : (2 : K) ≠ 0) (v : Vec K 6) : inverseDenominator v = -4 * determinant v := by
  simp only [inverseDenominator, determinant]
  have h4 : (4 : K) = 2 * 2 := by norm_num
  rw [h4]
  field_simp
  ring

/-- The inverse conic has the inverse matrix; it is undefined exactly for degenerate conics. -/
theorem C34_inverse [DecidableEq K] (h2 : (2 : K) ≠ 0) (v : Vec K 6) :
    (inverse v = none ↔ (toMatrix v).det = 0) ∧ ∀ w, inverse v = some w → toMatrix w * toMatrix v = 1 ∧ toMatrix v * toMatrix w = 1 := by
  have h4 : (4 : K) ≠ 0 := by
    have : (4 : K) = 2 * 2 := by norm_num
    rw [this]
    exact mul_ne_zero h2 h2
  rw [← C34_determinant h2]
  constructor
  · simp only [inverse, inverseDenominator_eq h2]
    split_ifs with h
    · simpa [h4] using h
    · simpa [h4] using h
  · intro w hw
    simp only [inverse] at hw
    split_ifs at hw with h
    simp only [Option.some.injEq] at hw
    have key : toMatrix w * toMatrix v = 1 := by
      rw [← hw]
      have ht : inverseDenominator v * (1 / inverseDenominator v) = 1 := mul_one_div_cancel h
      generalize 1 / inverseDenominator v = t at ht
      simp only [inverseDenominator] at ht
      ext i j
      fin_cases i <;> fin_cases j <;> simp [toMatrix, Matrix.mul_apply, Fin.sum_univ_three] <;> field_simp <;>
        first | ring1 | linear_combination ht | linear_combination 2 * ht
    exact ⟨key, mul_eq_one_comm.mp key⟩

/-- Translating a conic translates its points, and only them. -/
theorem C34_translate (h2 : (2 : K) ≠ 0) (t : Vec K 2) (v : Vec K 6) (x y : K) :
    conicAt (translate t v) (x + t 0) (y + t 1) = conicAt v x y ∧ (OnConic (translate t v) x y ↔ OnConic v (x - t 0) (y - t 1)) := by
  have key : ∀ x y, conicAt (translate t v) x y = conicAt v (x - t 0) (y - t 1) := by
    intro x y
    simp [translate, conicAt]
    field_simp
    ring
  refine ⟨?_, ?_⟩
  · rw [key]
    congr 1 <;> ring
  · unfold OnConic
    rw [key]

/-- Scaling a conic scales its points, and only them; it is undefined exactly for a zero scale. -/
theorem C34_scale [DecidableEq K] (sa sb : K) (v : Vec K 6) :
    (scale sa sb v = none ↔ sa = 0 ∨ sb = 0) ∧
    ∀ w, scale sa sb v = some w → ∀ x y, conicAt w (sa * x) (sb * y) = conicAt v x y ∧ (OnConic w x y ↔ OnConic v (x / sa) (y / sb)) := by
  unfold scale
  split_ifs with h
  · simp [h]
  · refine ⟨by simp [h], ?_⟩
    intro w hw x y
    simp only [not_or] at h
    obtain ⟨ha, hb⟩ := h
    simp only [Option.some.injEq] at hw
    have key : ∀ x y, conicAt w x y = conicAt v (x / sa) (y / sb) := by
      intro x y
      rw [← hw]
      simp [conicAt]
      field_simp
    refine ⟨?_, ?_⟩
    · rw [key]
      congr 1 <;> field_simp
    · unfold OnConic
      rw [key]

/-- Flipping a conic in an image of the given height exchanges rows `0` and `height - 1`. -/
theorem C34_flip (h2 : (2 : K) ≠ 0) (height : K) (v : Vec K 6) (x y : K) :
    conicAt (flipHorizontal height v) x (height - 1 - y) = conicAt v x y ∧
    (OnConic (flipHorizontal height v) x y ↔ OnConic v x (height - 1 - y)) ∧
    flipHorizontal height (flipHorizontal height v) = v := by
  have key : ∀ x y, conicAt (flipHorizontal height v) x y = conicAt v x (height - 1 - y) := by
    intro x y
    simp [flipHorizontal, conicAt]
    field_simp
    ring
  refine ⟨?_, ?_, ?_⟩
  · rw [key]
    congr 1
    ring
  · unfold OnConic
    rw [key]
  · funext i
    fin_cases i <;> simp [flipHorizontal] <;> field_simp <;> ring

/-- The centre is the only stationary point of the polynomial, and the conic is symmetric about it. -/
theorem C34_center [DecidableEq K] (h2 : (2 : K) ≠ 0) (v : Vec K 6) (p : Vec K 2) (h : center v = .point p) :
    gradient v (p 0) (p 1) = (0, 0) ∧ (∀ x y, gradient v x y = (0, 0) → x = p 0 ∧ y = p 1) ∧
    ∀ x y, OnConic v (p 0 + x) (p 1 + y) ↔ OnConic v (p 0 - x) (p 1 - y) := by
  simp only [center] at h
  split_ifs at h with h0 h1
  simp only [Center.point.injEq] at h
  have hg : gradient v (p 0) (p 1) = (0, 0) := by
    rw [← h]
    simp only [gradient, Prod.mk.injEq, Matrix.cons_val_zero, Matrix.cons_val_one]
    have ht : (v 1 / 2 * (v 1 / 2) - v 0 * v 2) * (1 / (v 1 / 2 * (v 1 / 2) - v 0 * v 2)) = 1 := mul_one_div_cancel h0
    generalize 1 / (v 1 / 2 * (v 1 / 2) - v 0 * v 2) = t at ht
    have e1 : v 1 = 2 * (v 1 / 2) := by field_simp
    have e3 : v 3 = 2 * (v 3 / 2) := by field_simp
    have e4 : v 4 = 2 * (v 4 / 2) := by field_simp
    generalize v 1 / 2 = b at ht e1 ⊢
    generalize v 3 / 2 = d at ht e3 ⊢
    generalize v 4 / 2 = e at ht e4 ⊢
    constructor
    · linear_combination -2 * d * ht + (v 0 * e - b * d) * t * e1 + e3
    · linear_combination -2 * e * ht + (v 2 * d - b * e) * t * e1 + e4
  have hg1 : 2 * v 0 * p 0 + v 1 * p 1 + v 3 = 0 := congrArg Prod.fst hg
  have hg2 : v 1 * p 0 + 2 * v 2 * p 1 + v 4 = 0 := congrArg Prod.snd hg
  refine ⟨hg, ?_, ?_⟩
  · intro x y hxy
    have hx1 : 2 * v 0 * x + v 1 * y + v 3 = 0 := congrArg Prod.fst hxy
    have hx2 : v 1 * x + 2 * v 2 * y + v 4 = 0 := congrArg Prod.snd hxy
    have e4 : (v 1 / 2 * (v 1 / 2) - v 0 * v 2) * (2 * 2) = v 1 * v 1 - 2 * v 0 * (2 * v 2) := by
      field_simp
    have hd : v 1 * v 1 - 2 * v 0 * (2 * v 2) ≠ 0 := by
      rw [← e4]
      exact mul_ne_zero h0 (mul_ne_zero h2 h2)
    constructor
    · apply mul_left_cancel₀ hd
      linear_combination v 1 * (hx2 - hg2) - 2 * v 2 * (hx1 - hg1)
    · apply mul_left_cancel₀ hd
      linear_combination v 1 * (hx1 - hg1) - 2 * v 0 * (hx2 - hg2)
  · intro x y
    have : conicAt v (p 0 + x) (p 1 + y) = conicAt v (p 0 - x) (p 1 - y) := by
      simp only [conicAt]
      linear_combination 2 * x * hg1 + 2 * y * hg2
    unfold OnConic
    rw [this]

/-- For a parabola the documented exception is not thrown: the check comes after the division. -/
theorem C34_center_refuted : center (![1, 0, 0, 0, 1, 0] : Vec ℚ 6) = .infinite ∧ ∀ v : Vec ℚ 6, center v ≠ .throws := by
  constructor
  · simp [center]
  · intro v h
    simp only [center] at h
    split_ifs at h with h0 h1
    simp at h1
    exact h0 h1

end Field

/-! ## Limits and intersections -/

theorem ordered_le (x y : ℝ) : ordered x y 0 ≤ ordered x y 1 ∧
    ((ordered x y 0 = x ∧ ordered x y 1 = y) ∨ (ordered x y 0 = y ∧ ordered x y 1 = x)) := by
  unfold ordered
  split_ifs with h
  · exact ⟨h.le, Or.inl ⟨rfl, rfl⟩⟩
  · exact ⟨not_lt.mp h, Or.inr ⟨rfl, rfl⟩⟩

theorem ordered_mem (x y z : ℝ) (h : (z - x) * (z - y) ≤ 0) : ordered x y 0 ≤ z ∧ z ≤ ordered x y 1 := by
  unfold ordered
  split_ifs with hlt
  · constructor
    · show x ≤ z
      nlinarith
    · show z ≤ y
      nlinarith
  · constructor
    · show y ≤ z
      nlinarith
    · show z ≤ x
      nlinarith

/-- Exactly the numbers at which a quadratic polynomial with two roots has the sign opposite to its leading coefficient lie
between them. -/
theorem root_mul (L U T s z : ℝ) (hL : L ≠ 0) (hs : s * s = U * U - 4 * L * T) :
    L * ((z - -(U / (L * 2) + s / (L * 2))) * (z - -(U / (L * 2) - s / (L * 2)))) = L * z ^ 2 + U * z + T := by
  field_simp
  linear_combination -hs

/-- The points of an ellipse have y-coordinates between the two limits, and the limits are reached. -/
theorem C34_upper_lower (v : Vec ℝ 6) (hv : isEllipse v) (l : Vec ℝ 2) (h : upperLowerLimit v = some l) :
    (∀ x y, OnConic v x y → l 0 ≤ y ∧ y ≤ l 1) ∧ ∀ i, ∃ x, OnConic v x (l i) := by
  unfold isEllipse at hv
  simp only [upperLowerLimit] at h
  split_ifs at h with h0 h1
  simp only [Option.some.injEq] at h
  have ha : v 0 ≠ 0 := by
    intro ha
    rw [ha] at hv
    nlinarith [mul_self_nonneg (v 1)]
  set L := 4 * (v 1 / 2 * (v 1 / 2) - v 0 * v 2) with hL
  set U := 8 * (v 1 / 2 * (v 3 / 2) - v 0 * (v 4 / 2)) with hU
  set T := 4 * (v 3 / 2 * (v 3 / 2) - v 0 * v 5) with hT
  have hL0 : L < 0 := by
    rw [hL]
    nlinarith
  have hs := Real.mul_self_sqrt (not_lt.mp h0)
  set s := Real.sqrt (U * U - 4 * L * T) with hsdef
  have hroot := fun z => root_mul L U T s z hL0.ne hs
  have hkey : ∀ x y, L * y ^ 2 + U * y + T = (2 * v 0 * x + v 1 * y + v 3) ^ 2 - 4 * v 0 * conicAt v x y := by
    intro x y
    rw [hL, hU, hT]
    simp only [conicAt]
    ring
  rw [← h]
  refine ⟨fun x y hxy => ordered_mem _ _ _ ?_, ?_⟩
  · have h1 := hroot y
    rw [hkey x y, hxy, mul_zero, sub_zero] at h1
    nlinarith [sq_nonneg (2 * v 0 * x + v 1 * y + v 3)]
  · have hreach : ∀ z, L * z ^ 2 + U * z + T = 0 → ∃ x, OnConic v x z := by
      intro z hz
      refine ⟨-(v 1 * z + v 3) / (2 * v 0), ?_⟩
      rw [hkey (-(v 1 * z + v 3) / (2 * v 0)) z] at hz
      have : 2 * v 0 * (-(v 1 * z + v 3) / (2 * v 0)) + v 1 * z + v 3 = 0 := by
        field_simp
        ring
      rw [this] at hz
      have h4 : 4 * v 0 * conicAt v (-(v 1 * z + v 3) / (2 * v 0)) z = 0 := by linarith
      exact (mul_eq_zero.mp h4).resolve_left (mul_ne_zero (by norm_num) ha)
    have hr1 := hreach (-(U / (L * 2) + s / (L * 2))) (by rw [← hroot]; simp)
    have hr2 := hreach (-(U / (L * 2) - s / (L * 2))) (by rw [← hroot]; simp)
    have hord := (ordered_le (-(U / (L * 2) + s / (L * 2))) (-(U / (L * 2) - s / (L * 2)))).2
    intro i
    rcases hord with ⟨e0, e1⟩ | ⟨e0, e1⟩ <;> fin_cases i
    · rw [show ordered _ _ ((fun i => i) ⟨0, by omega⟩ : Fin 2) = _ from e0]
      exact hr1
    · rw [show ordered _ _ ((fun i => i) ⟨1, by omega⟩ : Fin 2) = _ from e1]
      exact hr2
    · rw [show ordered _ _ ((fun i => i) ⟨0, by omega⟩ : Fin 2) = _ from e0]
      exact hr2
    · rw [show ordered _ _ ((fun i => i) ⟨1, by omega⟩ : Fin 2) = _ from e1]
      exact hr1

/-- An ellipse with a point on it has limits. -/
theorem C34_upper_lower_exists (v : Vec ℝ 6) (hv : isEllipse v) (x y : ℝ) (h : OnConic v x y) : ∃ l, upperLowerLimit v = some l := by
  unfold isEllipse at hv
  simp only [upperLowerLimit]
  rw [if_neg, if_neg]
  · exact ⟨_, rfl⟩
  · nlinarith
  · rw [not_lt]
    have hL0 : 4 * (v 1 / 2 * (v 1 / 2) - v 0 * v 2) < 0 := by nlinarith
    have hkey : (2 * (4 * (v 1 / 2 * (v 1 / 2) - v 0 * v 2)) * y + 8 * (v 1 / 2 * (v 3 / 2) - v 0 * (v 4 / 2))) ^ 2
        - 4 * (4 * (v 1 / 2 * (v 1 / 2) - v 0 * v 2)) * ((2 * v 0 * x + v 1 * y + v 3) ^ 2 - 4 * v 0 * conicAt v x y)
        = 8 * (v 1 / 2 * (v 3 / 2) - v 0 * (v 4 / 2)) * (8 * (v 1 / 2 * (v 3 / 2) - v 0 * (v 4 / 2)))
          - 4 * (4 * (v 1 / 2 * (v 1 / 2) - v 0 * v 2)) * (4 * (v 3 / 2 * (v 3 / 2) - v 0 * v 5)) := by
      simp only [conicAt]
      ring
    rw [← hkey, h]
    nlinarith [sq_nonneg (2 * v 0 * x + v 1 * y + v 3), sq_nonneg (2 * (4 * (v 1 / 2 * (v 1 / 2) - v 0 * v 2)) * y + 8 * (v 1 / 2 * (v 3 / 2) - v 0 * (v 4 / 2)))]

/-- The points of an ellipse have x-coordinates between the two limits, and the limits are reached. -/
theorem C34_left_right (v : Vec ℝ 6) (hv : isEllipse v) (l : Vec ℝ 2) (h : leftRightLimit v = some l) :
    (∀ x y, OnConic v x y → l 0 ≤ x ∧ x ≤ l 1) ∧ ∀ i, ∃ y, OnConic v (l i) y := by
  unfold isEllipse at hv
  simp only [leftRightLimit] at h
  split_ifs at h with h0 h1
  simp only [Option.some.injEq] at h
  rw [not_or] at h0
  obtain ⟨hc, hD⟩ := h0
  have hDpos : 0 < v 0 * v 2 - v 1 / 2 * (v 1 / 2) := by nlinarith
  have hs := Real.mul_self_sqrt (not_lt.mp h1)
  set s := Real.sqrt _ with hsdef
  have hs' : v 2 * (s * s) = v 0 * (v 4 / 2 * (v 4 / 2)) + v 2 * (v 3 / 2 * (v 3 / 2)) + v 1 / 2 * (v 1 / 2) * v 5 - v 0 * v 2 * v 5 - v 1 / 2 * (v 3 / 2) * (v 4 / 2) * 2 := by
    rw [hs]
    field_simp
  set x1 := (v 1 / 2 * (v 4 / 2) - v 2 * (v 3 / 2) + v 2 * s) / (v 0 * v 2 - v 1 / 2 * (v 1 / 2)) with hx1
  set x2 := -(-(v 1 / 2) * (v 4 / 2) + v 2 * (v 3 / 2) + v 2 * s) / (v 0 * v 2 - v 1 / 2 * (v 1 / 2)) with hx2
  have e1 : (v 0 * v 2 - v 1 / 2 * (v 1 / 2)) * x1 = v 1 / 2 * (v 4 / 2) - v 2 * (v 3 / 2) + v 2 * s := by
    rw [hx1, mul_div_assoc', mul_div_cancel_left₀ _ hD]
  have e2 : (v 0 * v 2 - v 1 / 2 * (v 1 / 2)) * x2 = -(-(v 1 / 2) * (v 4 / 2) + v 2 * (v 3 / 2) + v 2 * s) := by
    rw [hx2, mul_div_assoc', mul_div_cancel_left₀ _ hD]
  have hkey : ∀ x y, -4 * (v 0 * v 2 - v 1 / 2 * (v 1 / 2)) ^ 2 * ((x - x1) * (x - x2))
      = (v 0 * v 2 - v 1 / 2 * (v 1 / 2)) * ((2 * v 2 * y + v 1 * x + v 4) ^ 2 - 4 * v 2 * conicAt v x y) := by
    intro x y
    have : (v 0 * v 2 - v 1 / 2 * (v 1 / 2)) ^ 2 * ((x - x1) * (x - x2))
        = ((v 0 * v 2 - v 1 / 2 * (v 1 / 2)) * x - (v 0 * v 2 - v 1 / 2 * (v 1 / 2)) * x1) * ((v 0 * v 2 - v 1 / 2 * (v 1 / 2)) * x - (v 0 * v 2 - v 1 / 2 * (v 1 / 2)) * x2) := by
      ring
    rw [mul_assoc, this, e1, e2]
    simp only [conicAt]
    linear_combination 4 * v 2 * hs'
  rw [← h]
  refine ⟨fun x y hxy => ordered_mem _ _ _ ?_, ?_⟩
  · have h1 := hkey x y
    rw [hxy, mul_zero, sub_zero] at h1
    have h2 : 0 ≤ (v 0 * v 2 - v 1 / 2 * (v 1 / 2)) * (2 * v 2 * y + v 1 * x + v 4) ^ 2 := mul_nonneg hDpos.le (sq_nonneg _)
    have h3 : 0 < (v 0 * v 2 - v 1 / 2 * (v 1 / 2)) ^ 2 := by positivity
    by_contra hcon
    rw [not_le] at hcon
    have := mul_pos h3 hcon
    nlinarith
  · have hreach : ∀ z, (z - x1) * (z - x2) = 0 → ∃ y, OnConic v z y := by
      intro z hz
      refine ⟨-(v 1 * z + v 4) / (2 * v 2), ?_⟩
      have hk := hkey z (-(v 1 * z + v 4) / (2 * v 2))
      have : 2 * v 2 * (-(v 1 * z + v 4) / (2 * v 2)) + v 1 * z + v 4 = 0 := by
        field_simp
        ring
      rw [this, hz] at hk
      have h4 : (v 0 * v 2 - v 1 / 2 * (v 1 / 2)) * (4 * v 2 * conicAt v z (-(v 1 * z + v 4) / (2 * v 2))) = 0 := by linarith
      exact (mul_eq_zero.mp ((mul_eq_zero.mp h4).resolve_left hD)).resolve_left (mul_ne_zero (by norm_num) hc)
    have hr1 := hreach x1 (by simp)
    have hr2 := hreach x2 (by simp)
    have hord := (ordered_le x1 x2).2
    intro i
    rcases hord with ⟨e0, e1⟩ | ⟨e0, e1⟩ <;> fin_cases i
    · rw [show ordered _ _ ((fun i => i) ⟨0, by omega⟩ : Fin 2) = _ from e0]
      exact hr1
    · rw [show ordered _ _ ((fun i => i) ⟨1, by omega⟩ : Fin 2) = _ from e1]
      exact hr2
    · rw [show ordered _ _ ((fun i => i) ⟨0, by omega⟩ : Fin 2) = _ from e0]
      exact hr2
    · rw [show ordered _ _ ((fun i => i) ⟨1, by omega⟩ : Fin 2) = _ from e1]
      exact hr1

/-- The intersections with a row are exactly the points of the conic on it. -/
theorem C34_intersection (v : Vec ℝ 6) (y : ℝ) (l : Vec ℝ 2) (h : horizontalIntersection v y = some l) :
    l 0 ≤ l 1 ∧ ∀ x, OnConic v x y ↔ x = l 0 ∨ x = l 1 := by
  simp only [horizontalIntersection] at h
  split_ifs at h with h0
  rw [not_or] at h0
  obtain ⟨ha, h1⟩ := h0
  simp only [Option.some.injEq] at h
  have hs := Real.mul_self_sqrt (not_lt.mp h1)
  set s := Real.sqrt _ with hsdef
  set x1 := (-(v 1 * 0.5 * y + v 3 * 0.5) + s) / v 0 with hx1
  set x2 := (-(v 1 * 0.5 * y + v 3 * 0.5) - s) / v 0 with hx2
  have e1 : v 0 * x1 = -(v 1 * 0.5 * y + v 3 * 0.5) + s := by rw [hx1]; field_simp
  have e2 : v 0 * x2 = -(v 1 * 0.5 * y + v 3 * 0.5) - s := by rw [hx2]; field_simp
  have hkey : ∀ x, v 0 * conicAt v x y = (v 0 * x - v 0 * x1) * (v 0 * x - v 0 * x2) := by
    intro x
    rw [e1, e2]
    simp only [conicAt]
    linear_combination hs
  have hon : ∀ x, OnConic v x y ↔ x = x1 ∨ x = x2 := by
    intro x
    have := hkey x
    unfold OnConic
    constructor
    · intro h0
      rw [h0, mul_zero, ← mul_sub, ← mul_sub] at this
      have h5 : (x - x1) * (x - x2) = 0 := by
        have : v 0 * v 0 * ((x - x1) * (x - x2)) = 0 := by linarith
        simpa [ha] using this
      rcases mul_eq_zero.mp h5 with h6 | h6
      · left; linarith
      · right; linarith
    · intro h0
      have h7 : v 0 * conicAt v x y = 0 := by
        rw [this]
        rcases h0 with rfl | rfl <;> simp
      simpa [ha] using h7
  rw [← h]
  have hord := ordered_le x1 x2
  refine ⟨hord.1, fun x => ?_⟩
  rw [hon]
  rcases hord.2 with ⟨e0, e1⟩ | ⟨e0, e1⟩
  · rw [e0, e1]
  · rw [e0, e1, or_comm]

/-- The intersections are undefined only for conics without a square of x, or if there are none. -/
theorem C34_intersection_none (v : Vec ℝ 6) (y : ℝ) (ha : v 0 ≠ 0) : horizontalIntersection v y = none ↔ ¬ ∃ x, OnConic v x y := by
  constructor
  · intro h
    simp only [horizontalIntersection] at h
    split_ifs at h with h0
    rcases h0 with h0 | h0
    · exact absurd h0 ha
    · rintro ⟨x, hx⟩
      unfold OnConic conicAt at hx
      have : (v 1 * 0.5 * y + v 3 * 0.5) * (v 1 * 0.5 * y + v 3 * 0.5) - v 0 * ((v 2 * y + v 4) * y + v 5)
          = (v 0 * x + (v 1 * 0.5 * y + v 3 * 0.5)) ^ 2 := by
        linear_combination -v 0 * hx
      rw [this] at h0
      exact absurd h0 (not_lt.mpr (sq_nonneg _))
  · intro h
    cases hh : horizontalIntersection v y with
    | none => rfl
    | some l => exact absurd ⟨l 0, ((C34_intersection v y l hh).2 _).mpr (Or.inl rfl)⟩ h

example : ∃ l, upperLowerLimit ![1, 1, 1, 0, 0, -3] = some l :=
  C34_upper_lower_exists _ (by simp [isEllipse]) 1 1 (by simp [OnConic, conicAt]; norm_num)

/-! ## Classification -/

/-- A conic is an ellipse (or a single point, or empty) if it does not extend to infinity in any direction. -/
theorem C34_ellipse (v : Vec ℝ 6) : isEllipse v ↔ ¬ ∃ x y, Asymptotic v x y := by
  unfold isEllipse Asymptotic
  constructor
  · rintro h ⟨x, y, hxy, h0⟩
    have ha : v 0 ≠ 0 := by
      intro ha
      rw [ha] at h
      nlinarith [mul_self_nonneg (v 1)]
    have h1 : (2 * v 0 * x + v 1 * y) ^ 2 + (4 * v 0 * v 2 - v 1 * v 1) * y ^ 2 = 0 := by linear_combination 4 * v 0 * h0
    have hy : y ^ 2 = 0 := by
      have := sq_nonneg (2 * v 0 * x + v 1 * y)
      by_contra hy
      have : 0 < y ^ 2 := lt_of_le_of_ne (sq_nonneg y) (Ne.symm hy)
      nlinarith
    have hy0 : y = 0 := by simpa using hy
    rw [hy0] at h0
    have hx : x = 0 := by
      have : v 0 * x ^ 2 = 0 := by linarith
      simpa [ha] using this
    rcases hxy with h | h
    · exact h hx
    · exact h hy0
  · intro h
    by_contra hn
    rw [not_lt] at hn
    apply h
    by_cases ha : v 0 = 0
    · exact ⟨1, 0, Or.inl one_ne_zero, by rw [ha]; ring⟩
    · have hs := Real.mul_self_sqrt hn
      set s := Real.sqrt (v 1 * v 1 - 4 * v 0 * v 2)
      exact ⟨s - v 1, 2 * v 0, Or.inr (by simpa using ha), by linear_combination v 0 * hs⟩

/-- A conic is a hyperbola (or a pair of crossing lines) if it extends to infinity in exactly two directions. -/
theorem C34_hyperbola (v : Vec ℝ 6) : isHyperbola v ↔
    (∃ x y x' y', Asymptotic v x y ∧ Asymptotic v x' y' ∧ x * y' - x' * y ≠ 0) ∧ ∃ x y : ℝ, (x ≠ 0 ∨ y ≠ 0) ∧ ¬ Asymptotic v x y := by
  unfold isHyperbola Asymptotic
  constructor
  · intro h
    have hs := Real.mul_self_sqrt h.le
    have hpos := Real.sqrt_pos.mpr h
    set s := Real.sqrt (v 1 * v 1 - 4 * v 0 * v 2)
    refine ⟨?_, ?_⟩
    · by_cases ha : v 0 = 0
      · have hb : v 1 ≠ 0 := by
          intro hb
          rw [ha, hb] at h
          norm_num at h
        refine ⟨1, 0, -v 2, v 1, ⟨Or.inl one_ne_zero, by rw [ha]; ring⟩, ⟨Or.inr hb, by rw [ha]; ring⟩, ?_⟩
        simpa using hb
      · refine ⟨s - v 1, 2 * v 0, -s - v 1, 2 * v 0, ⟨Or.inr (by simpa using ha), by linear_combination v 0 * hs⟩,
          ⟨Or.inr (by simpa using ha), by linear_combination v 0 * hs⟩, ?_⟩
        have : (s - v 1) * (2 * v 0) - (-s - v 1) * (2 * v 0) = 4 * (s * v 0) := by ring
        rw [this]
        exact mul_ne_zero (by norm_num) (mul_ne_zero hpos.ne' ha)
    · by_contra hn
      push Not at hn
      have h1 := (hn 1 0 (Or.inl one_ne_zero)).2
      have h2 := (hn 0 1 (Or.inr one_ne_zero)).2
      have h3 := (hn 1 1 (Or.inl one_ne_zero)).2
      have e0 : v 0 = 0 := by linarith
      have e2 : v 2 = 0 := by linarith
      have e1 : v 1 = 0 := by linarith
      rw [e0, e1, e2] at h
      norm_num at h
  · rintro ⟨⟨x, y, x', y', ⟨_, h1⟩, ⟨_, h2⟩, hd⟩, z, w, hzw, hn⟩
    have hn' : v 0 * z ^ 2 + v 1 * (z * w) + v 2 * w ^ 2 ≠ 0 := fun h => hn ⟨hzw, h⟩
    -- the value on `s (x, y) + t (x', y')` is `s t B`
    set B := 2 * v 0 * x * x' + v 1 * (x * y' + x' * y) + 2 * v 2 * y * y' with hB
    have hdisc : (v 1 * v 1 - 4 * v 0 * v 2) * (x * y' - x' * y) ^ 2 = B ^ 2 := by
      rw [hB]
      linear_combination (-4 * (v 0 * x' ^ 2 + v 1 * (x' * y') + v 2 * y' ^ 2)) * h1
    have hB0 : B ≠ 0 := by
      intro hB0
      apply hn'
      have key : (x * y' - x' * y) ^ 2 * (v 0 * z ^ 2 + v 1 * (z * w) + v 2 * w ^ 2)
          = (z * y' - x' * w) ^ 2 * (v 0 * x ^ 2 + v 1 * (x * y) + v 2 * y ^ 2) + (z * y' - x' * w) * (x * w - z * y) * B
            + (x * w - z * y) ^ 2 * (v 0 * x' ^ 2 + v 1 * (x' * y') + v 2 * y' ^ 2) := by
        rw [hB]
        ring
      rw [h1, h2, hB0] at key
      have : (x * y' - x' * y) ^ 2 * (v 0 * z ^ 2 + v 1 * (z * w) + v 2 * w ^ 2) = 0 := by linarith
      exact (mul_eq_zero.mp this).resolve_left (pow_ne_zero 2 hd)
    have hB2 : 0 < B ^ 2 := by positivity
    rw [← hdisc] at hB2
    exact pos_of_mul_pos_left hB2 (sq_nonneg _)

/-- Without tolerance, a conic is recognised as a circle exactly if it is the set of points at some squared distance (negative for
an empty circle) from its centre. -/
theorem C34_circle (v : Vec ℝ 6) : isCircle 0 v ↔
    v 0 ≠ 0 ∧ ∃ (p : Vec ℝ 2) (r : ℝ), ∀ x y, conicAt v x y = v 0 * ((x - p 0) ^ 2 + (y - p 1) ^ 2 - r) := by
  unfold isCircle
  constructor
  · rintro ⟨h1, h2, h3⟩
    have hb : v 1 = 0 := by
      have := not_lt.mp h1
      exact abs_nonpos_iff.mp this
    have hac : v 0 - v 2 = 0 := abs_nonpos_iff.mp (not_lt.mp h2)
    have ha : v 0 ≠ 0 := by
      intro ha
      rw [hb, ha] at h3
      norm_num at h3
    refine ⟨ha, ![-v 3 / (2 * v 0), -v 4 / (2 * v 0)], (v 3 ^ 2 + v 4 ^ 2) / (4 * v 0 ^ 2) - v 5 / v 0, fun x y => ?_⟩
    have h2' : v 2 = v 0 := by linarith
    simp only [conicAt, hb, h2', Matrix.cons_val_zero, Matrix.cons_val_one]
    field_simp
    ring
  · rintro ⟨ha, p, r, h⟩
    have e00 := h 0 0
    have e10 := h 1 0
    have em0 := h (-1) 0
    have e01 := h 0 1
    have e0m := h 0 (-1)
    have e11 := h 1 1
    simp only [conicAt] at e00 e10 em0 e01 e0m e11
    have hb : v 1 = 0 := by linear_combination e11 - e10 - e01 + e00
    have hc : v 2 = v 0 := by linear_combination (e01 + e0m) / 2 - e00
    rw [hb, hc]
    refine ⟨by simp, by simp, ?_⟩
    have : 0 < v 0 * v 0 := mul_self_pos.mpr ha
    nlinarith

example : isCircle 0 ![2, 0, 2, 1, 1, -3] ∧ isHyperbola ![1, 3, 1, 0, 0, 1] := by
  simp [isCircle, isHyperbola]
  norm_num

/-- A conic is recognised as a parabola (or as parallel lines, or as a conic without quadratic part) at every tolerance exactly if it
extends to infinity in a single direction, or in all of them. -/
theorem C34_parabola (v : Vec ℝ 6) : (∀ ε > 0, isParabola ε v) ↔
    (∃ x y, Asymptotic v x y ∧ ∀ x' y', Asymptotic v x' y' → x * y' - x' * y = 0) ∨
      ∀ x y : ℝ, (x ≠ 0 ∨ y ≠ 0) → Asymptotic v x y := by
  have h0 : (∀ ε > 0, isParabola ε v) ↔ ¬ isEllipse v ∧ ¬ isHyperbola v := by
    unfold isParabola isEllipse isHyperbola
    constructor
    · intro h
      have : v 1 * v 1 - 4 * v 0 * v 2 = 0 := by
        by_contra hne
        exact lt_irrefl _ (h _ (abs_pos.mpr hne))
      rw [this]
      simp
    · rintro ⟨h1, h2⟩ ε hε
      rw [le_antisymm (not_lt.mp h2) (not_lt.mp h1), abs_zero]
      exact hε
  rw [h0, C34_ellipse, C34_hyperbola, not_not]
  constructor
  · rintro ⟨⟨x, y, h⟩, h2⟩
    by_cases hall : ∀ x y : ℝ, (x ≠ 0 ∨ y ≠ 0) → Asymptotic v x y
    · exact Or.inr hall
    · refine Or.inl ⟨x, y, h, fun x' y' h' => ?_⟩
      by_contra hne
      refine h2 ⟨⟨x, y, x', y', h, h', hne⟩, ?_⟩
      push Not at hall
      exact hall
  · rintro (⟨x, y, h, h1⟩ | h)
    · refine ⟨⟨x, y, h⟩, ?_⟩
      rintro ⟨⟨a, b, c, d, hab, hcd, hne⟩, -⟩
      have e1 := h1 a b hab
      have e2 := h1 c d hcd
      rcases h.1 with hx | hy
      · apply hne
        refine (mul_eq_zero.mp (?_ : x * (a * d - c * b) = 0)).resolve_left hx
        linear_combination a * e2 - c * e1
      · apply hne
        refine (mul_eq_zero.mp (?_ : y * (a * d - c * b) = 0)).resolve_left hy
        linear_combination b * e2 - d * e1
    · exact ⟨⟨1, 0, h 1 0 (Or.inl one_ne_zero)⟩, fun ⟨_, x, y, hxy, hn⟩ => hn (h x y hxy)⟩

/-- No conic is an ellipse or a hyperbola at every tolerance and a parabola too: the three classes are complete and exclude each other,
and a tolerance only moves conics into the class of the parabolas. -/
theorem C34_classes (v : Vec ℝ 6) (ε : ℝ) (hε : 0 < ε) :
    (isEllipse v ∨ isHyperbola v ∨ isParabola ε v) ∧ ¬ (isEllipse v ∧ isHyperbola v) ∧
      ((isEllipse v ∨ isHyperbola v) ↔ ∃ δ > 0, ¬ isParabola δ v) := by
  unfold isEllipse isHyperbola isParabola
  refine ⟨?_, fun h => lt_asymm h.1 h.2, ?_, ?_⟩
  · rcases lt_trichotomy (v 1 * v 1 - 4 * v 0 * v 2) 0 with h | h | h
    · exact Or.inl h
    · exact Or.inr (Or.inr (by rw [h, abs_zero]; exact hε))
    · exact Or.inr (Or.inl h)
  · intro h
    exact ⟨_, abs_pos.mpr (h.elim ne_of_lt (ne_of_gt)), lt_irrefl _⟩
  · rintro ⟨δ, hδ, h⟩
    refine lt_or_gt_of_ne fun h0 => h ?_
    rw [h0, abs_zero]
    exact hδ

/-- A conic is recognised as degenerate at every tolerance exactly if it has a singular point. -/
theorem C34_degenerate (v : Vec ℝ 6) : (∀ ε > 0, isDegenerate ε v) ↔ ∃ x y w, Singular v x y w := by
  have h0 : (∀ ε > 0, isDegenerate ε v) ↔ (toMatrix v).det = 0 := by
    unfold isDegenerate
    rw [C34_determinant two_ne_zero]
    constructor
    · intro h
      by_contra hne
      exact lt_irrefl _ (h _ (abs_pos.mpr hne))
    · intro h ε hε
      rw [h, abs_zero]
      exact hε
  rw [h0, ← Matrix.exists_mulVec_eq_zero_iff]
  constructor
  · rintro ⟨p, hp, h⟩
    have e0 := congrFun h 0
    have e1 := congrFun h 1
    have e2 := congrFun h 2
    simp [toMatrix, Matrix.mulVec, dotProduct, Fin.sum_univ_three] at e0 e1 e2
    refine ⟨p 0, p 1, p 2, ?_, by linear_combination 2 * e0, by linear_combination 2 * e1, by linear_combination 2 * e2⟩
    by_contra hn
    push Not at hn
    apply hp
    funext i
    fin_cases i
    · exact hn.1
    · exact hn.2.1
    · exact hn.2.2
  · rintro ⟨x, y, w, hne, e0, e1, e2⟩
    refine ⟨![x, y, w], ?_, ?_⟩
    · intro h
      have := congrFun h 0
      have h1 := congrFun h 1
      have h2 := congrFun h 2
      simp at this h1 h2
      rcases hne with hx | hx | hx
      · exact hx this
      · exact hx h1
      · exact hx h2
    · funext i
      fin_cases i <;> simp [toMatrix, Matrix.mulVec, dotProduct, Fin.sum_univ_three]
      · linear_combination e0 / 2
      · linear_combination e1 / 2
      · linear_combination e2 / 2

/-- The parabola `y = x²` is one at every tolerance and not degenerate; the crossing lines `x y = 0` are degenerate. -/
example : (∀ ε > 0, isParabola ε ![1, 0, 0, 0, -1, 0]) ∧ ¬ (∀ ε > 0, isDegenerate ε ![1, 0, 0, 0, -1, 0]) ∧
    ∀ ε > 0, isDegenerate ε ![0, 1, 0, 0, 0, 0] := by
  refine ⟨?_, ?_, ?_⟩
  · intro ε hε
    simpa [isParabola] using hε
  · intro h
    have := h (1/8) (by norm_num)
    simp [isDegenerate, determinant] at this
    norm_num [abs_lt] at this
  · exact (C34_degenerate _).mpr ⟨0, 0, 1, Or.inr (Or.inr one_ne_zero), by simp, by simp, by simp⟩

/-! ## Axes -/

/-- The coefficients of the conic rotated by `θ`. -/
noncomputable def rotA (v : Vec ℝ 6) (θ : ℝ) : ℝ := v 0 * Real.cos θ ^ 2 + v 1 * (Real.sin θ * Real.cos θ) + v 2 * Real.sin θ ^ 2

noncomputable def rotC (v : Vec ℝ 6) (θ : ℝ) : ℝ := v 0 * Real.sin θ ^ 2 - v 1 * (Real.sin θ * Real.cos θ) + v 2 * Real.cos θ ^ 2

noncomputable def rotB (v : Vec ℝ 6) (θ : ℝ) : ℝ :=
  2 * (v 2 - v 0) * (Real.sin θ * Real.cos θ) + v 1 * (Real.cos θ ^ 2 - Real.sin θ ^ 2)

theorem angle_spec (v : Vec ℝ 6) (θ : ℝ) (h : angle v = some θ) :
    rotB v θ = 0 ∧ (v 0 ≠ v 2 → rotA v θ < rotC v θ) ∧ (v 0 = v 2 → rotC v θ < rotA v θ) := by
  have hB : rotB v θ = (v 2 - v 0) * Real.sin (2 * θ) + v 1 * Real.cos (2 * θ) := by
    rw [Real.sin_two_mul, Real.cos_two_mul']
    unfold rotB
    ring
  have hAC : rotA v θ - rotC v θ = (v 0 - v 2) * Real.cos (2 * θ) + v 1 * Real.sin (2 * θ) := by
    rw [Real.sin_two_mul, Real.cos_two_mul']
    unfold rotA rotC
    ring
  simp only [angle] at h
  split_ifs at h with hac hb hpos hle
  · simp only [Option.some.injEq] at h
    have h2 : 2 * θ = Real.pi / 2 := by rw [← h]; ring
    rw [h2, Real.cos_pi_div_two, Real.sin_pi_div_two] at hB hAC
    refine ⟨by rw [hB, hac]; ring, fun h => absurd hac h, fun _ => by linarith⟩
  · simp only [Option.some.injEq] at h
    have h2 : 2 * θ = -(Real.pi / 2) := by rw [← h]; ring
    rw [h2, Real.cos_neg, Real.sin_neg, Real.cos_pi_div_two, Real.sin_pi_div_two] at hB hAC
    have hneg : v 1 < 0 := lt_of_le_of_ne (not_lt.mp hpos) hb
    refine ⟨by rw [hB, hac]; ring, fun h => absurd hac h, fun _ => by linarith⟩
  · simp only [Option.some.injEq] at h
    have hd : v 0 - v 2 ≠ 0 := sub_ne_zero.mpr hac
    have hlt : v 0 - v 2 < 0 := by
      have := lt_of_le_of_ne hle hac
      linarith
    set φ := Real.arctan (v 1 / (v 0 - v 2)) with hφ
    have h2 : 2 * θ = φ := by rw [← h]; ring
    have hcos : 0 < Real.cos φ := Real.cos_arctan_pos _
    have htan : Real.sin φ = v 1 / (v 0 - v 2) * Real.cos φ := by
      have := Real.tan_arctan (v 1 / (v 0 - v 2))
      rw [← hφ, Real.tan_eq_sin_div_cos] at this
      rw [← this]
      field_simp
    rw [h2] at hB hAC
    have hb' : v 1 * Real.cos φ = (v 0 - v 2) * Real.sin φ := by
      rw [htan]
      field_simp
    refine ⟨by rw [hB]; linear_combination hb', fun _ => ?_, fun h => absurd h hac⟩
    have : (rotA v θ - rotC v θ) * Real.cos φ = (v 0 - v 2) := by
      rw [hAC]
      have := Real.sin_sq_add_cos_sq φ
      linear_combination (v 0 - v 2) * this + Real.sin φ * hb'
    have h3 : (rotA v θ - rotC v θ) * Real.cos φ < 0 := by rw [this]; exact hlt
    have := neg_of_mul_neg_left h3 hcos.le
    linarith
  · simp only [Option.some.injEq] at h
    have hd : v 0 - v 2 ≠ 0 := sub_ne_zero.mpr hac
    have hgt : 0 < v 0 - v 2 := by
      have := not_le.mp hle
      linarith
    set φ := Real.arctan (v 1 / (v 0 - v 2)) with hφ
    have h2 : 2 * θ = φ + Real.pi := by rw [← h]; ring
    have hcos : 0 < Real.cos φ := Real.cos_arctan_pos _
    have htan : Real.sin φ = v 1 / (v 0 - v 2) * Real.cos φ := by
      have := Real.tan_arctan (v 1 / (v 0 - v 2))
      rw [← hφ, Real.tan_eq_sin_div_cos] at this
      rw [← this]
      field_simp
    rw [h2, Real.sin_add_pi, Real.cos_add_pi] at hB hAC
    have hb' : v 1 * Real.cos φ = (v 0 - v 2) * Real.sin φ := by
      rw [htan]
      field_simp
    refine ⟨by rw [hB]; linear_combination -hb', fun _ => ?_, fun h => absurd h hac⟩
    have : (rotA v θ - rotC v θ) * Real.cos φ = -(v 0 - v 2) := by
      rw [hAC]
      have := Real.sin_sq_add_cos_sq φ
      linear_combination -(v 0 - v 2) * this - Real.sin φ * hb'
    have h3 : (rotA v θ - rotC v θ) * Real.cos φ < 0 := by rw [this]; linarith
    have := neg_of_mul_neg_left h3 hcos.le
    linarith

/-- Coordinates along the axes: first coordinate of the point relative to the centre `p`, turned back by `θ`. -/
theorem conicAt_axes (v : Vec ℝ 6) (p : Vec ℝ 2) (θ : ℝ) (hg : gradient v (p 0) (p 1) = (0, 0)) (hB : rotB v θ = 0) (x y : ℝ) :
    conicAt v x y = rotA v θ * alongFirst p θ x y ^ 2 + rotC v θ * alongSecond p θ x y ^ 2 + conicAt v (p 0) (p 1) := by
  have hg1 : 2 * v 0 * p 0 + v 1 * p 1 + v 3 = 0 := congrArg Prod.fst hg
  have hg2 : v 1 * p 0 + 2 * v 2 * p 1 + v 4 = 0 := congrArg Prod.snd hg
  have h1 := Real.sin_sq_add_cos_sq θ
  unfold rotB at hB
  unfold rotA rotC alongFirst alongSecond conicAt
  set s := Real.sin θ
  set c := Real.cos θ
  linear_combination (x - p 0) * hg1 + (y - p 1) * hg2
    - (v 0 * (x - p 0) ^ 2 + v 1 * ((x - p 0) * (y - p 1)) + v 2 * (y - p 1) ^ 2) * (s ^ 2 + c ^ 2 + 1) * h1
    + ((x - p 0) * c + (y - p 1) * s) * (-(x - p 0) * s + (y - p 1) * c) * hB

theorem rot_mul (v : Vec ℝ 6) (θ : ℝ) (hB : rotB v θ = 0) : 4 * (rotA v θ * rotC v θ) = 4 * v 0 * v 2 - v 1 * v 1 := by
  have h1 := Real.sin_sq_add_cos_sq θ
  unfold rotB at hB
  unfold rotA rotC
  set s := Real.sin θ
  set c := Real.cos θ
  linear_combination (2 * (v 2 - v 0) * (s * c) + v 1 * (c ^ 2 - s ^ 2)) * hB + (4 * v 0 * v 2 - v 1 * v 1) * (s ^ 2 + c ^ 2 + 1) * h1

theorem rot_add (v : Vec ℝ 6) (θ : ℝ) : rotA v θ + rotC v θ = v 0 + v 2 := by
  have h1 := Real.sin_sq_add_cos_sq θ
  unfold rotA rotC
  linear_combination (v 0 + v 2) * h1

theorem center_value (v : Vec ℝ 6) (p : Vec ℝ 2) (hg : gradient v (p 0) (p 1) = (0, 0)) :
    (4 * v 0 * v 2 - v 1 * v 1) * conicAt v (p 0) (p 1) = 4 * determinant v := by
  have hg1 : 2 * v 0 * p 0 + v 1 * p 1 + v 3 = 0 := congrArg Prod.fst hg
  have hg2 : v 1 * p 0 + 2 * v 2 * p 1 + v 4 = 0 := congrArg Prod.snd hg
  have e3 : v 3 = -(2 * v 0 * p 0 + v 1 * p 1) := by linarith
  have e4 : v 4 = -(v 1 * p 0 + 2 * v 2 * p 1) := by linarith
  simp only [determinant, conicAt, e3, e4]
  ring

/-- What the semi-axes are, in terms of the coefficients along the axes. -/
theorem semiAxes_eq (v : Vec ℝ 6) (p : Vec ℝ 2) (θ : ℝ) (hp : center v = .point p) (hθ : angle v = some θ) :
    semiAxes v = if 4 * rotA v θ * rotC v θ = 0 then none else
      if -conicAt v (p 0) (p 1) / rotA v θ < 0 ∨ -conicAt v (p 0) (p 1) / rotC v θ < 0 then none else
      some ![Real.sqrt (-conicAt v (p 0) (p 1) / rotA v θ), Real.sqrt (-conicAt v (p 0) (p 1) / rotC v θ)] := by
  have hg := (C34_center two_ne_zero v p hp).1
  have hg1 : 2 * v 0 * p 0 + v 1 * p 1 + v 3 = 0 := congrArg Prod.fst hg
  have hg2 : v 1 * p 0 + 2 * v 2 * p 1 + v 4 = 0 := congrArg Prod.snd hg
  have hB := (angle_spec v θ hθ).1
  simp only [semiAxes, hθ, Option.bind_eq_bind, Option.bind_some]
  have eA : v 0 * (Real.cos θ * Real.cos θ) + v 1 * Real.sin θ * Real.cos θ + v 2 * (Real.sin θ * Real.sin θ) = rotA v θ := by
    unfold rotA
    ring
  have eC : v 0 * (Real.sin θ * Real.sin θ) - v 1 * Real.sin θ * Real.cos θ + v 2 * (Real.cos θ * Real.cos θ) = rotC v θ := by
    unfold rotC
    ring
  rw [eA, eC]
  by_cases h0 : 4 * rotA v θ * rotC v θ = 0
  · rw [if_pos h0, if_pos h0]
  rw [if_neg h0, if_neg h0]
  have hA : rotA v θ ≠ 0 := fun h => h0 (by rw [h]; ring)
  have hC : rotC v θ ≠ 0 := fun h => h0 (by rw [h]; ring)
  set num := (rotC v θ * (v 3 * Real.cos θ + v 4 * Real.sin θ) * (v 3 * Real.cos θ + v 4 * Real.sin θ) +
    rotA v θ * (-v 3 * Real.sin θ + v 4 * Real.cos θ) * (-v 3 * Real.sin θ + v 4 * Real.cos θ) - 4 * rotA v θ * rotC v θ * v 5) / (4 * rotA v θ * rotC v θ) with hnum
  have hd1 : v 3 * Real.cos θ + v 4 * Real.sin θ = -2 * rotA v θ * (p 0 * Real.cos θ + p 1 * Real.sin θ) := by
    unfold rotB at hB
    unfold rotA
    linear_combination Real.cos θ * hg1 + Real.sin θ * hg2
      + ((2 * v 0 * p 0 + v 1 * p 1) * Real.cos θ + (v 1 * p 0 + 2 * v 2 * p 1) * Real.sin θ) * Real.sin_sq_add_cos_sq θ
      - (-p 0 * Real.sin θ + p 1 * Real.cos θ) * hB
  have he1 : -v 3 * Real.sin θ + v 4 * Real.cos θ = -2 * rotC v θ * (-p 0 * Real.sin θ + p 1 * Real.cos θ) := by
    unfold rotB at hB
    unfold rotC
    linear_combination -Real.sin θ * hg1 + Real.cos θ * hg2
      + (-(2 * v 0 * p 0 + v 1 * p 1) * Real.sin θ + (v 1 * p 0 + 2 * v 2 * p 1) * Real.cos θ) * Real.sin_sq_add_cos_sq θ
      - (p 0 * Real.cos θ + p 1 * Real.sin θ) * hB
  have hnumv : num = -conicAt v (p 0) (p 1) := by
    have h3 : num = rotA v θ * (p 0 * Real.cos θ + p 1 * Real.sin θ) ^ 2 + rotC v θ * (-p 0 * Real.sin θ + p 1 * Real.cos θ) ^ 2 - v 5 := by
      rw [hnum, hd1, he1]
      field_simp
      ring
    have hB' := hB
    unfold rotA rotC at h3
    unfold rotB at hB'
    unfold conicAt
    linear_combination h3 + p 0 * hg1 + p 1 * hg2
      + (v 0 * p 0 ^ 2 + v 1 * (p 0 * p 1) + v 2 * p 1 ^ 2) * (Real.sin θ ^ 2 + Real.cos θ ^ 2 + 1) * Real.sin_sq_add_cos_sq θ
      - (p 0 * Real.cos θ + p 1 * Real.sin θ) * (-p 0 * Real.sin θ + p 1 * Real.cos θ) * hB'
  rw [hnumv]

theorem semiAxes_spec (v : Vec ℝ 6) (p s : Vec ℝ 2) (θ : ℝ) (hp : center v = .point p) (hθ : angle v = some θ) (hs : semiAxes v = some s) :
    0 ≤ s 0 ∧ 0 ≤ s 1 ∧ rotA v θ ≠ 0 ∧ rotC v θ ≠ 0 ∧
    rotA v θ * s 0 ^ 2 = -conicAt v (p 0) (p 1) ∧ rotC v θ * s 1 ^ 2 = -conicAt v (p 0) (p 1) := by
  rw [semiAxes_eq v p θ hp hθ] at hs
  split_ifs at hs with h0 h1
  have hA : rotA v θ ≠ 0 := fun h => h0 (by rw [h]; ring)
  have hC : rotC v θ ≠ 0 := fun h => h0 (by rw [h]; ring)
  set num := -conicAt v (p 0) (p 1)
  simp only [Option.some.injEq] at hs
  rw [not_or] at h1
  refine ⟨?_, ?_, hA, hC, ?_, ?_⟩
  · rw [← hs]
    exact Real.sqrt_nonneg _
  · rw [← hs]
    exact Real.sqrt_nonneg _
  · rw [← hs]
    show rotA v θ * Real.sqrt (num / rotA v θ) ^ 2 = num
    rw [Real.sq_sqrt (not_lt.mp h1.1)]
    field_simp
  · rw [← hs]
    show rotC v θ * Real.sqrt (num / rotC v θ) ^ 2 = num
    rw [Real.sq_sqrt (not_lt.mp h1.2)]
    field_simp

/-- The conic is the ellipse (or hyperbola) around the centre with the axes in the direction of the angle: a point lies on it
exactly if the sum of its squared coordinates along the axes over the squared semi-axes is one. -/
theorem C34_axes (v : Vec ℝ 6) (hdet : determinant v ≠ 0) (p s : Vec ℝ 2) (θ : ℝ) (hp : center v = .point p) (hθ : angle v = some θ)
    (hs : semiAxes v = some s) :
    0 < s 0 ∧ 0 < s 1 ∧ ∀ x y, OnConic v x y ↔ (alongFirst p θ x y / s 0) ^ 2 + (alongSecond p θ x y / s 1) ^ 2 = 1 := by
  have hg := (C34_center two_ne_zero v p hp).1
  obtain ⟨h0, h1, hA, hC, hsA, hsC⟩ := semiAxes_spec v p s θ hp hθ hs
  have hk : conicAt v (p 0) (p 1) ≠ 0 := by
    intro h
    have := center_value v p hg
    rw [h, mul_zero] at this
    exact hdet (by linarith)
  have hs0 : s 0 ≠ 0 := by
    intro h
    rw [h] at hsA
    exact hk (by linarith)
  have hs1 : s 1 ≠ 0 := by
    intro h
    rw [h] at hsC
    exact hk (by linarith)
  refine ⟨lt_of_le_of_ne h0 (Ne.symm hs0), lt_of_le_of_ne h1 (Ne.symm hs1), fun x y => ?_⟩
  unfold OnConic
  rw [conicAt_axes v p θ hg (angle_spec v θ hθ).1]
  set k := conicAt v (p 0) (p 1)
  set X := alongFirst p θ x y
  set Y := alongSecond p θ x y
  have e : (X / s 0) ^ 2 + (Y / s 1) ^ 2 - 1 = -(rotA v θ * X ^ 2 + rotC v θ * Y ^ 2 + k) / k := by
    have eA : rotA v θ = -k / s 0 ^ 2 := by field_simp; linarith
    have eC : rotC v θ = -k / s 1 ^ 2 := by field_simp; linarith
    rw [eA, eC]
    field_simp
    ring
  constructor
  · intro h
    rw [h] at e
    simp at e
    linarith
  · intro h
    rw [h] at e
    have : -(rotA v θ * X ^ 2 + rotC v θ * Y ^ 2 + k) / k = 0 := by linarith
    rcases div_eq_zero_iff.mp this with h | h
    · linarith
    · exact absurd h hk

/-- Every ellipse with a point on it which is not a circle and not degenerate has a centre, an angle and semi-axes. -/
theorem C34_axes_exist (v : Vec ℝ 6) (hv : isEllipse v) (hcirc : v 0 ≠ v 2 ∨ v 1 ≠ 0) (x y : ℝ) (h : OnConic v x y) :
    ∃ p θ s, center v = .point p ∧ angle v = some θ ∧ semiAxes v = some s := by
  unfold isEllipse at hv
  have hθ : ∃ θ, angle v = some θ := by
    unfold angle
    by_cases hac : v 0 = v 2
    · have hb : v 1 ≠ 0 := hcirc.resolve_left (not_not.mpr hac)
      exact ⟨_, by rw [if_pos hac, if_neg hb]⟩
    · exact ⟨_, by rw [if_neg hac]⟩
  have hp : ∃ p, center v = .point p := by
    have h1 : v 1 / 2 * (v 1 / 2) - v 0 * v 2 ≠ 0 := by
      intro h
      nlinarith
    have h2 : 1 / (v 1 / 2 * (v 1 / 2) - v 0 * v 2) ≠ 0 := one_div_ne_zero h1
    simp only [center]
    rw [if_neg h1, if_neg h2]
    exact ⟨_, rfl⟩
  obtain ⟨θ, hθ⟩ := hθ
  obtain ⟨p, hp⟩ := hp
  have hg := (C34_center two_ne_zero v p hp).1
  have hB := (angle_spec v θ hθ).1
  have hmul := rot_mul v θ hB
  have hAC : 0 < rotA v θ * rotC v θ := by nlinarith
  have hk := conicAt_axes v p θ hg hB x y
  rw [show conicAt v x y = 0 from h] at hk
  refine ⟨p, θ, ?_⟩
  rw [semiAxes_eq v p θ hp hθ]
  have h0 : ¬ 4 * rotA v θ * rotC v θ = 0 := by
    intro h
    nlinarith
  have h1 : ¬ (-conicAt v (p 0) (p 1) / rotA v θ < 0 ∨ -conicAt v (p 0) (p 1) / rotC v θ < 0) := by
    have e : -conicAt v (p 0) (p 1) = rotA v θ * alongFirst p θ x y ^ 2 + rotC v θ * alongSecond p θ x y ^ 2 := by linarith
    rw [e, not_or, not_lt, not_lt]
    have hA : rotA v θ ≠ 0 := by rintro h; simp [h] at hAC
    have hC : rotC v θ ≠ 0 := by rintro h; simp [h] at hAC
    have q1 : 0 < rotC v θ / rotA v θ := by
      rw [show rotC v θ / rotA v θ = rotA v θ * rotC v θ / rotA v θ ^ 2 by field_simp]
      positivity
    have q2 : 0 < rotA v θ / rotC v θ := by
      rw [show rotA v θ / rotC v θ = rotA v θ * rotC v θ / rotC v θ ^ 2 by field_simp]
      positivity
    constructor
    · rw [show (rotA v θ * alongFirst p θ x y ^ 2 + rotC v θ * alongSecond p θ x y ^ 2) / rotA v θ =
        alongFirst p θ x y ^ 2 + rotC v θ / rotA v θ * alongSecond p θ x y ^ 2 by field_simp]
      positivity
    · rw [show (rotA v θ * alongFirst p θ x y ^ 2 + rotC v θ * alongSecond p θ x y ^ 2) / rotC v θ =
        rotA v θ / rotC v θ * alongFirst p θ x y ^ 2 + alongSecond p θ x y ^ 2 by field_simp]
      positivity
  rw [if_neg h0, if_neg h1]
  exact ⟨_, hp, hθ, rfl⟩

example : determinant (![1, 1, 2, 3, 4, -5] : Vec ℝ 6) ≠ 0 ∧ ∃ p θ s, center (![1, 1, 2, 3, 4, -5] : Vec ℝ 6) = .point p ∧
    angle ![1, 1, 2, 3, 4, -5] = some θ ∧ semiAxes ![1, 1, 2, 3, 4, -5] = some s := by
  refine ⟨by simp [determinant]; norm_num, ?_⟩
  refine C34_axes_exist _ (by simp [isEllipse]; norm_num) (Or.inl (by simp)) ((-3 + Real.sqrt 29) / 2) 0 ?_
  have := Real.sq_sqrt (show (0 : ℝ) ≤ 29 by norm_num)
  simp [OnConic, conicAt]
  linear_combination this / 4

theorem volume_disc : MeasureTheory.volume {q : ℝ × ℝ | q.1 ^ 2 + q.2 ^ 2 < 1} = ENNReal.ofReal Real.pi := by
  have h1 : Complex.measurableEquivRealProd ⁻¹' {q : ℝ × ℝ | q.1 ^ 2 + q.2 ^ 2 < 1} = Metric.ball (0 : ℂ) 1 := by
    ext z
    simp only [Set.mem_preimage, Set.mem_ofPred_eq, Metric.mem_ball, dist_zero_right, Complex.measurableEquivRealProd_apply]
    rw [← sq_lt_one_iff₀ (norm_nonneg z), ← Complex.normSq_eq_norm_sq, Complex.normSq_apply]
    constructor <;> intro h <;> nlinarith
  rw [← Complex.volume_preserving_equiv_real_prod.measure_preimage_equiv, h1, Complex.volume_ball]
  simp [← NNReal.coe_real_pi]

/-- The area is the area of the region the ellipse encloses. -/
theorem C34_area (v : Vec ℝ 6) (hv : isEllipse v) (hpos : 0 < v 0) (hdet : determinant v ≠ 0) (p : Vec ℝ 2) (hp : center v = .point p) (A : ℝ)
    (h : area v = some A) : MeasureTheory.volume {q : ℝ × ℝ | conicAt v q.1 q.2 < 0} = ENNReal.ofReal A := by
  have hs : ∃ s, semiAxes v = some s := by
    rcases hs : semiAxes v with _ | s
    · simp [area, hs] at h
    · exact ⟨s, rfl⟩
  obtain ⟨s, hs⟩ := hs
  have hθ : ∃ θ, angle v = some θ := by
    rcases hθ : angle v with _ | s
    · simp [semiAxes, hθ] at hs
    · exact ⟨s, rfl⟩
  obtain ⟨θ, hθ⟩ := hθ
  have hA : A = Real.pi * s 0 * s 1 := by
    simp [area, hs] at h
    exact h.symm
  have hax := C34_axes v hdet p s θ hp hθ hs
  have hg := (C34_center two_ne_zero v p hp).1
  obtain ⟨-, -, hA0, hC0, hsA, hsC⟩ := semiAxes_spec v p s θ hp hθ hs
  have hmul := rot_mul v θ (angle_spec v θ hθ).1
  have hadd := rot_add v θ
  unfold isEllipse at hv
  have hApos : 0 < rotA v θ := by
    have h4 : 0 < rotA v θ * rotC v θ := by nlinarith
    have h2 : 0 < v 2 := by
      by_contra hn
      rw [not_lt] at hn
      nlinarith [mul_self_nonneg (v 1), mul_nonneg hpos.le (neg_nonneg.mpr hn)]
    by_contra hn
    rw [not_lt] at hn
    have hAneg : rotA v θ < 0 := lt_of_le_of_ne hn hA0
    have : rotC v θ < 0 := by
      by_contra hc
      rw [not_lt] at hc
      nlinarith
    linarith
  have hs0 := hax.1
  have hs1 := hax.2.1
  set L : (ℝ × ℝ) →ₗ[ℝ] (ℝ × ℝ) := Matrix.toLin (Module.Basis.finTwoProd ℝ) (Module.Basis.finTwoProd ℝ)
    !![Real.cos θ / s 0, Real.sin θ / s 0; -Real.sin θ / s 1, Real.cos θ / s 1] with hL
  have hLdet : LinearMap.det L = (s 0 * s 1)⁻¹ := by
    rw [hL, LinearMap.det_toLin, Matrix.det_fin_two_of]
    have := Real.sin_sq_add_cos_sq θ
    field_simp
    linarith
  have hset : {q : ℝ × ℝ | conicAt v q.1 q.2 < 0} =
      (fun q => q + (-(p 0), -(p 1))) ⁻¹' (L ⁻¹' {q : ℝ × ℝ | q.1 ^ 2 + q.2 ^ 2 < 1}) := by
    ext q
    simp only [Set.mem_preimage, Set.mem_ofPred_eq, hL, Matrix.toLin_finTwoProd_apply, Prod.fst_add, Prod.snd_add]
    rw [conicAt_axes v p θ hg (angle_spec v θ hθ).1]
    have ek : conicAt v (p 0) (p 1) = -(rotA v θ * s 0 ^ 2) := by linarith
    have eC : rotC v θ = rotA v θ * s 0 ^ 2 / s 1 ^ 2 := by
      field_simp
      linarith
    have e1 : Real.cos θ / s 0 * (q.1 + -p 0) + Real.sin θ / s 0 * (q.2 + -p 1) = alongFirst p θ q.1 q.2 / s 0 := by
      unfold alongFirst
      ring
    have e2 : -Real.sin θ / s 1 * (q.1 + -p 0) + Real.cos θ / s 1 * (q.2 + -p 1) = alongSecond p θ q.1 q.2 / s 1 := by
      unfold alongSecond
      ring
    rw [e1, e2, ek, eC]
    have e3 : rotA v θ * alongFirst p θ q.1 q.2 ^ 2 + rotA v θ * s 0 ^ 2 / s 1 ^ 2 * alongSecond p θ q.1 q.2 ^ 2 + -(rotA v θ * s 0 ^ 2) =
        rotA v θ * s 0 ^ 2 * ((alongFirst p θ q.1 q.2 / s 0) ^ 2 + (alongSecond p θ q.1 q.2 / s 1) ^ 2 - 1) := by
      field_simp
      ring
    rw [e3, mul_neg_iff]
    have e4 : 0 < rotA v θ * s 0 ^ 2 := by positivity
    constructor
    · rintro (⟨-, h⟩ | ⟨h, -⟩)
      · linarith
      · linarith
    · intro h
      exact Or.inl ⟨e4, by linarith⟩
  rw [hset, MeasureTheory.measure_preimage_add_right, MeasureTheory.Measure.addHaar_preimage_linearMap _ (by rw [hLdet]; positivity), hLdet, inv_inv,
    volume_disc, ← ENNReal.ofReal_mul (abs_nonneg _), hA, abs_of_pos (by positivity)]
  congr 1
  ring

example : ∃ A p, isEllipse ![1, 1, 2, 3, 4, -5] ∧ center (![1, 1, 2, 3, 4, -5] : Vec ℝ 6) = .point p ∧ area ![1, 1, 2, 3, 4, -5] = some A := by
  obtain ⟨p, θ, s, hp, -, hs⟩ := C34_axes_exist ![1, 1, 2, 3, 4, -5] (by simp [isEllipse]; norm_num) (Or.inl (by simp)) ((-3 + Real.sqrt 29) / 2) 0 (by
    have := Real.sq_sqrt (show (0 : ℝ) ≤ 29 by norm_num)
    simp [OnConic, conicAt]
    linear_combination this / 4)
  exact ⟨_, p, by simp [isEllipse]; norm_num, hp, by simp [area, hs]; rfl⟩

/-- For an ellipse with positive coefficients of the squares which differ, the angle is that of the major axis: the first
semi-axis is the longer one. -/
theorem C34_major_partial (v : Vec ℝ 6) (hv : isEllipse v) (hpos : 0 < v 0) (hac : v 0 ≠ v 2) (hdet : determinant v ≠ 0) (p s : Vec ℝ 2) (θ : ℝ)
    (hp : center v = .point p) (hθ : angle v = some θ) (hs : semiAxes v = some s) : s 1 < s 0 := by
  have hg := (C34_center two_ne_zero v p hp).1
  obtain ⟨h0, h1, hA, hC, hsA, hsC⟩ := semiAxes_spec v p s θ hp hθ hs
  have hax := C34_axes v hdet p s θ hp hθ hs
  have hsp := angle_spec v θ hθ
  have hlt := hsp.2.1 hac
  have hmul := rot_mul v θ hsp.1
  have hadd := rot_add v θ
  unfold isEllipse at hv
  have hApos : 0 < rotA v θ := by
    have h4 : 0 < rotA v θ * rotC v θ := by nlinarith
    have h2 : 0 < v 2 := by
      by_contra hn
      rw [not_lt] at hn
      nlinarith [mul_self_nonneg (v 1), mul_nonneg hpos.le (neg_nonneg.mpr hn)]
    by_contra hn
    rw [not_lt] at hn
    have hAneg : rotA v θ < 0 := lt_of_le_of_ne hn hA
    have : rotC v θ < 0 := by
      by_contra hc
      rw [not_lt] at hc
      nlinarith
    linarith
  have e : rotA v θ * s 0 ^ 2 = rotC v θ * s 1 ^ 2 := hsA.trans hsC.symm
  by_contra hn
  rw [not_lt] at hn
  have h5 : s 0 ^ 2 ≤ s 1 ^ 2 := by nlinarith [hax.1, hax.2.1]
  have h6 : 0 < s 1 ^ 2 := pow_pos hax.2.1 2
  nlinarith

/-- With equal coefficients of the squares the angle is that of the minor axis, and for a circle angle and semi-axes are not
numbers. -/
theorem C34_major_refuted :
    (∃ (p s : Vec ℝ 2) (θ : ℝ), center (![1, 1, 1, 0, 0, -1] : Vec ℝ 6) = .point p ∧ angle ![1, 1, 1, 0, 0, -1] = some θ ∧
      semiAxes ![1, 1, 1, 0, 0, -1] = some s ∧ s 0 < s 1) ∧
    isEllipse ![1, 0, 1, 0, 0, -1] ∧ OnConic (![1, 0, 1, 0, 0, -1] : Vec ℝ 6) 1 0 ∧ semiAxes ![1, 0, 1, 0, 0, -1] = none := by
  refine ⟨?_, ?_, ?_, ?_⟩
  · set v : Vec ℝ 6 := ![1, 1, 1, 0, 0, -1] with hv
    have hθ : angle v = some (Real.pi / 2 * 0.5) := by simp [angle, hv]
    have h2 : Real.pi / 2 * 0.5 = Real.pi / 4 := by ring
    have hp : center v = .point ![0, 0] := by
      simp [center, hv]
      norm_num
    have hsome : ∃ s, semiAxes v = some s := by
      simp only [semiAxes, hθ, Option.bind_eq_bind, Option.bind_some]
      rw [h2, Real.cos_pi_div_four, Real.sin_pi_div_four]
      have hsq : (√2 / 2 : ℝ) * (√2 / 2) = 1 / 2 := by
        have := Real.mul_self_sqrt (show (0 : ℝ) ≤ 2 by norm_num)
        linear_combination this / 4
      have hsq' : (1 : ℝ) * (√2 / 2) * (√2 / 2) = 1 / 2 := by rw [one_mul, hsq]
      simp only [hv, Matrix.cons_val, hsq, hsq']
      norm_num
    obtain ⟨s, hs⟩ := hsome
    refine ⟨![0, 0], s, _, hp, hθ, hs, ?_⟩
    obtain ⟨h0, h1, hA, hC, hsA, hsC⟩ := semiAxes_spec v _ s _ hp hθ hs
    have hsq : (√2 / 2 : ℝ) ^ 2 = 1 / 2 := by
      have := Real.sq_sqrt (show (0 : ℝ) ≤ 2 by norm_num)
      linear_combination this / 4
    have hsq2 : (√2 / 2 : ℝ) * (√2 / 2) = 1 / 2 := by rw [← sq, hsq]
    have eA : rotA v (Real.pi / 2 * 0.5) = 3 / 2 := by
      unfold rotA
      rw [h2, Real.cos_pi_div_four, Real.sin_pi_div_four, hsq, hsq2]
      simp [hv]
      norm_num
    have eC : rotC v (Real.pi / 2 * 0.5) = 1 / 2 := by
      unfold rotC
      rw [h2, Real.cos_pi_div_four, Real.sin_pi_div_four, hsq, hsq2]
      simp [hv]
    have ek : conicAt v ((![0, 0] : Vec ℝ 2) 0) ((![0, 0] : Vec ℝ 2) 1) = -1 := by simp [conicAt, hv]
    rw [eA, ek] at hsA
    rw [eC, ek] at hsC
    by_contra hn
    rw [not_lt] at hn
    nlinarith
  · simp [isEllipse]
  · simp [OnConic, conicAt]
  · simp [semiAxes, angle]

/-- For an ellipse without mixed term, the eccentricity is the square root of one minus the ratio of the squared semi-axes (which are
as the reciprocals of the coefficients). -/
theorem C34_eccentricity_partial (v : Vec ℝ 6) (hb : v 1 = 0) (ha : 0 < v 0) (hc : 0 < v 2) (hdet : determinant v < 0) :
    eccentricity v = Real.sqrt (1 - min (v 0) (v 2) / max (v 0) (v 2)) := by
  simp only [eccentricity, hb, zero_div, mul_zero, add_zero, Real.sqrt_sq_eq_abs]
  rw [if_pos hdet]
  congr 1
  rcases le_total (v 0) (v 2) with h | h
  · rw [min_eq_left h, max_eq_right h, abs_of_nonpos (by linarith)]
    have : -(v 0 - v 2) + (v 0 + v 2) = 2 * v 2 := by ring
    rw [this]
    field_simp
    ring
  · rw [min_eq_right h, max_eq_left h, abs_of_nonneg (by linarith)]
    have : v 0 - v 2 + (v 0 + v 2) = 2 * v 0 := by ring
    rw [this]
    field_simp

/-- With a mixed term it is wrong: the ellipse `x² + x y + y² = 1` has semi-axes with squares `2` and `2/3`, so the square of its
eccentricity is `2/3`; the code returns a number with square `2/5`. -/
theorem C34_eccentricity_refuted : ∃ (v : Vec ℝ 6) (p s : Vec ℝ 2) (θ : ℝ), isEllipse v ∧ center v = .point p ∧ angle v = some θ ∧ semiAxes v = some s ∧
    s 0 < s 1 ∧ eccentricity v ^ 2 ≠ 1 - s 0 ^ 2 / s 1 ^ 2 := by
  obtain ⟨p, s, θ, hp, hθ, hs, hlt⟩ := C34_major_refuted.1
  refine ⟨_, p, s, θ, by simp [isEllipse], hp, hθ, hs, hlt, ?_⟩
  obtain ⟨h0, h1, hA, hC, hsA, hsC⟩ := semiAxes_spec _ p s _ hp hθ hs
  set v : Vec ℝ 6 := ![1, 1, 1, 0, 0, -1] with hv
  have hsp := angle_spec v θ hθ
  have hmul := rot_mul v θ hsp.1
  have hadd := rot_add v θ
  have hAC := hsp.2.2 (by simp [hv])
  have eA : rotA v θ = 3 / 2 := by
    simp [hv] at hmul hadd
    have h3 : (rotA v θ - 3 / 2) * (rotA v θ - 1 / 2) = 0 := by nlinarith
    rcases mul_eq_zero.mp h3 with h | h
    · linarith
    · linarith
  have eC : rotC v θ = 1 / 2 := by
    simp [hv] at hadd
    linarith
  have hr : s 0 ^ 2 / s 1 ^ 2 = 1 / 3 := by
    have : s 1 ≠ 0 := by linarith
    rw [eA] at hsA
    rw [eC] at hsC
    field_simp
    linarith
  rw [hr]
  have he : eccentricity v ^ 2 = 2 / 5 := by
    simp only [eccentricity]
    have hdet : determinant v < 0 := by simp [determinant, hv]; norm_num
    rw [if_pos hdet]
    have hup : Real.sqrt ((v 0 - v 2) ^ 2 + v 1 / 2 * (v 1 / 2)) = 1 / 2 := by
      rw [Real.sqrt_eq_iff_mul_self_eq] <;> simp [hv]
    rw [hup]
    rw [Real.sq_sqrt]
    · simp [hv]; norm_num
    · simp [hv]; norm_num
  rw [he]
  norm_num

end Ubitrack.Conic
