import Verif.Props.Conic

/-!
# C35: projections of quadrics
-/

namespace Ubitrack.Quadric

open Spec
open scoped Matrix

section Field
variable {K : Type*} [Field K]

/-- The conic computed by the projection of a quadric has the matrix inverse to `P Q Pᵀ`, and the projection fails exactly if that
matrix has no inverse. -/
theorem C35_project [DecidableEq K] (h2 : (2 : K) ≠ 0) (P : Mat K 3 4) (w : Vec K 10) :
    (project P w = none ↔ (P * toMatrix w * Pᵀ).det = 0) ∧
    ∀ v, project P w = some v → Conic.toMatrix v * (P * toMatrix w * Pᵀ) = 1 ∧ (P * toMatrix w * Pᵀ) * Conic.toMatrix v = 1 := by
  have e : Conic.toMatrix (lineConic P w) = P * toMatrix w * Pᵀ := by
    ext i j
    fin_cases i <;> fin_cases j <;>
      simp [Conic.toMatrix, lineConic, toMatrix, Matrix.mul_apply, Fin.sum_univ_four, h2] <;> ring
  have := Conic.C34_inverse h2 (lineConic P w)
  rw [e] at this
  exact this

/-- Projecting an ellipsoid is projecting its quadric. -/
theorem C35_ellipsoid [DecidableEq K] (P : Mat K 3 4) (s : Vec K 6) : projectEllipsoid P s = project P (ofEllipsoid s) := by
  unfold projectEllipsoid project
  congr 1
  ext i
  fin_cases i <;> simp only [ellipsoidLineConic, lineConic, ofEllipsoid] <;> simp <;>
    first | ring1 | exact Or.inl (by ring)

end Field

set_option maxHeartbeats 1000000 in
/-- The ellipsoid as a set of tangential planes. -/
theorem touches_iff (s : Vec ℝ 6) (h0 : 0 < s 0) (h1 : 0 < s 1) (h2 : 0 < s 2) (p : Vec ℝ 4) (hn : p 0 ≠ 0 ∨ p 1 ≠ 0 ∨ p 2 ≠ 0) (x : Vec ℝ 3) :
    TouchesEllipsoidAt s p x ↔ p 0 * x 0 + p 1 * x 1 + p 2 * x 2 + p 3 = 0 ∧
      (toMatrix (ofEllipsoid s)).mulVec p = -(p 0 * s 3 + p 1 * s 4 + p 2 * s 5 + p 3) • ![x 0, x 1, x 2, 1] := by
  set h := p 0 * s 3 + p 1 * s 4 + p 2 * s 5 + p 3 with hh
  have hu : 0 < (s 0 * p 0) ^ 2 + (s 1 * p 1) ^ 2 + (s 2 * p 2) ^ 2 := by
    rcases hn with hn | hn | hn
    · have : 0 < (s 0 * p 0) ^ 2 := by positivity
      positivity
    · have : 0 < (s 1 * p 1) ^ 2 := by positivity
      positivity
    · have : 0 < (s 2 * p 2) ^ 2 := by positivity
      positivity
  have hpt : ∀ y : Vec ℝ 3, OnEllipsoid s ![s 3 + s 0 * y 0, s 4 + s 1 * y 1, s 5 + s 2 * y 2] ↔ y 0 ^ 2 + y 1 ^ 2 + y 2 ^ 2 = 1 := by
    intro y
    simp only [OnEllipsoid, Matrix.cons_val, Matrix.cons_val_zero, Matrix.cons_val_one]
    rw [show (s 3 + s 0 * y 0 - s 3) / s 0 = y 0 by field_simp; ring, show (s 4 + s 1 * y 1 - s 4) / s 1 = y 1 by field_simp; ring,
      show (s 5 + s 2 * y 2 - s 5) / s 2 = y 2 by field_simp; ring]
  have hQ : (toMatrix (ofEllipsoid s)).mulVec p = -h • ![x 0, x 1, x 2, 1] ↔
      h * (x 0 - s 3) = -(s 0 ^ 2 * p 0) ∧ h * (x 1 - s 4) = -(s 1 ^ 2 * p 1) ∧ h * (x 2 - s 5) = -(s 2 ^ 2 * p 2) := by
    constructor
    · intro hv
      have e0 := congrFun hv 0
      have e1 := congrFun hv 1
      have e2 := congrFun hv 2
      simp [toMatrix, ofEllipsoid, Matrix.mulVec, dotProduct, Fin.sum_univ_four] at e0 e1 e2
      refine ⟨?_, ?_, ?_⟩
      · rw [hh] at e0 ⊢; linear_combination e0
      · rw [hh] at e1 ⊢; linear_combination e1
      · rw [hh] at e2 ⊢; linear_combination e2
    · rintro ⟨e0, e1, e2⟩
      ext i
      fin_cases i
      · simp [toMatrix, ofEllipsoid, Matrix.mulVec, dotProduct, Fin.sum_univ_four]
        rw [hh] at e0 ⊢; linear_combination e0
      · simp [toMatrix, ofEllipsoid, Matrix.mulVec, dotProduct, Fin.sum_univ_four]
        rw [hh] at e1 ⊢; linear_combination e1
      · simp [toMatrix, ofEllipsoid, Matrix.mulVec, dotProduct, Fin.sum_univ_four]
        rw [hh] at e2 ⊢; linear_combination e2
      · simp [toMatrix, ofEllipsoid, Matrix.mulVec, dotProduct, Fin.sum_univ_four]
        rw [hh]; ring
  rw [hQ]
  set R := Real.sqrt ((s 0 * p 0) ^ 2 + (s 1 * p 1) ^ 2 + (s 2 * p 2) ^ 2) with hR
  have hRpos : 0 < R := Real.sqrt_pos.mpr hu
  have hR2 : R ^ 2 = (s 0 * p 0) ^ 2 + (s 1 * p 1) ^ 2 + (s 2 * p 2) ^ 2 := Real.sq_sqrt hu.le
  constructor
  · rintro ⟨hon, hpl, hside⟩
    refine ⟨hpl, ?_⟩
    unfold OnEllipsoid at hon
    set y0 := (x 0 - s 3) / s 0
    set y1 := (x 1 - s 4) / s 1
    set y2 := (x 2 - s 5) / s 2
    have ex0 : x 0 - s 3 = s 0 * y0 := by simp only [y0]; field_simp
    have ex1 : x 1 - s 4 = s 1 * y1 := by simp only [y1]; field_simp
    have ex2 : x 2 - s 5 = s 2 * y2 := by simp only [y2]; field_simp
    have hpl' : h + (s 0 * p 0 * y0 + s 1 * p 1 * y1 + s 2 * p 2 * y2) = 0 := by
      rw [hh]
      linear_combination hpl - p 0 * ex0 - p 1 * ex1 - p 2 * ex2
    have hunit : ∀ ε : ℝ, ε ^ 2 = 1 → (ε * (s 0 * p 0) / R) ^ 2 + (ε * (s 1 * p 1) / R) ^ 2 + (ε * (s 2 * p 2) / R) ^ 2 = 1 := by
      intro ε hε
      rw [div_pow, div_pow, div_pow, ← add_div, ← add_div, div_eq_one_iff_eq (by positivity), hR2]
      linear_combination ((s 0 * p 0) ^ 2 + (s 1 * p 1) ^ 2 + (s 2 * p 2) ^ 2) * hε
    have hval : ∀ ε : ℝ, ε * (s 0 * p 0) / R * (s 0 * p 0) + ε * (s 1 * p 1) / R * (s 1 * p 1) + ε * (s 2 * p 2) / R * (s 2 * p 2) = ε * R := by
      intro ε
      field_simp
      linear_combination -ε * hR2
    have hcs : (s 0 * p 0 * y0 + s 1 * p 1 * y1 + s 2 * p 2 * y2) ^ 2 ≤ R ^ 2 := by
      rw [hR2]
      nlinarith [sq_nonneg (s 0 * p 0 * y1 - s 1 * p 1 * y0), sq_nonneg (s 0 * p 0 * y2 - s 2 * p 2 * y0), sq_nonneg (s 1 * p 1 * y2 - s 2 * p 2 * y1)]
    have hRh : R ^ 2 ≤ h ^ 2 := by
      rcases hside with hs | hs
      · have := hs _ ((hpt ![-1 * (s 0 * p 0) / R, -1 * (s 1 * p 1) / R, -1 * (s 2 * p 2) / R]).mpr (hunit (-1) (by norm_num)))
        simp only [Matrix.cons_val, Matrix.cons_val_zero, Matrix.cons_val_one] at this
        have hle : R ≤ h := by
          have e : p 0 * (s 3 + s 0 * (-1 * (s 0 * p 0) / R)) + p 1 * (s 4 + s 1 * (-1 * (s 1 * p 1) / R)) +
              p 2 * (s 5 + s 2 * (-1 * (s 2 * p 2) / R)) + p 3 = h + (-1) * R := by
            rw [hh]
            linear_combination hval (-1)
          rw [e] at this
          linarith
        nlinarith
      · have := hs _ ((hpt ![1 * (s 0 * p 0) / R, 1 * (s 1 * p 1) / R, 1 * (s 2 * p 2) / R]).mpr (hunit 1 (by norm_num)))
        simp only [Matrix.cons_val, Matrix.cons_val_zero, Matrix.cons_val_one] at this
        have hle : R ≤ -h := by
          have e : p 0 * (s 3 + s 0 * (1 * (s 0 * p 0) / R)) + p 1 * (s 4 + s 1 * (1 * (s 1 * p 1) / R)) +
              p 2 * (s 5 + s 2 * (1 * (s 2 * p 2) / R)) + p 3 = h + (1) * R := by
            rw [hh]
            linear_combination hval (1)
          rw [e] at this
          linarith
        nlinarith
    have hh2 : h ^ 2 = R ^ 2 := by
      refine le_antisymm ?_ hRh
      have : h = -(s 0 * p 0 * y0 + s 1 * p 1 * y1 + s 2 * p 2 * y2) := by linarith
      rw [this, neg_sq]
      exact hcs
    have hz : (h * y0 + s 0 * p 0) ^ 2 + (h * y1 + s 1 * p 1) ^ 2 + (h * y2 + s 2 * p 2) ^ 2 = 0 := by
      linear_combination h ^ 2 * hon + 2 * h * hpl' - hh2 - hR2
    have z0 : h * y0 + s 0 * p 0 = 0 := by
      have := sq_nonneg (h * y0 + s 0 * p 0); have := sq_nonneg (h * y1 + s 1 * p 1); have := sq_nonneg (h * y2 + s 2 * p 2)
      exact pow_eq_zero_iff (two_ne_zero) |>.mp (by linarith)
    have z1 : h * y1 + s 1 * p 1 = 0 := by
      have := sq_nonneg (h * y0 + s 0 * p 0); have := sq_nonneg (h * y1 + s 1 * p 1); have := sq_nonneg (h * y2 + s 2 * p 2)
      exact pow_eq_zero_iff (two_ne_zero) |>.mp (by linarith)
    have z2 : h * y2 + s 2 * p 2 = 0 := by
      have := sq_nonneg (h * y0 + s 0 * p 0); have := sq_nonneg (h * y1 + s 1 * p 1); have := sq_nonneg (h * y2 + s 2 * p 2)
      exact pow_eq_zero_iff (two_ne_zero) |>.mp (by linarith)
    refine ⟨?_, ?_, ?_⟩
    · rw [ex0]; linear_combination s 0 * z0
    · rw [ex1]; linear_combination s 1 * z1
    · rw [ex2]; linear_combination s 2 * z2
  · rintro ⟨hpl, e0, e1, e2⟩
    have hh2 : h ^ 2 = R ^ 2 := by
      rw [hR2]
      have : h = -(p 0 * (x 0 - s 3) + p 1 * (x 1 - s 4) + p 2 * (x 2 - s 5)) := by
        rw [hh]
        linear_combination hpl
      have h3 : h * h = -(p 0 * (h * (x 0 - s 3)) + p 1 * (h * (x 1 - s 4)) + p 2 * (h * (x 2 - s 5))) := by
        linear_combination h * this
      rw [e0, e1, e2] at h3
      linear_combination h3
    have hh0 : h ≠ 0 := by
      intro h3
      rw [h3] at hh2
      nlinarith
    have hon : OnEllipsoid s x := by
      unfold OnEllipsoid
      have f0 : x 0 - s 3 = -(s 0 ^ 2 * p 0) / h := by field_simp; linarith
      have f1 : x 1 - s 4 = -(s 1 ^ 2 * p 1) / h := by field_simp; linarith
      have f2 : x 2 - s 5 = -(s 2 ^ 2 * p 2) / h := by field_simp; linarith
      have g0 : ((x 0 - s 3) / s 0) ^ 2 = (s 0 * p 0) ^ 2 / h ^ 2 := by rw [f0]; field_simp
      have g1 : ((x 1 - s 4) / s 1) ^ 2 = (s 1 * p 1) ^ 2 / h ^ 2 := by rw [f1]; field_simp
      have g2 : ((x 2 - s 5) / s 2) ^ 2 = (s 2 * p 2) ^ 2 / h ^ 2 := by rw [f2]; field_simp
      rw [g0, g1, g2, ← add_div, ← add_div, ← hR2, hh2]
      exact div_self (by positivity)
    refine ⟨hon, hpl, ?_⟩
    have hbound : ∀ z, OnEllipsoid s z → (p 0 * z 0 + p 1 * z 1 + p 2 * z 2 + p 3 - h) ^ 2 ≤ h ^ 2 := by
      intro z hz
      unfold OnEllipsoid at hz
      set y0 := (z 0 - s 3) / s 0
      set y1 := (z 1 - s 4) / s 1
      set y2 := (z 2 - s 5) / s 2
      have ex0 : z 0 - s 3 = s 0 * y0 := by simp only [y0]; field_simp
      have ex1 : z 1 - s 4 = s 1 * y1 := by simp only [y1]; field_simp
      have ex2 : z 2 - s 5 = s 2 * y2 := by simp only [y2]; field_simp
      have e : p 0 * z 0 + p 1 * z 1 + p 2 * z 2 + p 3 - h = s 0 * p 0 * y0 + s 1 * p 1 * y1 + s 2 * p 2 * y2 := by
        rw [hh]
        linear_combination p 0 * ex0 + p 1 * ex1 + p 2 * ex2
      rw [e, hh2, hR2]
      nlinarith [sq_nonneg (s 0 * p 0 * y1 - s 1 * p 1 * y0), sq_nonneg (s 0 * p 0 * y2 - s 2 * p 2 * y0), sq_nonneg (s 1 * p 1 * y2 - s 2 * p 2 * y1)]
    rcases lt_or_gt_of_ne hh0 with hneg | hpos
    · right
      intro z hz
      have hb := hbound z hz
      rw [← neg_sq h] at hb
      have := abs_le_of_sq_le_sq' hb (by linarith)
      linarith [this.2]
    · left
      intro z hz
      have := abs_le_of_sq_le_sq' (hbound z hz) hpos.le
      linarith [this.1]

/-- The projection of an ellipsoid is its outline in the image. An image point lies on the conic exactly if it is the image of a
point of the ellipsoid at which the tangential plane goes through an image line, so that the line of sight only touches the
ellipsoid. -/
theorem C35_outline (P : Mat ℝ 3 4) (s : Vec ℝ 6) (h0 : 0 < s 0) (h1 : 0 < s 1) (h2 : 0 < s 2) (w : Vec ℝ 6) (hw : projectEllipsoid P s = some w) (x y : ℝ) :
    OnConic w x y ↔ ∃ (X : Vec ℝ 3) (l : Vec ℝ 3) (k : ℝ), l ≠ 0 ∧ k ≠ 0 ∧ P.mulVec ![X 0, X 1, X 2, 1] = k • ![x, y, 1] ∧
      TouchesEllipsoidAt s (Pᵀ.mulVec l) X := by
  rw [C35_ellipsoid] at hw
  obtain ⟨hCD, hDC⟩ := (C35_project two_ne_zero P (ofEllipsoid s)).2 w hw
  set Q := toMatrix (ofEllipsoid s) with hQ
  set C := Conic.toMatrix w with hC
  set xt : Vec ℝ 3 := ![x, y, 1] with hxt
  have hon : OnConic w x y ↔ xt ⬝ᵥ C.mulVec xt = 0 := by
    rw [(Conic.C34_matrix two_ne_zero w x y).2]
    rfl
  have hCs : C.IsSymm := (Conic.C34_matrix two_ne_zero w x y).1
  have hform : ∀ l : Vec ℝ 3, (Pᵀ.mulVec l) ⬝ᵥ Q.mulVec (Pᵀ.mulVec l) = l ⬝ᵥ (P * Q * Pᵀ).mulVec l := by
    intro l
    rw [← Matrix.mulVec_mulVec, ← Matrix.mulVec_mulVec, Matrix.dotProduct_mulVec l P, Matrix.mulVec_transpose]
  have hQlast : ∀ p : Vec ℝ 4, Q.mulVec p 3 = -(p 0 * s 3 + p 1 * s 4 + p 2 * s 5 + p 3) := by
    intro p
    simp [hQ, toMatrix, ofEllipsoid, Matrix.mulVec, dotProduct, Fin.sum_univ_four]
    ring
  have hzero : ∀ p : Vec ℝ 4, p 0 = 0 → p 1 = 0 → p 2 = 0 → p 3 = 0 → p = 0 := by
    intro p q0 q1 q2 q3
    ext i
    fin_cases i
    · exact q0
    · exact q1
    · exact q2
    · exact q3
  rw [hon]
  constructor
  · intro hx
    set l := C.mulVec xt with hl
    set p := Pᵀ.mulVec l with hp
    set h := p 0 * s 3 + p 1 * s 4 + p 2 * s 5 + p 3 with hh
    have hDl : (P * Q * Pᵀ).mulVec l = xt := by rw [hl, Matrix.mulVec_mulVec, hDC, Matrix.one_mulVec]
    have hPQ : P.mulVec (Q.mulVec p) = xt := by
      rw [hp, Matrix.mulVec_mulVec, Matrix.mulVec_mulVec]
      exact hDl
    have hpQp : p ⬝ᵥ Q.mulVec p = 0 := by
      rw [hp, hform, hDl, dotProduct_comm]
      exact hx
    have hq : p ⬝ᵥ Q.mulVec p = s 0 ^ 2 * p 0 ^ 2 + s 1 ^ 2 * p 1 ^ 2 + s 2 ^ 2 * p 2 ^ 2 - h ^ 2 := by
      rw [hh]
      simp [hQ, toMatrix, ofEllipsoid, Matrix.mulVec, dotProduct, Fin.sum_univ_four]
      ring
    have hh0 : h ≠ 0 := by
      intro h3
      rw [hpQp, h3] at hq
      have n0 : p 0 = 0 := by
        have : s 0 ^ 2 * p 0 ^ 2 = 0 := by nlinarith [sq_nonneg (s 0 * p 0), sq_nonneg (s 1 * p 1), sq_nonneg (s 2 * p 2)]
        simpa [h0.ne'] using this
      have n1 : p 1 = 0 := by
        have : s 1 ^ 2 * p 1 ^ 2 = 0 := by nlinarith [sq_nonneg (s 0 * p 0), sq_nonneg (s 1 * p 1), sq_nonneg (s 2 * p 2)]
        simpa [h1.ne'] using this
      have n2 : p 2 = 0 := by
        have : s 2 ^ 2 * p 2 ^ 2 = 0 := by nlinarith [sq_nonneg (s 0 * p 0), sq_nonneg (s 1 * p 1), sq_nonneg (s 2 * p 2)]
        simpa [h2.ne'] using this
      have n3 : p 3 = 0 := by
        rw [hh, n0, n1, n2] at h3
        linarith
      have hp0 := hzero p n0 n1 n2 n3
      rw [hp0, Matrix.mulVec_zero, Matrix.mulVec_zero] at hPQ
      have := congrFun hPQ 2
      simp [hxt] at this
    have hl0 : l ≠ 0 := by
      intro h3
      rw [h3, Matrix.mulVec_zero] at hDl
      have := congrFun hDl 2
      simp [hxt] at this
    have hn : p 0 ≠ 0 ∨ p 1 ≠ 0 ∨ p 2 ≠ 0 := by
      by_contra hn
      simp only [not_or, not_not] at hn
      rw [hpQp, hn.1, hn.2.1, hn.2.2] at hq
      exact hh0 (pow_eq_zero_iff two_ne_zero |>.mp (by linarith))
    set X : Vec ℝ 3 := ![-(Q.mulVec p 0) / h, -(Q.mulVec p 1) / h, -(Q.mulVec p 2) / h] with hX
    have hXt : Q.mulVec p = -h • ![X 0, X 1, X 2, 1] := by
      ext i
      fin_cases i
      · simp [hX]; field_simp
      · simp [hX]; field_simp
      · simp [hX]; field_simp
      · simpa [hh] using hQlast p
    refine ⟨X, l, -1 / h, hl0, div_ne_zero (by norm_num) hh0, ?_, ?_⟩
    · rw [← hPQ, hXt, Matrix.mulVec_smul, smul_smul, show -1 / h * -h = 1 by field_simp, one_smul]
    · rw [touches_iff s h0 h1 h2 p hn]
      refine ⟨?_, hXt⟩
      have h3 : p ⬝ᵥ Q.mulVec p = -h * (p 0 * X 0 + p 1 * X 1 + p 2 * X 2 + p 3) := by
        rw [hXt]
        simp [dotProduct, Fin.sum_univ_four]
        ring
      rw [hpQp] at h3
      rcases mul_eq_zero.mp h3.symm with h4 | h4
      · exact absurd (neg_eq_zero.mp h4) hh0
      · exact h4
  · rintro ⟨X, l, k, hl, hk, hPX, ht⟩
    set p := Pᵀ.mulVec l with hp
    have hDl : (P * Q * Pᵀ).mulVec l = P.mulVec (Q.mulVec p) := by
      rw [hp, Matrix.mulVec_mulVec, Matrix.mulVec_mulVec]
    have hCDl : C.mulVec ((P * Q * Pᵀ).mulVec l) = l := by rw [Matrix.mulVec_mulVec, hCD, Matrix.one_mulVec]
    have hn : p 0 ≠ 0 ∨ p 1 ≠ 0 ∨ p 2 ≠ 0 := by
      by_contra hn
      simp only [not_or, not_not] at hn
      have hpl := ht.2.1
      rw [hn.1, hn.2.1, hn.2.2] at hpl
      have hp0 := hzero p hn.1 hn.2.1 hn.2.2 (by linarith)
      rw [hp0, Matrix.mulVec_zero, Matrix.mulVec_zero] at hDl
      rw [hDl, Matrix.mulVec_zero] at hCDl
      exact hl hCDl.symm
    rw [touches_iff s h0 h1 h2 p hn] at ht
    obtain ⟨hpl, hXt⟩ := ht
    set h := p 0 * s 3 + p 1 * s 4 + p 2 * s 5 + p 3 with hh
    have e1 : (P * Q * Pᵀ).mulVec l = (-h * k) • xt := by
      rw [hDl, hXt, Matrix.mulVec_smul, hPX, smul_smul]
    have e2 : l = (-h * k) • C.mulVec xt := by rw [← hCDl, e1, Matrix.mulVec_smul]
    have hhk : -h * k ≠ 0 := by
      intro h3
      rw [h3, zero_smul] at e2
      exact hl e2
    have e3 : l ⬝ᵥ (P * Q * Pᵀ).mulVec l = 0 := by
      rw [← hform, ← hp, hXt]
      simp [dotProduct, Fin.sum_univ_four]
      linear_combination -h * hpl
    rw [e1] at e3
    rw [e2] at e3
    simp only [smul_dotProduct, dotProduct_smul, smul_eq_mul] at e3
    rw [dotProduct_comm]
    rcases mul_eq_zero.mp e3 with h4 | h4
    · exact absurd h4 hhk
    · rcases mul_eq_zero.mp h4 with h5 | h5
      · exact absurd h5 hhk
      · exact h5

example : projectEllipsoid (!![1, 0, 0, 0; 0, 1, 0, 0; 0, 0, 1, 0] : Mat ℚ 3 4) ![1, 1, 1, 0, 0, 5] = some ![1, 0, 1, 0, 0, -1 / 24] := by
  simp [projectEllipsoid, ellipsoidLineConic, Conic.inverse, Conic.inverseDenominator]
  norm_num

/-- A spheroid is given by two semi-axes and a position in the plane `z = 0`, on which it stands. -/
theorem C35_spheroid (P : Mat ℝ 3 4) (r height px py : ℝ) (hr : 0 < r) (hz : 0 < height) :
    ∃ s : Vec ℝ 6, projectSpheroid P ![r, height, px, py] = projectEllipsoid P s ∧ s 0 = r ∧ s 1 = r ∧ s 2 = height ∧
      TouchesEllipsoidAt s ![0, 0, 1, 0] ![px, py, 0] := by
  refine ⟨![r, r, height, px, py, height], rfl, rfl, rfl, rfl, ?_⟩
  rw [touches_iff _ (by simpa) (by simpa) (by simpa) _ (by simp)]
  refine ⟨by simp, ?_⟩
  ext i
  fin_cases i <;> simp [toMatrix, ofEllipsoid, Matrix.mulVec, dotProduct, Fin.sum_univ_four] <;> ring

end Ubitrack.Quadric
