import Mathlib.Analysis.SpecialFunctions.PolarCoord
import Mathlib.MeasureTheory.Function.JacobianOneDim
import Mathlib.MeasureTheory.Measure.Lebesgue.EqHaar
import Mathlib.Analysis.SpecialFunctions.Integrals.Basic
import Mathlib.Analysis.SpecialFunctions.Trigonometric.InverseDeriv

/-!
# The uniform distribution on the unit sphere of the four-dimensional space

Helper for C88: polar coordinates in both planes of the four-dimensional space.
-/

namespace Ubitrack.SphereMeasure

open MeasureTheory Set Real
open scoped ENNReal

/-- Two planes. -/
abbrev Space := (ℝ × ℝ) × (ℝ × ℝ)

/-- The squared length. -/
def lengthSq (p : Space) : ℝ := p.1.1 ^ 2 + p.1.2 ^ 2 + (p.2.1 ^ 2 + p.2.2 ^ 2)

/-- The point of the sphere for three numbers. -/
noncomputable def point (x y z : ℝ) : Space :=
  ((√(1 - x) * cos (2 * y * π), √(1 - x) * sin (2 * y * π)), (√x * cos (2 * z * π), √x * sin (2 * z * π)))

/-- The points in the unit ball whose direction is in a set. -/
def cone (B : Set Space) : Set Space := {p | lengthSq p < 1 ∧ (1 / √(lengthSq p)) • p ∈ B}

theorem measurable_lengthSq : Measurable lengthSq := by
  unfold lengthSq
  fun_prop

theorem measurableSet_cone {B : Set Space} (hB : MeasurableSet B) : MeasurableSet (cone B) := by
  refine MeasurableSet.inter (measurableSet_lt measurable_lengthSq measurable_const) ?_
  have : Measurable fun p : Space => (1 / √(lengthSq p)) • p := by
    have h := measurable_lengthSq
    fun_prop
  exact this hB

/-- Integration over the plane in polar coordinates, as two integrals. -/
theorem lintegral_polar (f : ℝ × ℝ → ℝ≥0∞) (hf : Measurable f) :
    ∫⁻ p, f p = ∫⁻ r in Ioi (0 : ℝ), ∫⁻ t in Ioo (-π) π, ENNReal.ofReal r * f (r * cos t, r * sin t) := by
  rw [← lintegral_comp_polarCoord_symm f]
  have hm : Measurable fun p : ℝ × ℝ => ENNReal.ofReal p.1 • f (p.1 * cos p.2, p.1 * sin p.2) := by
    simp only [smul_eq_mul]
    fun_prop
  calc ∫⁻ p in polarCoord.target, ENNReal.ofReal p.1 • f (polarCoord.symm p)
      = ∫⁻ p, ENNReal.ofReal p.1 • f (p.1 * cos p.2, p.1 * sin p.2) ∂((volume.restrict (Ioi (0 : ℝ))).prod (volume.restrict (Ioo (-π) π))) := by
        rw [Measure.prod_restrict]
        rfl
    _ = _ := by
        rw [lintegral_prod _ hm.aemeasurable]
        rfl

theorem pos_of_mul_pos_right' {a b : ℝ} (h : 0 < a * b) (ha : 0 < a) : 0 < b := by
  by_contra hb
  nlinarith

/-- A quarter of the plane in polar coordinates. -/
theorem lintegral_quarter (f : ℝ → ℝ → ℝ≥0∞) (hf : Measurable (Function.uncurry f)) :
    ∫⁻ a in Ioi (0 : ℝ), ∫⁻ b in Ioi (0 : ℝ), f a b =
      ∫⁻ t in Ioo 0 (π / 2), ∫⁻ r in Ioi (0 : ℝ), ENNReal.ofReal r * f (r * cos t) (r * sin t) := by
  have hq : MeasurableSet (Ioi (0 : ℝ) ×ˢ Ioi (0 : ℝ)) := measurableSet_Ioi.prod measurableSet_Ioi
  have h1 : ∫⁻ a in Ioi (0 : ℝ), ∫⁻ b in Ioi (0 : ℝ), f a b = ∫⁻ p, (Ioi (0 : ℝ) ×ˢ Ioi (0 : ℝ)).indicator (Function.uncurry f) p := by
    rw [lintegral_indicator hq]
    change _ = ∫⁻ p, _ ∂(((volume : Measure ℝ).prod (volume : Measure ℝ)).restrict (Ioi (0 : ℝ) ×ˢ Ioi (0 : ℝ)))
    rw [← Measure.prod_restrict, lintegral_prod _ hf.aemeasurable]
    rfl
  rw [h1, lintegral_polar _ (hf.indicator hq), lintegral_lintegral_swap]
  · have hsub : Ioo 0 (π / 2) ⊆ Ioo (-π) π := fun t ht => ⟨by linarith [ht.1, pi_pos], by linarith [ht.2, pi_pos]⟩
    rw [← lintegral_indicator measurableSet_Ioo, ← lintegral_indicator measurableSet_Ioo]
    refine lintegral_congr fun t => ?_
    by_cases ht : t ∈ Ioo 0 (π / 2)
    · rw [indicator_of_mem ht, indicator_of_mem (hsub ht)]
      refine setLIntegral_congr_fun measurableSet_Ioi fun r hr => ?_
      have hc : 0 < cos t := cos_pos_of_mem_Ioo ⟨by linarith [ht.1, pi_pos], ht.2⟩
      have hs : 0 < sin t := sin_pos_of_pos_of_lt_pi ht.1 (by linarith [ht.2, pi_pos])
      beta_reduce
      have hmem : ((r * cos t, r * sin t) : ℝ × ℝ) ∈ Ioi (0 : ℝ) ×ˢ Ioi (0 : ℝ) := ⟨mul_pos hr hc, mul_pos hr hs⟩
      rw [indicator_of_mem hmem]
      rfl
    · rw [indicator_of_notMem ht]
      by_cases ht' : t ∈ Ioo (-π) π
      · rw [indicator_of_mem ht']
        refine (setLIntegral_congr_fun (g := fun _ => 0) measurableSet_Ioi fun r hr => ?_).trans (by simp)
        simp only
        rw [indicator_of_notMem, mul_zero]
        rintro ⟨h1, h2⟩
        have hc : 0 < cos t := pos_of_mul_pos_right' h1 hr
        have hs : 0 < sin t := pos_of_mul_pos_right' h2 hr
        apply ht
        constructor
        · by_contra h
          have := sin_nonpos_of_nonpos_of_neg_pi_le (not_lt.1 h) ht'.1.le
          linarith
        · by_contra h
          have := cos_nonpos_of_pi_div_two_le_of_le (not_lt.1 h) (by linarith [ht'.2, pi_pos])
          linarith
      · rw [indicator_of_notMem ht']
  · refine Measurable.aemeasurable ?_
    have : Measurable ((Ioi (0 : ℝ) ×ˢ Ioi (0 : ℝ)).indicator (Function.uncurry f)) := hf.indicator hq
    have h2 : Measurable fun p : ℝ × ℝ => ((p.1 * cos p.2, p.1 * sin p.2) : ℝ × ℝ) := by fun_prop
    exact (ENNReal.measurable_ofReal.comp measurable_fst).mul (this.comp h2)

/-- Squared sine as a new variable. -/
theorem lintegral_sin_sq (g : ℝ → ℝ≥0∞) :
    ∫⁻ x in Ioo (0 : ℝ) 1, g x = ∫⁻ t in Ioo 0 (π / 2), ENNReal.ofReal (2 * sin t * cos t) * g (sin t ^ 2) := by
  have hpos : ∀ t ∈ Ioo 0 (π / 2), 0 < cos t ∧ 0 < sin t := fun t ht =>
    ⟨cos_pos_of_mem_Ioo ⟨by linarith [ht.1, pi_pos], ht.2⟩, sin_pos_of_pos_of_lt_pi ht.1 (by linarith [ht.2, pi_pos])⟩
  have himg : (fun t => sin t ^ 2) '' Ioo 0 (π / 2) = Ioo (0 : ℝ) 1 := by
    ext x
    constructor
    · rintro ⟨t, ht, rfl⟩
      obtain ⟨hc, hs⟩ := hpos t ht
      refine ⟨by positivity, ?_⟩
      have := sin_sq_add_cos_sq t
      nlinarith
    · rintro ⟨h0, h1⟩
      have hx0 : 0 < √x := Real.sqrt_pos.2 h0
      have hx1 : √x < 1 := by rw [Real.sqrt_lt' one_pos]; simpa using h1
      refine ⟨arcsin √x, ⟨arcsin_pos.2 hx0, arcsin_lt_pi_div_two.2 hx1⟩, ?_⟩
      simp only
      rw [sin_arcsin (by linarith) hx1.le, Real.sq_sqrt h0.le]
  rw [← himg, lintegral_image_eq_lintegral_abs_deriv_mul (f' := fun t => 2 * sin t * cos t) measurableSet_Ioo]
  · refine setLIntegral_congr_fun measurableSet_Ioo fun t ht => ?_
    obtain ⟨hc, hs⟩ := hpos t ht
    rw [abs_of_pos (by positivity)]
  · intro t _
    have := ((hasDerivAt_sin t).pow 2).hasDerivWithinAt (s := Ioo 0 (π / 2))
    have h2 : HasDerivWithinAt (fun t => sin t ^ 2) (2 * sin t * cos t) (Ioo 0 (π / 2)) t := by
      refine this.congr_deriv ?_
      norm_num
    exact h2
  · intro a ha b hb h
    simp only at h
    have h1 := (hpos a ha).2
    have h2 := (hpos b hb).2
    have h3 : sin a = sin b := by nlinarith [mul_pos h1 h2, sq_nonneg (sin a - sin b), sq_nonneg (sin a + sin b), mul_self_nonneg (sin a - sin b)]
    exact injOn_sin ⟨by linarith [ha.1, pi_pos], ha.2.le⟩ ⟨by linarith [hb.1, pi_pos], hb.2.le⟩ h3

/-- An angle as a fraction of a full turn. -/
theorem lintegral_turn (h : ℝ → ℝ≥0∞) : ∫⁻ t in Ioo (-π) π, h t = ENNReal.ofReal (2 * π) * ∫⁻ y in Ioo (0 : ℝ) 1, h (2 * y * π - π) := by
  have himg : (fun y : ℝ => 2 * y * π - π) '' Ioo 0 1 = Ioo (-π) π := by
    ext x
    constructor
    · rintro ⟨y, ⟨h0, h1⟩, rfl⟩
      constructor <;> simp only <;> nlinarith [pi_pos]
    · rintro ⟨h0, h1⟩
      refine ⟨(x + π) / (2 * π), ⟨by have := pi_pos; apply div_pos <;> linarith, ?_⟩, ?_⟩
      · rw [div_lt_one (by linarith [pi_pos])]
        linarith
      · have := pi_pos.ne'
        simp only
        field_simp
        ring
  rw [← himg, lintegral_image_eq_lintegral_abs_deriv_mul (f' := fun _ => 2 * π) measurableSet_Ioo]
  · rw [abs_of_pos (by linarith [pi_pos]), lintegral_const_mul' _ _ ENNReal.ofReal_ne_top]
  · intro y _
    have := ((((hasDerivAt_id y).const_mul 2).mul_const π).sub_const π).hasDerivWithinAt (s := Ioo 0 1)
    simpa using this
  · intro a _ b _ h
    simp only at h
    have : (a - b) * π = 0 := by linarith
    rcases mul_eq_zero.1 this with h | h
    · linarith
    · exact absurd h pi_pos.ne'

/-- The characteristic function of a set. -/
noncomputable def ind (B : Set Space) (p : Space) : ℝ≥0∞ := B.indicator 1 p

theorem measurable_ind {B : Set Space} (hB : MeasurableSet B) : Measurable (ind B) := measurable_one.indicator hB

/-- The integral of the third power. -/
theorem lintegral_cube : ∫⁻ r in Ioo (0 : ℝ) 1, ENNReal.ofReal (r ^ 3) = ENNReal.ofReal (1 / 4) := by
  rw [← ofReal_integral_eq_lintegral_ofReal]
  · congr 1
    rw [← integral_Ioc_eq_integral_Ioo, ← intervalIntegral.integral_of_le zero_le_one, integral_pow]
    norm_num
  · have : IntegrableOn (fun r : ℝ => r ^ 3) (Icc 0 1) := (continuous_pow 3).continuousOn.integrableOn_Icc
    exact this.mono_set Ioo_subset_Icc_self
  · exact (ae_restrict_mem measurableSet_Ioo).mono fun r hr => pow_nonneg hr.1.le 3

theorem lengthSq_scaled (r t u v : ℝ) :
    lengthSq ((r * cos t * cos u, r * cos t * sin u), (r * sin t * cos v, r * sin t * sin v)) = r ^ 2 := by
  unfold lengthSq
  have h1 := sin_sq_add_cos_sq u
  have h2 := sin_sq_add_cos_sq v
  have h3 := sin_sq_add_cos_sq t
  calc _ = r ^ 2 * (cos t ^ 2 * (sin u ^ 2 + cos u ^ 2) + sin t ^ 2 * (sin v ^ 2 + cos v ^ 2)) := by ring
    _ = r ^ 2 * (sin t ^ 2 + cos t ^ 2) := by rw [h1, h2]; ring
    _ = r ^ 2 := by rw [h3, mul_one]

/-- The two radii for given directions in the two planes. -/
theorem lintegral_radii {B : Set Space} (hB : MeasurableSet B) (u v : ℝ) :
    ∫⁻ a in Ioi (0 : ℝ), ∫⁻ b in Ioi (0 : ℝ), ENNReal.ofReal a * (ENNReal.ofReal b * ind (cone B) ((a * cos u, a * sin u), (b * cos v, b * sin v))) =
      ENNReal.ofReal (1 / 8) * ∫⁻ x in Ioo (0 : ℝ) 1, ind B ((√(1 - x) * cos u, √(1 - x) * sin u), (√x * cos v, √x * sin v)) := by
  have hc := measurable_ind (measurableSet_cone hB)
  rw [lintegral_quarter, lintegral_sin_sq, ← lintegral_const_mul' _ _ ENNReal.ofReal_ne_top]
  · refine setLIntegral_congr_fun measurableSet_Ioo fun t ht => ?_
    have hct : 0 < cos t := cos_pos_of_mem_Ioo ⟨by linarith [ht.1, pi_pos], ht.2⟩
    have hst : 0 < sin t := sin_pos_of_pos_of_lt_pi ht.1 (by linarith [ht.2, pi_pos])
    have h1 : √(1 - sin t ^ 2) = cos t := by
      rw [← cos_sq', Real.sqrt_sq hct.le]
    have h2 : √(sin t ^ 2) = sin t := Real.sqrt_sq hst.le
    simp only [h1, h2]
    have hint : ∀ r ∈ Ioi (0 : ℝ), ENNReal.ofReal r * (ENNReal.ofReal (r * cos t) * (ENNReal.ofReal (r * sin t) *
        ind (cone B) ((r * cos t * cos u, r * cos t * sin u), (r * sin t * cos v, r * sin t * sin v)))) =
        (Ioo (0 : ℝ) 1).indicator (fun r => ENNReal.ofReal (r ^ 3)) r *
          (ENNReal.ofReal (sin t * cos t) * ind B ((cos t * cos u, cos t * sin u), (sin t * cos v, sin t * sin v))) := by
      intro r hr
      have hr : 0 < r := hr
      have hin : ind (cone B) ((r * cos t * cos u, r * cos t * sin u), (r * sin t * cos v, r * sin t * sin v)) =
          if r < 1 then ind B ((cos t * cos u, cos t * sin u), (sin t * cos v, sin t * sin v)) else 0 := by
        have hscale : (1 / √(r ^ 2)) • (((r * cos t * cos u, r * cos t * sin u), (r * sin t * cos v, r * sin t * sin v)) : Space) =
            ((cos t * cos u, cos t * sin u), (sin t * cos v, sin t * sin v)) := by
          rw [Real.sqrt_sq hr.le]
          simp only [Prod.smul_mk, smul_eq_mul, Prod.mk.injEq]
          refine ⟨⟨?_, ?_⟩, ?_, ?_⟩ <;> field_simp
        have hmem : (((r * cos t * cos u, r * cos t * sin u), (r * sin t * cos v, r * sin t * sin v)) : Space) ∈ cone B ↔
            r < 1 ∧ ((cos t * cos u, cos t * sin u), (sin t * cos v, sin t * sin v)) ∈ B := by
          unfold cone
          rw [mem_ofPred_eq, lengthSq_scaled, hscale, sq_lt_one_iff₀ hr.le]
        unfold ind
        by_cases h1 : r < 1
        · rw [if_pos h1]
          by_cases h2 : ((cos t * cos u, cos t * sin u), (sin t * cos v, sin t * sin v)) ∈ B
          · rw [indicator_of_mem h2, indicator_of_mem (hmem.2 ⟨h1, h2⟩)]
            rfl
          · rw [indicator_of_notMem h2, indicator_of_notMem fun h => h2 (hmem.1 h).2]
        · rw [if_neg h1, indicator_of_notMem fun h => h1 (hmem.1 h).1]
      rw [hin]
      by_cases h : r < 1
      · rw [if_pos h, indicator_of_mem (show r ∈ Ioo (0 : ℝ) 1 from ⟨hr, h⟩), ← mul_assoc, ← mul_assoc, ← mul_assoc, ← ENNReal.ofReal_mul (by positivity),
          ← ENNReal.ofReal_mul (by positivity), ← ENNReal.ofReal_mul (by positivity)]
        congr 2
        ring
      · rw [if_neg h, indicator_of_notMem (fun hm => h hm.2)]
        simp
    rw [setLIntegral_congr_fun measurableSet_Ioi hint, lintegral_mul_const', ← lintegral_indicator measurableSet_Ioi, indicator_indicator,
      inter_eq_right.2 Ioo_subset_Ioi_self, lintegral_indicator measurableSet_Ioo, lintegral_cube, ← mul_assoc, ← mul_assoc, ← ENNReal.ofReal_mul (by norm_num),
      ← ENNReal.ofReal_mul (by norm_num)]
    · congr 2
      ring
    · refine ENNReal.mul_ne_top ENNReal.ofReal_ne_top ?_
      unfold ind indicator
      split_ifs <;> simp
  · simp only [Function.uncurry_def]
    fun_prop

/-- The volume of a cone is a multiple of the measure of the numbers whose point is opposite to the base. -/
theorem volume_cone {B : Set Space} (hB : MeasurableSet B) :
    volume (cone B) = ENNReal.ofReal (2 * π) * (ENNReal.ofReal (2 * π) * (ENNReal.ofReal (1 / 8) *
      ∫⁻ y in Ioo (0 : ℝ) 1, ∫⁻ z in Ioo (0 : ℝ) 1, ∫⁻ x in Ioo (0 : ℝ) 1, ind B (-point x y z))) := by
  have hc := measurable_ind (measurableSet_cone hB)
  have hB' := measurable_ind hB
  have h0 : volume (cone B) = ∫⁻ p : ℝ × ℝ, ∫⁻ q : ℝ × ℝ, ind (cone B) (p, q) := by
    rw [← lintegral_indicator_one (measurableSet_cone hB)]
    change ∫⁻ a, ind (cone B) a ∂((volume : Measure (ℝ × ℝ)).prod (volume : Measure (ℝ × ℝ))) = _
    rw [lintegral_prod _ hc.aemeasurable]
  have h1 : ∀ p : ℝ × ℝ, ∫⁻ q : ℝ × ℝ, ind (cone B) (p, q) =
      ∫⁻ b in Ioi (0 : ℝ), ∫⁻ v in Ioo (-π) π, ENNReal.ofReal b * ind (cone B) (p, (b * cos v, b * sin v)) := fun p =>
    lintegral_polar (fun q => ind (cone B) (p, q)) (by fun_prop)
  rw [h0, lintegral_polar _ (by
    have : Measurable fun z : (ℝ × ℝ) × (ℝ × ℝ) => ind (cone B) (z.1, z.2) := by fun_prop
    exact this.lintegral_prod_right')]
  simp only [h1]
  rw [lintegral_lintegral_swap]
  · have h2 : ∀ u, ∫⁻ a in Ioi (0 : ℝ), ENNReal.ofReal a * ∫⁻ b in Ioi (0 : ℝ), ∫⁻ v in Ioo (-π) π,
          ENNReal.ofReal b * ind (cone B) ((a * cos u, a * sin u), (b * cos v, b * sin v)) =
        ∫⁻ v in Ioo (-π) π, ENNReal.ofReal (1 / 8) *
          ∫⁻ x in Ioo (0 : ℝ) 1, ind B ((√(1 - x) * cos u, √(1 - x) * sin u), (√x * cos v, √x * sin v)) := by
      intro u
      have h3 : ∀ a, ENNReal.ofReal a * ∫⁻ b in Ioi (0 : ℝ), ∫⁻ v in Ioo (-π) π,
          ENNReal.ofReal b * ind (cone B) ((a * cos u, a * sin u), (b * cos v, b * sin v)) =
          ∫⁻ v in Ioo (-π) π, ∫⁻ b in Ioi (0 : ℝ), ENNReal.ofReal a * (ENNReal.ofReal b * ind (cone B) ((a * cos u, a * sin u), (b * cos v, b * sin v))) := by
        intro a
        rw [lintegral_lintegral_swap]
        · rw [← lintegral_const_mul' _ _ ENNReal.ofReal_ne_top]
          refine lintegral_congr fun v => ?_
          rw [lintegral_const_mul' _ _ ENNReal.ofReal_ne_top]
        · refine Measurable.aemeasurable ?_
          simp only [Function.uncurry_def]
          fun_prop
      simp only [h3]
      rw [lintegral_lintegral_swap]
      · exact lintegral_congr fun v => lintegral_radii hB u v
      · refine Measurable.aemeasurable ?_
        have : Measurable fun z : (ℝ × ℝ) × ℝ => ENNReal.ofReal z.1.1 * (ENNReal.ofReal z.2 * ind (cone B) ((z.1.1 * cos u, z.1.1 * sin u), (z.2 * cos z.1.2, z.2 * sin z.1.2))) := by
          fun_prop
        exact this.lintegral_prod_right'
    simp only [h2]
    rw [lintegral_turn]
    congr 1
    have h4 : ∀ y, ∫⁻ v in Ioo (-π) π, ENNReal.ofReal (1 / 8) *
          ∫⁻ x in Ioo (0 : ℝ) 1, ind B ((√(1 - x) * cos (2 * y * π - π), √(1 - x) * sin (2 * y * π - π)), (√x * cos v, √x * sin v)) =
        ENNReal.ofReal (2 * π) * (ENNReal.ofReal (1 / 8) * ∫⁻ z in Ioo (0 : ℝ) 1, ∫⁻ x in Ioo (0 : ℝ) 1, ind B (-point x y z)) := by
      intro y
      rw [lintegral_turn, lintegral_const_mul' _ _ ENNReal.ofReal_ne_top]
      congr 2
      refine lintegral_congr fun z => lintegral_congr fun x => ?_
      congr 1
      unfold point
      simp only [cos_sub_pi, sin_sub_pi, Prod.neg_mk, mul_neg]
    simp only [h4]
    rw [lintegral_const_mul' _ _ ENNReal.ofReal_ne_top, lintegral_const_mul' _ _ ENNReal.ofReal_ne_top]
  · refine Measurable.aemeasurable ?_
    have h5 : Measurable fun z : ((ℝ × ℝ) × ℝ) × ℝ => ENNReal.ofReal z.1.2 * ind (cone B) ((z.1.1.1 * cos z.1.1.2, z.1.1.1 * sin z.1.1.2), (z.1.2 * cos z.2, z.1.2 * sin z.2)) := by
      fun_prop
    have h6 := (h5.lintegral_prod_right' (ν := volume.restrict (Ioo (-π) π))).lintegral_prod_right' (ν := volume.restrict (Ioi (0 : ℝ)))
    exact (ENNReal.measurable_ofReal.comp measurable_fst).mul h6

/-- The volume of the numbers (in the unit cube) whose point is in a set, as an integral. -/
noncomputable def fraction (B : Set Space) : ℝ≥0∞ := ∫⁻ y in Ioo (0 : ℝ) 1, ∫⁻ z in Ioo (0 : ℝ) 1, ∫⁻ x in Ioo (0 : ℝ) 1, ind B (point x y z)

/-- The points are distributed uniformly: a linear map that keeps lengths does not change the distribution. -/
theorem fraction_preimage {B : Set Space} (hB : MeasurableSet B) (A : Space →ₗ[ℝ] Space) (hA : ∀ p, lengthSq (A p) = lengthSq p) (hd : |LinearMap.det A| = 1) :
    fraction (A ⁻¹' B) = fraction B := by
  have hcont : Continuous A := A.continuous_of_finiteDimensional
  have key : ∀ B : Set Space, MeasurableSet B → volume (cone (-B)) = ENNReal.ofReal (2 * π) * (ENNReal.ofReal (2 * π) * (ENNReal.ofReal (1 / 8) * fraction B)) := by
    intro B hB
    have hm : MeasurableSet (-B) := measurable_neg hB
    rw [volume_cone hm]
    congr 3
    refine lintegral_congr fun y => lintegral_congr fun z => lintegral_congr fun x => ?_
    unfold ind
    by_cases h : point x y z ∈ B
    · rw [indicator_of_mem h, indicator_of_mem (by rwa [Set.mem_neg, neg_neg])]
      rfl
    · rw [indicator_of_notMem h, indicator_of_notMem (by rwa [Set.mem_neg, neg_neg])]
  have hcone : cone (-(A ⁻¹' B)) = A ⁻¹' cone (-B) := by
    ext p
    unfold cone
    simp only [mem_ofPred_eq, mem_preimage, Set.mem_neg, map_neg, map_smul, hA]
  have hdet : LinearMap.det A ≠ 0 := by
    intro h
    rw [h, abs_zero] at hd
    exact zero_ne_one hd
  have hvol : volume (cone (-(A ⁻¹' B))) = volume (cone (-B)) := by
    haveI h1 : (volume : Measure (ℝ × ℝ)).IsAddHaarMeasure := Measure.prod.instIsAddHaarMeasure volume volume
    haveI h2 : (volume : Measure Space).IsAddHaarMeasure := Measure.prod.instIsAddHaarMeasure volume volume
    rw [hcone, Measure.addHaar_preimage_linearMap _ hdet, abs_inv, hd]
    simp
  rw [key B hB, key _ (hcont.measurable hB)] at hvol
  have hp : ENNReal.ofReal (2 * π) ≠ 0 := by
    rw [Ne, ENNReal.ofReal_eq_zero, not_le]
    linarith [pi_pos]
  have h8 : ENNReal.ofReal (1 / 8) ≠ 0 := by
    rw [Ne, ENNReal.ofReal_eq_zero, not_le]
    norm_num
  rwa [ENNReal.mul_right_inj hp ENNReal.ofReal_ne_top, ENNReal.mul_right_inj hp ENNReal.ofReal_ne_top,
    ENNReal.mul_right_inj h8 ENNReal.ofReal_ne_top] at hvol

end Ubitrack.SphereMeasure
