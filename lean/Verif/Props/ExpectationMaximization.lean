import Verif.Props.Gaussian
import Mathlib.Analysis.Matrix.Order
import Mathlib.Analysis.Real.Pi.Bounds

/-!
# C66: expectation maximization
-/

namespace Ubitrack.Gaussian
open Spec
open scoped Matrix

/-! ## Inequalities -/

lemma log_det_trace {N : ℕ} (M : Mat ℝ N N) (hM : M.PosDef) : Real.log M.det + N ≤ M.trace := by
  have h1 := hM.1.det_eq_prod_eigenvalues
  have h2 := hM.1.trace_eq_sum_eigenvalues
  simp only [RCLike.ofReal_real_eq_id, id_eq] at h1 h2
  rw [h1, h2, Real.log_prod (fun i _ => (hM.eigenvalues_pos i).ne')]
  have : ((N : ℕ) : ℝ) = ∑ _i : Fin N, (1 : ℝ) := by simp
  rw [this, ← Finset.sum_add_distrib]
  refine Finset.sum_le_sum fun i _ => ?_
  have := Real.log_le_sub_one_of_pos (hM.eigenvalues_pos i)
  linarith

open scoped MatrixOrder Matrix.Norms.L2Operator in
lemma log_det_mle {N : ℕ} (C S : Mat ℝ N N) (hC : C.PosDef) (hS : S.PosDef) :
    Real.log S.det + N ≤ Real.log C.det + (C⁻¹ * S).trace := by
  obtain ⟨B, hB⟩ := CStarAlgebra.nonneg_iff_eq_star_mul_self.mp hC.inv.posSemidef.nonneg
  rw [Matrix.star_eq_conjTranspose] at hB
  have hdC := hC.det_pos
  have hdS := hS.det_pos
  have hdet : C⁻¹.det = B.det * B.det := by
    rw [hB, Matrix.det_mul, Matrix.conjTranspose_eq_transpose_of_trivial, Matrix.det_transpose]
  have hdi : C⁻¹.det = (C.det)⁻¹ := by rw [Matrix.det_nonsing_inv, Ring.inverse_eq_inv']
  have hB0 : B.det ≠ 0 := by
    intro h0
    rw [h0, hdi] at hdet
    have := inv_pos.mpr hdC
    linarith
  have hM : (B * S * Bᴴ).PosDef := by
    refine hS.mul_mul_conjTranspose_same ?_
    have : IsUnit B := (Matrix.isUnit_iff_isUnit_det _).mpr (isUnit_iff_ne_zero.mpr hB0)
    exact Matrix.vecMul_injective_of_isUnit this
  have h := log_det_trace _ hM
  have ht : (B * S * Bᴴ).trace = (C⁻¹ * S).trace := by
    rw [hB, Matrix.trace_mul_comm, ← Matrix.mul_assoc]
  have hd : (B * S * Bᴴ).det = (C.det)⁻¹ * S.det := by
    rw [Matrix.det_mul, Matrix.det_mul, Matrix.conjTranspose_eq_transpose_of_trivial, Matrix.det_transpose, ← hdi, hdet]
    ring
  rw [ht, hd, Real.log_mul (inv_pos.mpr hdC).ne' hdS.ne', Real.log_inv] at h
  linarith

lemma sum_swap_fin {α : Type*} {N : ℕ} (l : List α) (f : Fin N → α → ℝ) :
    (l.map fun p => ∑ a, f a p).sum = ∑ a, (l.map (f a)).sum := by
  induction l with
  | nil => simp
  | cons p l ih => simp [ih, Finset.sum_add_distrib]

lemma sum_swap {α β : Type*} (l : List α) (m : List β) (f : α → β → ℝ) :
    (l.map fun p => (m.map (f p)).sum).sum = (m.map fun q => (l.map fun p => f p q).sum).sum := by
  induction l with
  | nil => simp
  | cons p l ih => simp [ih, List.sum_map_add]

lemma quadratic_eq {N : ℕ} (M : Mat ℝ N N) (m v : Vec ℝ N) : quadratic M m v = (v - m) ⬝ᵥ (M *ᵥ (v - m)) := by
  simp only [quadratic, foldl_add, zero_add, dotProduct, Matrix.mulVec, Fin.sum_univ_def, Pi.sub_apply]
  congr 1
  exact List.map_congr_left fun a _ => mul_comm _ _

lemma quad_sum {N : ℕ} (l : List (ℝ × Vec ℝ N)) (hw : (l.map Prod.fst).sum = 1) (M : Mat ℝ N N) (m : Vec ℝ N) :
    (l.map fun p => p.1 * ((p.2 - m) ⬝ᵥ (M *ᵥ (p.2 - m)))).sum =
      (M * weightedCovariance l).trace + (weightedMean l - m) ⬝ᵥ (M *ᵥ (weightedMean l - m)) := by
  have hs : ∀ a b, (l.map fun p => p.1 * (p.2 a - m a) * (p.2 b - m b)).sum =
      weightedCovariance l b a + (weightedMean l a - m a) * (weightedMean l b - m b) := by
    intro a b
    have hm : ∀ a, (l.map fun p => p.1 * p.2 a).sum = weightedMean l a := by
      intro a
      simp [weightedMean, hw]
    have hc : (l.map fun p => p.1 * (p.2 b - weightedMean l b) * (p.2 a - weightedMean l a)).sum = weightedCovariance l b a := by
      simp [weightedCovariance, hw]
    rw [← hc]
    have ha := hm a
    have hb := hm b
    generalize weightedMean l = μ at *
    have e : ∀ p : ℝ × Vec ℝ N, p.1 * (p.2 a - m a) * (p.2 b - m b) =
        p.1 * (p.2 b - μ b) * (p.2 a - μ a) + (p.1 * p.2 a * (μ b - m b) + (p.1 * p.2 b * (μ a - m a) + p.1 * (m a * m b - μ a * μ b))) := by
      intro p
      ring
    simp only [e, List.sum_map_add, sum_mul_const, ha, hb]
    rw [show (l.map fun i => i.1).sum = 1 from hw]
    ring
  have e1 : ∀ p : ℝ × Vec ℝ N, p.1 * ((p.2 - m) ⬝ᵥ (M *ᵥ (p.2 - m))) =
      ∑ a, ∑ b, p.1 * (p.2 a - m a) * (p.2 b - m b) * M a b := by
    intro p
    simp only [dotProduct, Matrix.mulVec, Pi.sub_apply, Finset.mul_sum]
    exact Finset.sum_congr rfl fun a _ => Finset.sum_congr rfl fun b _ => by ring
  simp only [e1, sum_swap_fin, sum_mul_const, hs]
  simp only [Matrix.trace, Matrix.diag, Matrix.mul_apply, dotProduct, Matrix.mulVec, Pi.sub_apply, Finset.mul_sum,
    ← Finset.sum_add_distrib]
  exact Finset.sum_congr rfl fun a _ => Finset.sum_congr rfl fun b _ => by ring

lemma log_density {N : ℕ} (m : Vec ℝ N) (C : Mat ℝ N N) (hC : 0 < C.det) (x : Vec ℝ N) :
    Real.log (normalDensity m C x) =
      -(1 / 2) * ((x - m) ⬝ᵥ (C⁻¹ *ᵥ (x - m))) - 1 / 2 * (Real.log ((2 * Real.pi) ^ N) + Real.log C.det) := by
  have hp : 0 < (2 * Real.pi) ^ N := by positivity
  rw [normalDensity, Real.log_div (Real.exp_pos _).ne' (Real.sqrt_pos.mpr (mul_pos hp hC)).ne', Real.log_exp, Real.log_sqrt (mul_pos hp hC).le,
    Real.log_mul hp.ne' hC.ne']
  ring

lemma density_pos {N : ℕ} (m : Vec ℝ N) (C : Mat ℝ N N) (hC : 0 < C.det) (x : Vec ℝ N) : 0 < normalDensity m C x :=
  div_pos (Real.exp_pos _) (Real.sqrt_pos.mpr (mul_pos (by positivity) hC))

/-- No normal distribution gives weighted values a larger likelihood than the one with their mean and covariance. -/
lemma gaussian_mle {N : ℕ} (l : List (ℝ × Vec ℝ N)) (hw : (l.map Prod.fst).sum = 1) (hS : (weightedCovariance l).PosDef)
    (m : Vec ℝ N) (C : Mat ℝ N N) (hC : C.PosDef) :
    (l.map fun p => p.1 * Real.log (normalDensity m C p.2)).sum ≤
      (l.map fun p => p.1 * Real.log (normalDensity (weightedMean l) (weightedCovariance l) p.2)).sum := by
  have key : ∀ (m : Vec ℝ N) (C : Mat ℝ N N), 0 < C.det → (l.map fun p => p.1 * Real.log (normalDensity m C p.2)).sum =
      -(1 / 2) * ((C⁻¹ * weightedCovariance l).trace + (weightedMean l - m) ⬝ᵥ (C⁻¹ *ᵥ (weightedMean l - m))) -
        1 / 2 * (Real.log ((2 * Real.pi) ^ N) + Real.log C.det) := by
    intro m C hC
    have e : ∀ p : ℝ × Vec ℝ N, p.1 * Real.log (normalDensity m C p.2) =
        p.1 * ((p.2 - m) ⬝ᵥ (C⁻¹ *ᵥ (p.2 - m))) * (-(1 / 2)) + p.1 * (-(1 / 2) * (Real.log ((2 * Real.pi) ^ N) + Real.log C.det)) := by
      intro p
      rw [log_density m C hC]
      ring
    simp only [e, List.sum_map_add, sum_mul_const]
    rw [quad_sum l hw, show (l.map fun i => i.1).sum = 1 from hw]
    ring
  rw [key m C hC.det_pos, key _ _ hS.det_pos, sub_self, zero_dotProduct]
  have h1 := log_det_mle C _ hC hS
  have h2 := hC.inv.posSemidef.dotProduct_mulVec_nonneg (weightedMean l - m)
  rw [star_trivial] at h2
  have h3 : ((weightedCovariance l)⁻¹ * weightedCovariance l).trace = N := by
    rw [Matrix.nonsing_inv_mul _ (isUnit_iff_ne_zero.mpr hS.det_pos.ne'), Matrix.trace_one]
    simp
  rw [h3]
  linarith

lemma sum_neg_map {α : Type*} (l : List α) (f : α → ℝ) : (l.map fun x => -f x).sum = -(l.map f).sum := by
  induction l with
  | nil => simp
  | cons x l ih => simp [ih, add_comm]

/-- Jensen's inequality, as it is used for the responsibilities. -/
lemma jensen {α : Type*} (l : List α) (a a' : α → ℝ) (h0 : ∀ g ∈ l, 0 ≤ a g) (h0' : ∀ g ∈ l, 0 ≤ a' g) (h1 : ∀ g ∈ l, 0 < a g → 0 < a' g)
    (hA : 0 < (l.map a).sum) (hA' : 0 < (l.map a').sum) :
    (l.map fun g => a g / (l.map a).sum * (Real.log (a' g) - Real.log (a g))).sum ≤ Real.log (l.map a').sum - Real.log (l.map a).sum := by
  set A := (l.map a).sum with hAd
  set A' := (l.map a').sum with hAd'
  have ht : ∀ g ∈ l, a g / A * (Real.log (a' g) - Real.log (a g)) ≤ a' g / A' - a g / A + a g / A * (Real.log A' - Real.log A) := by
    intro g hg
    rcases (h0 g hg).eq_or_lt with h | h
    · rw [← h]
      simp only [zero_div, zero_mul, sub_zero, add_zero]
      exact div_nonneg (h0' g hg) hA'.le
    · have hp := h1 g hg h
      have hl := Real.log_le_sub_one_of_pos (div_pos (mul_pos hp hA) (mul_pos h hA'))
      rw [Real.log_div (mul_pos hp hA).ne' (mul_pos h hA').ne', Real.log_mul hp.ne' hA.ne', Real.log_mul h.ne' hA'.ne'] at hl
      have hm := mul_le_mul_of_nonneg_left hl (div_pos h hA).le
      have e : a g / A * (a' g * A / (a g * A') - 1) = a' g / A' - a g / A := by
        field_simp
      rw [e] at hm
      linarith
  refine (List.sum_le_sum ht).trans ?_
  rw [List.sum_map_add, sum_mul_const]
  have : (l.map fun i => a' i / A' - a i / A).sum = 0 := by
    simp only [sub_eq_add_neg, ← neg_div, List.sum_map_add, sum_div_const]
    rw [show (l.map fun i => -a i).sum = -A by rw [hAd]; exact (sum_neg_map l a), ← hAd', div_self hA'.ne', neg_div, div_self hA.ne']
    ring
  rw [this, sum_div_const, ← hAd, div_self hA.ne']
  linarith

/-! ## The density used by the code -/

/-- The factor by which the code's density differs from the normal density in `N` dimensions. -/
noncomputable def densityFactor (N : ℕ) : ℝ := Real.sqrt ((2 * Real.pi) ^ N) / Real.sqrt ((2 * 3.14159 : ℝ) ^ ((N : ℝ) * 0.5))

lemma densityFactor_pos (N : ℕ) : 0 < densityFactor N :=
  div_pos (Real.sqrt_pos.mpr (by positivity)) (Real.sqrt_pos.mpr (by positivity))

/-- **C66** What the code uses as density of a distribution is the normal density times a factor that depends on the number of
dimensions only. -/
theorem C66_density_partial {N : ℕ} (g : Gaussian N) (hd : 1e-10 < g.covariance.det) (x : Vec ℝ N) :
    probability g x = densityFactor N * normalDensity g.mean g.covariance x := by
  have hd0 : 0 < g.covariance.det := lt_trans (by norm_num) hd
  have h1 : (0 : ℝ) < (2 * 3.14159 : ℝ) ^ ((N : ℝ) * 0.5) := by positivity
  have h2 : (0 : ℝ) < (2 * Real.pi) ^ N := by positivity
  have hc : probabilityConstant g = (1 / Real.sqrt ((2 * 3.14159 : ℝ) ^ ((N : ℝ) * 0.5) * g.covariance.det), g.covariance⁻¹) := by
    simp only [probabilityConstant, abs_of_pos hd0]
    rw [if_pos hd]
  have hn : 1 / Real.sqrt ((2 * 3.14159 : ℝ) ^ ((N : ℝ) * 0.5) * g.covariance.det) ≠ 0 :=
    (one_div_pos.mpr (Real.sqrt_pos.mpr (mul_pos h1 hd0))).ne'
  simp only [probability, hc]
  rw [if_neg hn, quadratic_eq, normalDensity, densityFactor, Real.sqrt_mul h1.le, Real.sqrt_mul h2.le,
    show (-0.5 : ℝ) = -(1 / 2) by norm_num]
  have := (Real.sqrt_pos.mpr h1).ne'
  have := (Real.sqrt_pos.mpr h2).ne'
  have := (Real.sqrt_pos.mpr hd0).ne'
  field_simp

/-! ## One pass -/

/-- The weights, means and covariances of the distributions. -/
def mixture {N : ℕ} (gs : List (Weighted N)) : List (ℝ × Vec ℝ N × Mat ℝ N N) :=
  gs.map fun g => (g.weight, g.gaussian.mean, g.gaussian.covariance)

/-- The weights are not negative and sum to one. -/
def WeightsOk {N : ℕ} (gs : List (Weighted N)) : Prop := (∀ g ∈ gs, 0 ≤ g.weight) ∧ (gs.map Weighted.weight).sum = 1

/-- The covariances of the distributions that have a weight are positive definite, and their determinants are larger than the bound
below which the code takes a distribution as degenerate. -/
def Regular {N : ℕ} (gs : List (Weighted N)) : Prop :=
  ∀ g ∈ gs, 0 < g.weight → g.gaussian.covariance.PosDef ∧ 1e-10 < g.gaussian.covariance.det

/-- The summand of a distribution in the likelihood. -/
noncomputable def term {N : ℕ} (g : Weighted N) (v : Vec ℝ N) : ℝ := g.weight * probability g.gaussian v

lemma term_eq {N : ℕ} (gs : List (Weighted N)) (hw : WeightsOk gs) (hr : Regular gs) (v : Vec ℝ N) (g : Weighted N) (hg : g ∈ gs) :
    term g v = densityFactor N * (g.weight * normalDensity g.gaussian.mean g.gaussian.covariance v) := by
  rcases (hw.1 g hg).eq_or_lt with h | h
  · simp [term, ← h]
  · rw [term, C66_density_partial g.gaussian (hr g hg h).2]
    ring

lemma term_pos {N : ℕ} (g : Weighted N) (hw : 0 < g.weight) (hr : g.gaussian.covariance.PosDef ∧ 1e-10 < g.gaussian.covariance.det)
    (v : Vec ℝ N) : 0 < term g v := by
  rw [term, C66_density_partial g.gaussian hr.2]
  exact mul_pos hw (mul_pos (densityFactor_pos N) (density_pos _ _ hr.1.det_pos _))

lemma term_nonneg {N : ℕ} (gs : List (Weighted N)) (hw : WeightsOk gs) (hr : Regular gs) (v : Vec ℝ N) (g : Weighted N) (hg : g ∈ gs) :
    0 ≤ term g v := by
  rcases (hw.1 g hg).eq_or_lt with h | h
  · simp [term, ← h]
  · exact (term_pos g h (hr g hg h) v).le

lemma exists_weight {N : ℕ} (gs : List (Weighted N)) (hw : WeightsOk gs) : ∃ g ∈ gs, 0 < g.weight := by
  by_contra hn
  push Not at hn
  have : (gs.map Weighted.weight).sum ≤ 0 := by
    refine (List.sum_le_sum (g := fun _ => (0 : ℝ)) hn).trans ?_
    simp
  linarith [hw.2]

lemma sum_term_pos {N : ℕ} (gs : List (Weighted N)) (hw : WeightsOk gs) (hr : Regular gs) (v : Vec ℝ N) :
    0 < (gs.map fun g => term g v).sum := by
  obtain ⟨g, hg, h⟩ := exists_weight gs hw
  refine lt_of_lt_of_le (term_pos g h (hr g hg h) v) ?_
  refine List.single_le_sum ?_ _ (List.mem_map_of_mem (f := fun g => term g v) hg)
  intro x hx
  obtain ⟨g, hg, rfl⟩ := List.mem_map.mp hx
  exact term_nonneg gs hw hr v g hg

lemma mixture_sum {N : ℕ} (gs : List (Weighted N)) (hw : WeightsOk gs) (hr : Regular gs) (v : Vec ℝ N) :
    (gs.map fun g => term g v).sum = densityFactor N * ((mixture gs).map fun c => c.1 * normalDensity c.2.1 c.2.2 v).sum := by
  rw [mixture, List.map_map, ← List.sum_map_mul_left]
  congr 1
  exact List.map_congr_left fun g hg => term_eq gs hw hr v g hg

lemma mixture_likelihood {N : ℕ} (gs : List (Weighted N)) (hw : WeightsOk gs) (hr : Regular gs) (values : List (Vec ℝ N)) :
    (values.map fun v => Real.log (gs.map fun g => term g v).sum).sum =
      values.length * Real.log (densityFactor N) + mixtureLogLikelihood (mixture gs) values := by
  rw [mixtureLogLikelihood]
  have e : ∀ v, Real.log (gs.map fun g => term g v).sum =
      Real.log (densityFactor N) + Real.log ((mixture gs).map fun c => c.1 * normalDensity c.2.1 c.2.2 v).sum := by
    intro v
    have hp := sum_term_pos gs hw hr v
    rw [mixture_sum gs hw hr v] at hp ⊢
    have h2 := (mul_pos_iff_of_pos_left (densityFactor_pos N)).mp hp
    rw [Real.log_mul (densityFactor_pos N).ne' h2.ne']
  simp only [e, List.sum_map_add]
  simp

/-- The responsibility of a distribution for a value. -/
noncomputable def resp {N : ℕ} (gs : List (Weighted N)) (g : Weighted N) (v : Vec ℝ N) : ℝ := term g v / (gs.map fun g => term g v).sum

/-- The new distribution in `emStep`. -/
noncomputable def newWeighted {N : ℕ} (gs : List (Weighted N)) (values : List (Vec ℝ N)) (g : Weighted N) : Weighted N :=
  let s := (values.map (resp gs g)).sum
  if s = 0 then { g with weight := 0 }
  else ⟨(estimateWeighted (values.map fun v => (resp gs g v * (1 / s), v))).2, s / values.length⟩

lemma zip_map {α β : Type*} (l : List α) (f : α → β) : (l.map f).zip l = l.map fun x => (f x, x) := by
  induction l with
  | nil => rfl
  | cons x l ih => simp [ih]

lemma emStep_eq {N : ℕ} (gs : List (Weighted N)) (hw : WeightsOk gs) (hr : Regular gs) (values : List (Vec ℝ N)) :
    emStep gs values = some (gs.map (newWeighted gs values)) := by
  have hn : ∀ v, gs.foldl (fun s g => s + g.weight * probability g.gaussian v) 0 = (gs.map fun g => term g v).sum := by
    intro v
    rw [foldl_add, zero_add]
    rfl
  have hs : ∀ l : List ℝ, l.foldl (· + ·) 0 = l.sum := by
    intro l
    have := foldl_add l id 0
    simpa using this
  simp only [emStep, hn, hs]
  rw [if_neg]
  · congr 1
    refine List.map_congr_left fun g _ => ?_
    simp only [newWeighted]
    have e : (fun v => g.weight * probability g.gaussian v / (gs.map fun g => term g v).sum) = resp gs g := rfl
    rw [e, List.map_map, zip_map]
    rfl
  · rintro ⟨v, -, h⟩
    exact (sum_term_pos gs hw hr v).ne' h

lemma resp_nonneg {N : ℕ} (gs : List (Weighted N)) (hw : WeightsOk gs) (hr : Regular gs) (g : Weighted N) (hg : g ∈ gs) (v : Vec ℝ N) :
    0 ≤ resp gs g v :=
  div_nonneg (term_nonneg gs hw hr v g hg) (sum_term_pos gs hw hr v).le

lemma resp_sum {N : ℕ} (gs : List (Weighted N)) (hw : WeightsOk gs) (hr : Regular gs) (v : Vec ℝ N) :
    (gs.map fun g => resp gs g v).sum = 1 := by
  simp only [resp, sum_div_const]
  exact div_self (sum_term_pos gs hw hr v).ne'

lemma resp_sum_pos {N : ℕ} (gs : List (Weighted N)) (hw : WeightsOk gs) (hr : Regular gs) (values : List (Vec ℝ N)) (hv : values ≠ [])
    (g : Weighted N) (hg : g ∈ gs) (h : 0 < g.weight) : 0 < (values.map (resp gs g)).sum := by
  refine List.sum_pos _ ?_ (by simpa using hv)
  intro x hx
  obtain ⟨v, _, rfl⟩ := List.mem_map.mp hx
  exact div_pos (term_pos g h (hr g hg h) v) (sum_term_pos gs hw hr v)

lemma resp_sum_zero {N : ℕ} (gs : List (Weighted N)) (values : List (Vec ℝ N)) (g : Weighted N) (h : g.weight = 0) :
    (values.map (resp gs g)).sum = 0 := by
  have : resp gs g = fun _ => 0 := by
    funext v
    simp [resp, term, h]
  simp [this]

lemma newWeighted_weight {N : ℕ} (gs : List (Weighted N)) (values : List (Vec ℝ N)) (g : Weighted N) :
    (newWeighted gs values g).weight = (values.map (resp gs g)).sum / values.length := by
  by_cases h : (values.map (resp gs g)).sum = 0
  · simp [newWeighted, h]
  · simp [newWeighted, h]

lemma scaled_sum {N : ℕ} (gs : List (Weighted N)) (values : List (Vec ℝ N)) (g : Weighted N) (h : (values.map (resp gs g)).sum ≠ 0) :
    ((values.map fun v => (resp gs g v * (1 / (values.map (resp gs g)).sum), v)).map Prod.fst).sum = 1 := by
  simp only [List.map_map, Function.comp_def, sum_mul_const]
  exact mul_one_div_cancel h

lemma newWeighted_gaussian {N : ℕ} (gs : List (Weighted N)) (values : List (Vec ℝ N)) (g : Weighted N) (h : (values.map (resp gs g)).sum ≠ 0) :
    (newWeighted gs values g).gaussian.mean = weightedMean (values.map fun v => (resp gs g v * (1 / (values.map (resp gs g)).sum), v)) ∧
    (newWeighted gs values g).gaussian.covariance = weightedCovariance (values.map fun v => (resp gs g v * (1 / (values.map (resp gs g)).sum), v)) := by
  have := C65_weighted _ (scaled_sum gs values g h)
  simp only [newWeighted, if_neg h]
  exact ⟨this.2.1, this.2.2.1⟩

lemma new_weights {N : ℕ} (gs : List (Weighted N)) (hw : WeightsOk gs) (hr : Regular gs) (values : List (Vec ℝ N)) (hv : values ≠ []) :
    WeightsOk (gs.map (newWeighted gs values)) := by
  have hn : (0 : ℝ) < values.length := by exact_mod_cast List.length_pos_iff.mpr hv
  constructor
  · intro g' hg'
    obtain ⟨g, hg, rfl⟩ := List.mem_map.mp hg'
    rw [newWeighted_weight]
    refine div_nonneg (List.sum_nonneg fun x hx => ?_) hn.le
    obtain ⟨v, _, rfl⟩ := List.mem_map.mp hx
    exact resp_nonneg gs hw hr g hg v
  · simp only [List.map_map, Function.comp_def, newWeighted_weight, sum_div_const]
    rw [show (gs.map fun g => (values.map (resp gs g)).sum).sum = (values.map fun v => (gs.map fun g => resp gs g v).sum).sum from
      sum_swap gs values (resp gs)]
    simp only [resp_sum gs hw hr]
    simp [hn.ne']

lemma new_psd {N : ℕ} (gs : List (Weighted N)) (hw : WeightsOk gs) (hr : Regular gs) (values : List (Vec ℝ N))
    (g : Weighted N) (hg : g ∈ gs) (h : (values.map (resp gs g)).sum ≠ 0) :
    (newWeighted gs values g).gaussian.covariance.PosSemidef := by
  have hs : 0 ≤ (values.map (resp gs g)).sum := List.sum_nonneg fun x hx => by
    obtain ⟨v, _, rfl⟩ := List.mem_map.mp hx
    exact resp_nonneg gs hw hr g hg v
  simp only [newWeighted, if_neg h]
  refine (C65_covariance _ (scaled_sum gs values g h) ?_).1
  intro p hp
  obtain ⟨v, _, rfl⟩ := List.mem_map.mp hp
  exact mul_nonneg (resp_nonneg gs hw hr g hg v) (one_div_nonneg.mpr hs)

lemma new_regular {N : ℕ} (gs : List (Weighted N)) (hw : WeightsOk gs) (hr : Regular gs) (values : List (Vec ℝ N))
    (hd : ∀ g' ∈ gs.map (newWeighted gs values), 0 < g'.weight → 1e-10 < g'.gaussian.covariance.det) :
    Regular (gs.map (newWeighted gs values)) := by
  intro g' hg' hp
  have h1 := hd g' hg' hp
  refine ⟨?_, h1⟩
  obtain ⟨g, hg, rfl⟩ := List.mem_map.mp hg'
  have h : (values.map (resp gs g)).sum ≠ 0 := by
    intro h0
    rw [newWeighted_weight, h0, zero_div] at hp
    exact lt_irrefl _ hp
  have h0 : (newWeighted gs values g).gaussian.covariance.det ≠ 0 := (lt_trans (by norm_num) h1).ne'
  exact (new_psd gs hw hr values g hg h).posDef_iff_det_ne_zero.mpr h0

/-- The part of the likelihood that belongs to one distribution. -/
lemma one_distribution {N : ℕ} (gs : List (Weighted N)) (hw : WeightsOk gs) (hr : Regular gs) (values : List (Vec ℝ N)) (hv : values ≠ [])
    (hr' : Regular (gs.map (newWeighted gs values))) (g : Weighted N) (hg : g ∈ gs) :
    (values.map (resp gs g)).sum - values.length * g.weight ≤
      (values.map fun v => resp gs g v * (Real.log (term (newWeighted gs values g) v) - Real.log (term g v))).sum := by
  have hn : (0 : ℝ) < values.length := by exact_mod_cast List.length_pos_iff.mpr hv
  rcases (hw.1 g hg).eq_or_lt with h | h
  · have hz : resp gs g = fun _ => 0 := by
      funext v
      simp [resp, term, ← h]
    rw [← h, hz]
    simp
  · have hs := resp_sum_pos gs hw hr values hv g hg h
    obtain ⟨hm, hc⟩ := newWeighted_gaussian gs values g hs.ne'
    have hwp : 0 < (newWeighted gs values g).weight := by
      rw [newWeighted_weight]
      exact div_pos hs hn
    have hg' : newWeighted gs values g ∈ gs.map (newWeighted gs values) := List.mem_map_of_mem hg
    obtain ⟨hpd, hdet⟩ := hr' _ hg' hwp
    obtain ⟨hpd0, hdet0⟩ := hr _ hg h
    have hl1 : ∀ v, Real.log (term (newWeighted gs values g) v) = Real.log (newWeighted gs values g).weight +
        (Real.log (densityFactor N) + Real.log (normalDensity (newWeighted gs values g).gaussian.mean (newWeighted gs values g).gaussian.covariance v)) := by
      intro v
      have hq := density_pos (newWeighted gs values g).gaussian.mean _ hpd.det_pos v
      rw [term, C66_density_partial _ hdet, Real.log_mul hwp.ne' (mul_pos (densityFactor_pos N) hq).ne',
        Real.log_mul (densityFactor_pos N).ne' hq.ne']
    have hl2 : ∀ v, Real.log (term g v) = Real.log g.weight +
        (Real.log (densityFactor N) + Real.log (normalDensity g.gaussian.mean g.gaussian.covariance v)) := by
      intro v
      have hq := density_pos g.gaussian.mean _ hpd0.det_pos v
      rw [term, C66_density_partial _ hdet0, Real.log_mul h.ne' (mul_pos (densityFactor_pos N) hq).ne',
        Real.log_mul (densityFactor_pos N).ne' hq.ne']
    rw [hc] at hpd
    have hmle := gaussian_mle _ (scaled_sum gs values g hs.ne') hpd g.gaussian.mean g.gaussian.covariance hpd0
    rw [← hc, ← hm] at hmle
    simp only [List.map_map, Function.comp_def] at hmle
    have hww := newWeighted_weight gs values g
    set s := (values.map (resp gs g)).sum with hsd
    set g' := newWeighted gs values g with hgd
    have e : ∀ v, resp gs g v * (Real.log (term g' v) - Real.log (term g v)) =
        resp gs g v * (Real.log g'.weight - Real.log g.weight) +
        (resp gs g v * (1 / s) * Real.log (normalDensity g'.gaussian.mean g'.gaussian.covariance v) * s +
        -(resp gs g v * (1 / s) * Real.log (normalDensity g.gaussian.mean g.gaussian.covariance v) * s)) := by
      intro v
      rw [hl1, hl2]
      have := hs.ne'
      field_simp
      ring
    simp only [e, List.sum_map_add, sum_mul_const, sum_neg_map]
    rw [show (values.map fun i => resp gs g i).sum = s from rfl]
    have hlog := Real.log_le_sub_one_of_pos (div_pos (mul_pos hn h) hs)
    rw [Real.log_div (mul_pos hn h).ne' hs.ne', Real.log_mul hn.ne' h.ne'] at hlog
    have hlw : Real.log g'.weight = Real.log s - Real.log values.length := by
      rw [hww, Real.log_div hs.ne' hn.ne']
    rw [hlw]
    have hm2 := mul_le_mul_of_nonneg_left hlog hs.le
    have e2 : s * (values.length * g.weight / s - 1) = values.length * g.weight - s := by
      field_simp
    rw [e2] at hm2
    nlinarith [mul_le_mul_of_nonneg_right hmle hs.le]

/-- **C66** One pass of expectation maximization, for weights that are not negative and sum to one, and distributions that are not
degenerate before and after the pass: the result has weights that are not negative and sum to one, its covariances are positive
definite, its weighted mean is the mean of the values, and the likelihood of the values does not decrease. -/
theorem C66_pass {N : ℕ} (gs : List (Weighted N)) (values : List (Vec ℝ N)) (hw : WeightsOk gs) (hr : Regular gs) (hv : values ≠ [])
    (hd : ∀ gs', emStep gs values = some gs' → ∀ g ∈ gs', 0 < g.weight → 1e-10 < g.gaussian.covariance.det) :
    ∃ gs', emStep gs values = some gs' ∧ gs'.length = gs.length ∧ WeightsOk gs' ∧ Regular gs' ∧
      (∀ i, (gs'.map fun g => g.weight * g.gaussian.mean i).sum = weightedMean (values.map fun v => (1, v)) i) ∧
      mixtureLogLikelihood (mixture gs) values ≤ mixtureLogLikelihood (mixture gs') values := by
  have hn : (0 : ℝ) < values.length := by exact_mod_cast List.length_pos_iff.mpr hv
  have hs := emStep_eq gs hw hr values
  have hw' := new_weights gs hw hr values hv
  have hr' := new_regular gs hw hr values (hd _ hs)
  refine ⟨_, hs, by simp, hw', hr', ?_, ?_⟩
  · intro i
    have e : ∀ g ∈ gs, (newWeighted gs values g).weight * (newWeighted gs values g).gaussian.mean i =
        (values.map fun v => resp gs g v * v i).sum / values.length := by
      intro g hg
      rcases (hw.1 g hg).eq_or_lt with h | h
      · have hz : resp gs g = fun _ => 0 := by
          funext v
          simp [resp, term, ← h]
        rw [newWeighted_weight, hz]
        simp
      · have hsp := resp_sum_pos gs hw hr values hv g hg h
        rw [newWeighted_weight, (newWeighted_gaussian gs values g hsp.ne').1, weightedMean, scaled_sum gs values g hsp.ne']
        simp only [List.map_map, Function.comp_def]
        have e1 : ∀ v : Vec ℝ N, resp gs g v * (1 / (values.map (resp gs g)).sum) * v i = resp gs g v * v i * (1 / (values.map (resp gs g)).sum) := by
          intro v
          ring
        simp only [e1, sum_mul_const]
        field_simp
    rw [List.map_map]
    simp only [Function.comp_def]
    rw [List.map_congr_left e, sum_div_const, sum_swap gs values (fun g v => resp gs g v * v i)]
    simp only [sum_mul_const, resp_sum gs hw hr, one_mul]
    simp [weightedMean, List.map_map, Function.comp_def]
  · have h1 := mixture_likelihood gs hw hr values
    have h2 := mixture_likelihood _ hw' hr' values
    have h3 : (values.map fun v => (gs.map fun g => resp gs g v * (Real.log (term (newWeighted gs values g) v) - Real.log (term g v))).sum).sum ≤
        (values.map fun v => Real.log ((gs.map (newWeighted gs values)).map fun g => term g v).sum - Real.log (gs.map fun g => term g v).sum).sum := by
      refine List.sum_le_sum fun v _ => ?_
      have hA' := sum_term_pos _ hw' hr' v
      rw [List.map_map] at hA' ⊢
      refine jensen gs (fun g => term g v) (fun g => term (newWeighted gs values g) v) (fun g hg => term_nonneg gs hw hr v g hg)
        (fun g hg => term_nonneg _ hw' hr' v _ (List.mem_map_of_mem hg)) ?_ (sum_term_pos gs hw hr v) hA'
      intro g hg hp
      have hgw : 0 < g.weight := by
        rcases (hw.1 g hg).eq_or_lt with h | h
        · simp [term, ← h] at hp
        · exact h
      have hwp : 0 < (newWeighted gs values g).weight := by
        rw [newWeighted_weight]
        exact div_pos (resp_sum_pos gs hw hr values hv g hg hgw) hn
      exact term_pos _ hwp (hr' _ (List.mem_map_of_mem hg) hwp) v
    rw [sum_swap values gs (fun v g => resp gs g v * (Real.log (term (newWeighted gs values g) v) - Real.log (term g v)))] at h3
    have h4 : (gs.map fun g => (values.map (resp gs g)).sum + -(g.weight * values.length)).sum ≤
        (gs.map fun g => (values.map fun v => resp gs g v * (Real.log (term (newWeighted gs values g) v) - Real.log (term g v))).sum).sum := by
      refine List.sum_le_sum fun g hg => ?_
      have := one_distribution gs hw hr values hv hr' g hg
      linarith
    have h5 : (gs.map fun g => (values.map (resp gs g)).sum + -(g.weight * values.length)).sum = 0 := by
      rw [List.sum_map_add, sum_neg_map, sum_mul_const, sum_swap gs values (resp gs)]
      simp only [resp_sum gs hw hr]
      rw [show (gs.map fun g => g.weight).sum = 1 from hw.2]
      simp
    simp only [sub_eq_add_neg, List.sum_map_add, sum_neg_map] at h3
    simp only [sub_eq_add_neg] at h4
    linarith

/-! ## All passes -/

lemma logLikelihood_eq {N : ℕ} (gs : List (Weighted N)) (values : List (Vec ℝ N)) (hw : WeightsOk gs) (hr : Regular gs) (hv : values ≠ []) :
    logLikelihood gs values = some (Real.log (densityFactor N) + mixtureLogLikelihood (mixture gs) values / values.length) := by
  have hn : (0 : ℝ) < values.length := by exact_mod_cast List.length_pos_iff.mpr hv
  have hf : ∀ v, gs.foldl (fun s g => s + g.weight * probability g.gaussian v) 0 = (gs.map fun g => term g v).sum := by
    intro v
    rw [foldl_add, zero_add]
    rfl
  have hs : ∀ l : List ℝ, l.foldl (· + ·) 0 = l.sum := by
    intro l
    have := foldl_add l id 0
    simpa using this
  simp only [logLikelihood, hf, hs]
  rw [if_neg]
  · rw [List.map_map]
    simp only [Function.comp_def]
    rw [mixture_likelihood gs hw hr values, add_div, mul_div_assoc, mul_div_cancel₀ _ hn.ne']
  · rintro (h | ⟨x, hx, h⟩)
    · exact hv (List.length_eq_zero_iff.mp h)
    · obtain ⟨v, -, rfl⟩ := List.mem_map.mp hx
      exact absurd (sum_term_pos gs hw hr v) (not_lt.mpr h)

/-- The distributions after `k` passes. -/
noncomputable def after {N : ℕ} (gs : List (Weighted N)) (values : List (Vec ℝ N)) (k : ℕ) : Option (List (Weighted N)) :=
  (fun o => o.bind fun g => emStep g values)^[k] (some gs)

lemma emLoop_ok {N : ℕ} (values : List (Vec ℝ N)) (hv : values ≠ []) (k : ℕ) (gs : List (Weighted N)) (hw : WeightsOk gs) (hr : Regular gs)
    (hd : ∀ j gs', after gs values j = some gs' → ∀ g ∈ gs', 0 < g.weight → 1e-10 < g.gaussian.covariance.det) :
    ∃ gs', emLoop values k gs (Real.log (densityFactor N) + mixtureLogLikelihood (mixture gs) values / values.length) =
        some (Real.log (densityFactor N) + mixtureLogLikelihood (mixture gs') values / values.length, gs') ∧
      WeightsOk gs' ∧ Regular gs' ∧ gs'.length = gs.length ∧
      mixtureLogLikelihood (mixture gs) values ≤ mixtureLogLikelihood (mixture gs') values := by
  induction k generalizing gs with
  | zero => exact ⟨gs, rfl, hw, hr, rfl, le_rfl⟩
  | succ k ih =>
    obtain ⟨gs1, h1, hlen, hw1, hr1, -, hle⟩ := C66_pass gs values hw hr hv (fun gs' h => hd 1 gs' (by simpa [after] using h))
    have hd1 : ∀ j gs', after gs1 values j = some gs' → ∀ g ∈ gs', 0 < g.weight → 1e-10 < g.gaussian.covariance.det := by
      intro j gs' h
      refine hd (j + 1) gs' ?_
      rw [after, Function.iterate_succ_apply]
      simpa [h1, after] using h
    have hl := logLikelihood_eq gs1 values hw1 hr1 hv
    simp only [emLoop, h1, hl, Option.bind_eq_bind, Option.bind_some]
    split
    · exact ⟨gs1, rfl, hw1, hr1, hlen, hle⟩
    · obtain ⟨gs', e, h2, h3, h4, h5⟩ := ih gs1 hw1 hr1 hd1
      exact ⟨gs', e, h2, h3, h4.trans hlen, hle.trans h5⟩

/-- **C66** The result of expectation maximization when no distribution with a weight becomes degenerate in a pass: the weights are
not negative and sum to one, the covariances are positive definite, the likelihood of the values is at least that of the initial
distributions, and the returned number is the average logarithm of the likelihood of the result, up to a constant. -/
theorem C66_result {N : ℕ} (gs : List (Weighted N)) (values : List (Vec ℝ N)) (hw : WeightsOk gs) (hr : Regular gs) (hv : values ≠ [])
    (hd : ∀ j gs', after gs values j = some gs' → ∀ g ∈ gs', 0 < g.weight → 1e-10 < g.gaussian.covariance.det) :
    ∃ gs', expectationMaximization gs values =
        some (Real.log (densityFactor N) + mixtureLogLikelihood (mixture gs') values / values.length, gs') ∧
      WeightsOk gs' ∧ Regular gs' ∧ gs'.length = gs.length ∧
      mixtureLogLikelihood (mixture gs) values ≤ mixtureLogLikelihood (mixture gs') values := by
  simp only [expectationMaximization, logLikelihood_eq gs values hw hr hv, Option.bind_eq_bind, Option.bind_some]
  exact emLoop_ok values hv 100 gs hw hr hd

/-! ## A case that meets the hypotheses: one distribution in one dimension for the values -1 and 1 -/

lemma one_dim_posDef (c : ℝ) (hc : 0 < c) : (Matrix.of ![![c]] : Mat ℝ 1 1).PosDef := by
  refine Matrix.PosDef.of_dotProduct_mulVec_pos ?_ ?_
  · ext a b
    fin_cases a; fin_cases b
    simp
  · intro x hx
    have h0 : x 0 ≠ 0 := by
      intro h
      apply hx
      funext i
      fin_cases i
      exact h
    simp only [dotProduct, Matrix.mulVec, Fin.sum_univ_one, Pi.star_apply, star_trivial, Matrix.of_apply, Matrix.cons_val]
    nlinarith [mul_pos hc (mul_self_pos.mpr h0)]

lemma single_ok (gauss : Gaussian 1) (c : ℝ) (hc : 1e-10 < c) (he : gauss.covariance = Matrix.of ![![c]]) :
    WeightsOk [(⟨gauss, 1⟩ : Weighted 1)] ∧ Regular [(⟨gauss, 1⟩ : Weighted 1)] := by
  have h0 : 0 < c := lt_trans (by norm_num) hc
  refine ⟨⟨by simp, by simp⟩, ?_⟩
  intro g hg _
  obtain rfl := List.mem_singleton.mp hg
  rw [he]
  exact ⟨one_dim_posDef c h0, by simpa using hc⟩

lemma single_step (gauss : Gaussian 1) (c : ℝ) (hc : 1e-10 < c) (he : gauss.covariance = Matrix.of ![![c]]) :
    ∃ gauss' : Gaussian 1, emStep [(⟨gauss, 1⟩ : Weighted 1)] [![-1], ![1]] = some [⟨gauss', 1⟩] ∧ gauss'.covariance = Matrix.of ![![1]] := by
  obtain ⟨hw, hr⟩ := single_ok gauss c hc he
  have hr1 : ∀ v, resp [(⟨gauss, 1⟩ : Weighted 1)] ⟨gauss, 1⟩ v = 1 := by
    intro v
    have := resp_sum _ hw hr v
    simpa using this
  have hs : (([![-1], ![1]] : List (Vec ℝ 1)).map (resp [(⟨gauss, 1⟩ : Weighted 1)] ⟨gauss, 1⟩)).sum = 2 := by
    simp [hr1]
    norm_num
  have hne : (([![-1], ![1]] : List (Vec ℝ 1)).map (resp [(⟨gauss, 1⟩ : Weighted 1)] ⟨gauss, 1⟩)).sum ≠ 0 := by
    rw [hs]
    norm_num
  refine ⟨(newWeighted [(⟨gauss, 1⟩ : Weighted 1)] [![-1], ![1]] ⟨gauss, 1⟩).gaussian, ?_, ?_⟩
  · rw [emStep_eq _ hw hr]
    have hwt := newWeighted_weight [(⟨gauss, 1⟩ : Weighted 1)] [![-1], ![1]] ⟨gauss, 1⟩
    rw [hs] at hwt
    simp only [List.map_cons, List.map_nil]
    congr 2
    have : (newWeighted [(⟨gauss, 1⟩ : Weighted 1)] [![-1], ![1]] ⟨gauss, 1⟩).weight = 1 := by
      rw [hwt]
      norm_num
    have hx : ∀ a : Weighted 1, a.weight = 1 → a = ⟨a.gaussian, 1⟩ := by
      rintro ⟨g, w⟩ h
      cases h
      rfl
    exact hx _ this
  · rw [(newWeighted_gaussian _ _ _ hne).2, hs]
    ext a b
    fin_cases a; fin_cases b
    simp [weightedCovariance, weightedMean, hr1]

lemma single_after (gauss : Gaussian 1) (c : ℝ) (hc : 1e-10 < c) (he : gauss.covariance = Matrix.of ![![c]]) (j : ℕ) :
    ∃ (gauss' : Gaussian 1) (c' : ℝ), after [(⟨gauss, 1⟩ : Weighted 1)] [![-1], ![1]] j = some [⟨gauss', 1⟩] ∧ 1e-10 < c' ∧
      gauss'.covariance = Matrix.of ![![c']] := by
  induction j with
  | zero => exact ⟨gauss, c, rfl, hc, he⟩
  | succ j ih =>
    obtain ⟨g', c', h, hc', he'⟩ := ih
    obtain ⟨g2, h2, he2⟩ := single_step g' c' hc' he'
    refine ⟨g2, 1, ?_, by norm_num, he2⟩
    rw [after, Function.iterate_succ_apply', ← after, h]
    exact h2

example : WeightsOk [(⟨⟨![5], Matrix.of ![![2]], 0, 0⟩, 1⟩ : Weighted 1)] ∧ Regular [(⟨⟨![5], Matrix.of ![![2]], 0, 0⟩, 1⟩ : Weighted 1)] ∧
    (∀ j gs', after [(⟨⟨![5], Matrix.of ![![2]], 0, 0⟩, 1⟩ : Weighted 1)] [![-1], ![1]] j = some gs' →
      ∀ g ∈ gs', 0 < g.weight → 1e-10 < g.gaussian.covariance.det) := by
  refine ⟨(single_ok _ 2 (by norm_num) rfl).1, (single_ok _ 2 (by norm_num) rfl).2, ?_⟩
  intro j gs' h g hg _
  obtain ⟨g', c', h', hc', he'⟩ := single_after ⟨![5], Matrix.of ![![2]], 0, 0⟩ 2 (by norm_num) rfl j
  rw [h'] at h
  obtain rfl := Option.some.inj h
  obtain rfl := List.mem_singleton.mp hg
  rw [he']
  simpa using hc'

/-! ## Where the code differs -/

/-- **C66, refuted in general** What the code uses as density is not the normal density: in one dimension it differs at the mean of the
standard normal distribution. -/
theorem C66_density_refuted : probability (⟨![0], Matrix.of ![![1]], 0, 0⟩ : Gaussian 1) ![0] ≠ normalDensity ![0] (Matrix.of ![![1]]) ![0] := by
  rw [C66_density_partial _ (by simp; norm_num)]
  have hp : 0 < normalDensity ![0] (Matrix.of ![![1]] : Mat ℝ 1 1) ![0] := density_pos _ _ (by simp) _
  intro h
  have h1 : densityFactor 1 = 1 := by
    have := mul_right_cancel₀ hp.ne' (h.trans (one_mul _).symm)
    exact this
  rw [densityFactor, div_eq_one_iff_eq (Real.sqrt_pos.mpr (by positivity)).ne'] at h1
  have h2 := Real.sqrt_inj (by positivity) (by positivity) |>.mp h1
  have h3 : (2 * 3.14159 : ℝ) ^ (((1 : ℕ) : ℝ) * 0.5) < 2 * 3.14159 := by
    calc (2 * 3.14159 : ℝ) ^ (((1 : ℕ) : ℝ) * 0.5) < (2 * 3.14159 : ℝ) ^ (1 : ℝ) :=
          Real.rpow_lt_rpow_of_exponent_lt (by norm_num) (by norm_num)
      _ = 2 * 3.14159 := Real.rpow_one _
  have := Real.pi_gt_d6
  rw [pow_one] at h2
  linarith

lemma probability_degenerate {N : ℕ} (g : Gaussian N) (h : ¬ |g.covariance.det| > 1e-10) (v : Vec ℝ N) : probability g v = 0 := by
  have hc : probabilityConstant g = (0, g.covariance) := by
    simp only [probabilityConstant]
    rw [if_neg h]
  simp [probability, hc]

lemma emLoop_none {N : ℕ} (values : List (Vec ℝ N)) (k : ℕ) (gs gs' : List (Weighted N)) (L : ℝ) (h1 : emStep gs values = some gs')
    (h2 : logLikelihood gs' values = none) : emLoop values (k + 1) gs L = none := by
  simp [emLoop, h1, h2]

/-- **C66, refuted in general** A distribution that becomes degenerate spoils the result: for equal values the covariance is zero after
the first pass, its density is taken as zero, and the likelihood is the logarithm of zero. -/
theorem C66_degenerate_refuted (x : ℝ) (gauss : Gaussian 1) (c : ℝ) (hc : 1e-10 < c) (he : gauss.covariance = Matrix.of ![![c]]) :
    expectationMaximization [(⟨gauss, 1⟩ : Weighted 1)] [![x], ![x]] = none := by
  obtain ⟨hw, hr⟩ := single_ok gauss c hc he
  have hr1 : ∀ v, resp [(⟨gauss, 1⟩ : Weighted 1)] ⟨gauss, 1⟩ v = 1 := by
    intro v
    have := resp_sum _ hw hr v
    simpa using this
  have hs : (([![x], ![x]] : List (Vec ℝ 1)).map (resp [(⟨gauss, 1⟩ : Weighted 1)] ⟨gauss, 1⟩)).sum = 2 := by
    simp [hr1]
    norm_num
  have hne : (([![x], ![x]] : List (Vec ℝ 1)).map (resp [(⟨gauss, 1⟩ : Weighted 1)] ⟨gauss, 1⟩)).sum ≠ 0 := by
    rw [hs]
    norm_num
  have hcov : (newWeighted [(⟨gauss, 1⟩ : Weighted 1)] [![x], ![x]] ⟨gauss, 1⟩).gaussian.covariance = 0 := by
    rw [(newWeighted_gaussian _ _ _ hne).2, hs]
    ext a b
    fin_cases a; fin_cases b
    simp [weightedCovariance, weightedMean, hr1]
    ring
  have hp : ∀ v, probability (newWeighted [(⟨gauss, 1⟩ : Weighted 1)] [![x], ![x]] ⟨gauss, 1⟩).gaussian v = 0 := by
    intro v
    have hd : ¬ |(newWeighted [(⟨gauss, 1⟩ : Weighted 1)] [![x], ![x]] ⟨gauss, 1⟩).gaussian.covariance.det| > 1e-10 := by
      rw [hcov]
      simp
      norm_num
    exact probability_degenerate _ hd v
  have hl : logLikelihood ([(⟨gauss, 1⟩ : Weighted 1)].map (newWeighted [(⟨gauss, 1⟩ : Weighted 1)] [![x], ![x]])) [![x], ![x]] = none := by
    simp [logLikelihood, hp]
  simp only [expectationMaximization, logLikelihood_eq _ _ hw hr (by simp : ([![x], ![x]] : List (Vec ℝ 1)) ≠ []), Option.bind_eq_bind, Option.bind_some]
  exact emLoop_none _ 99 _ _ _ (emStep_eq _ hw hr _) hl

example : (1e-10 : ℝ) < 2 ∧ (⟨![5], Matrix.of ![![2]], 0, 0⟩ : Gaussian 1).covariance = Matrix.of ![![2]] := ⟨by norm_num, rfl⟩

end Ubitrack.Gaussian
