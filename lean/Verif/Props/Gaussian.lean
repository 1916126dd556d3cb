import Verif.Model.Gaussian
import Verif.Spec.Gaussian
import Mathlib.Analysis.Matrix.Spectrum
import Mathlib.Analysis.Matrix.PosDef

/-!
# C65, C66, C67: Gaussian distributions, expectation maximization, Mahalanobis distance
-/

namespace Ubitrack.Gaussian
open Spec
open scoped Matrix

lemma foldl_add {α : Type*} (l : List α) (f : α → ℝ) (a : ℝ) : l.foldl (fun s x => s + f x) a = a + (l.map f).sum := by
  induction l generalizing a with
  | nil => simp
  | cons x l ih => simp [ih, add_assoc]

lemma foldl_add_vec {N : ℕ} {α : Type*} (l : List α) (f : α → Vec ℝ N) (a : Vec ℝ N) :
    l.foldl (fun (m : Vec ℝ N) x => fun i => m i + f x i) a = fun i => a i + (l.map fun x => f x i).sum := by
  induction l generalizing a with
  | nil => simp
  | cons x l ih => simp [ih, add_assoc]

lemma foldl_outer {N : ℕ} {α : Type*} (mean : Vec ℝ N) (l : List α) (w : α → ℝ) (f : α → Vec ℝ N) (c : Mat ℝ N N) (hc : cᵀ = c) :
    l.foldl (fun c x => addOuter mean c (w x) (f x)) c =
      Matrix.of fun a b => c a b + (l.map fun x => w x * (f x a - mean a) * (f x b - mean b)).sum := by
  induction l generalizing c with
  | nil => ext a b; simp
  | cons x l ih =>
    have hs : ∀ a b, c (min a b) (max a b) = c a b := by
      intro a b
      rcases le_total a b with h | h
      · rw [min_eq_left h, max_eq_right h]
      · rw [min_eq_right h, max_eq_left h]
        exact congrFun (congrFun hc a) b
    have he : ∀ a b, addOuter mean c (w x) (f x) a b = c a b + w x * (f x a - mean a) * (f x b - mean b) := by
      intro a b
      simp only [addOuter, Matrix.of_apply, hs]
      rcases le_total a b with h | h
      · rw [min_eq_left h, max_eq_right h]
      · rw [min_eq_right h, max_eq_left h]
        ring
    have ht : (addOuter mean c (w x) (f x))ᵀ = addOuter mean c (w x) (f x) := by
      ext a b
      rw [Matrix.transpose_apply, he, he, show c b a = c a b from congrFun (congrFun hc a) b]
      ring
    rw [List.foldl_cons, ih _ ht]
    ext a b
    simp only [Matrix.of_apply, he, List.map_cons, List.sum_cons]
    ring

lemma setVariance_eq {N : ℕ} (g : Gaussian N) (h : g.variance = 0) : setVariance g =
    { g with variance := g.covariance.trace, standardDeviation := Real.sqrt g.covariance.trace } := by
  have : (List.finRange N).foldl (fun s i => s + g.covariance i i) g.variance = g.covariance.trace := by
    rw [foldl_add, h, zero_add, Matrix.trace]
    simp [Fin.sum_univ_def, Matrix.diag]
  simp only [setVariance, this]

/-- **C65** The Gaussian distribution estimated from values with weights that sum to one: the weighted mean, the weighted
covariance, its trace and the root of the trace. -/
theorem C65_weighted {N : ℕ} (l : List (ℝ × Vec ℝ N)) (hw : (l.map Prod.fst).sum = 1) :
    (estimateWeighted l).1 = true ∧ (estimateWeighted l).2.mean = weightedMean l ∧
    (estimateWeighted l).2.covariance = weightedCovariance l ∧
    (estimateWeighted l).2.variance = (weightedCovariance l).trace ∧
    (estimateWeighted l).2.standardDeviation = Real.sqrt (weightedCovariance l).trace := by
  have hl : ¬ l.length < 1 := by
    intro h
    have : l = [] := List.length_eq_zero_iff.mp (by omega)
    rw [this] at hw
    norm_num at hw
  have hm : l.foldl (fun (m : Vec ℝ N) p => fun i => m i + p.1 * p.2 i) (reset N).mean = weightedMean l := by
    rw [foldl_add_vec l (fun p i => p.1 * p.2 i)]
    funext i
    simp [weightedMean, hw, reset]
  have hc : l.foldl (fun c p => addOuter (weightedMean l) c p.1 p.2) (reset N).covariance = weightedCovariance l := by
    rw [foldl_outer (weightedMean l) l Prod.fst Prod.snd _ (by simp [reset])]
    ext a b
    simp [weightedCovariance, hw, reset]
  have e : estimateWeighted l = (true, setVariance { reset N with mean := weightedMean l, covariance := weightedCovariance l }) := by
    simp only [estimateWeighted]
    rw [if_neg hl, hm, hc]
  rw [e, setVariance_eq _ rfl]
  exact ⟨rfl, rfl, rfl, rfl, rfl⟩

example : (([(1 / 4, ![1, 2]), (3 / 4, ![3, 5])] : List (ℝ × Vec ℝ 2)).map Prod.fst).sum = 1 := by norm_num

lemma sum_mul_const {α : Type*} (l : List α) (f : α → ℝ) (c : ℝ) : (l.map fun x => f x * c).sum = (l.map f).sum * c := by
  rw [List.sum_map_mul_right]

lemma sum_div_const {α : Type*} (l : List α) (f : α → ℝ) (c : ℝ) : (l.map fun x => f x / c).sum = (l.map f).sum / c := by
  simp only [div_eq_mul_inv, sum_mul_const]

/-- **C65** The same without weights: every value has the weight one, so the mean is the average and the covariance is divided by
the number of values. -/
theorem C65_unweighted {N : ℕ} (l : List (Vec ℝ N)) (hl : l ≠ []) :
    (estimate l).1 = true ∧ (estimate l).2.mean = weightedMean (l.map fun x => (1, x)) ∧
    (estimate l).2.covariance = weightedCovariance (l.map fun x => (1, x)) ∧
    (estimate l).2.variance = (weightedCovariance (l.map fun x => (1, x))).trace ∧
    (estimate l).2.standardDeviation = Real.sqrt (weightedCovariance (l.map fun x => (1, x))).trace := by
  have hl' : ¬ l.length < 1 := by
    have := List.length_pos_iff.mpr hl
    omega
  have hs : (List.map Prod.fst (l.map fun x => ((1 : ℝ), x))).sum = l.length := by
    simp [List.map_map, Function.comp_def]
  have hm : (fun i => l.foldl (fun (m : Vec ℝ N) x => fun i => m i + x i) (reset N).mean i / l.length : Vec ℝ N) =
      weightedMean (l.map fun x => ((1 : ℝ), x)) := by
    rw [foldl_add_vec l (fun x i => x i)]
    funext i
    simp only [weightedMean, hs, reset]
    simp [List.map_map, Function.comp_def]
  have hc : (Matrix.of fun a b => (l.foldl (fun c x => addOuter (weightedMean (l.map fun x => ((1 : ℝ), x))) c 1 x)
      (reset N).covariance) a b / (l.length : ℝ)) = weightedCovariance (l.map fun x => ((1 : ℝ), x)) := by
    rw [foldl_outer (weightedMean (l.map fun x => ((1 : ℝ), x))) l (fun _ => 1) (fun x => x) _ (by simp [reset])]
    ext a b
    simp only [weightedCovariance, hs, reset, Matrix.of_apply]
    simp [List.map_map, Function.comp_def]
  have e : estimate l = (true, setVariance { reset N with mean := weightedMean (l.map fun x => (1, x)), covariance := weightedCovariance (l.map fun x => (1, x)) }) := by
    simp only [estimate]
    rw [if_neg hl', hm, hc]
  rw [e, setVariance_eq _ rfl]
  exact ⟨rfl, rfl, rfl, rfl, rfl⟩

/-- **C65** Without values both functions return false. -/
theorem C65_empty {N : ℕ} : (estimateWeighted ([] : List (ℝ × Vec ℝ N))).1 = false ∧ (estimate ([] : List (Vec ℝ N))).1 = false := by
  simp [estimateWeighted, estimate]

lemma index_filter {N : ℕ} {I : Type*} [DecidableEq I] (l : List (Vec ℝ N × I)) (comp : I) (s : Vec ℝ N × ℕ) :
    l.foldl (fun (s : Vec ℝ N × ℕ) p => if p.2 = comp then (fun i => s.1 i + p.1 i, s.2 + 1) else s) s =
      (((l.filter fun p => p.2 = comp).map Prod.fst).foldl (fun (m : Vec ℝ N) x => fun i => m i + x i) s.1,
        s.2 + (l.filter fun p => p.2 = comp).length) := by
  induction l generalizing s with
  | nil => simp
  | cons p l ih =>
    rw [List.foldl_cons, ih]
    by_cases h : p.2 = comp
    · simp [h, add_assoc, add_comm]
    · simp [h]

lemma index_filter_cov {N : ℕ} {I : Type*} [DecidableEq I] (m : Vec ℝ N) (l : List (Vec ℝ N × I)) (comp : I) (c : Mat ℝ N N) :
    l.foldl (fun c p => if p.2 = comp then addOuter m c 1 p.1 else c) c =
      ((l.filter fun p => p.2 = comp).map Prod.fst).foldl (fun c x => addOuter m c 1 x) c := by
  induction l generalizing c with
  | nil => simp
  | cons p l ih =>
    rw [List.foldl_cons, ih]
    by_cases h : p.2 = comp
    · simp [h]
    · simp [h]

/-- **C65** The estimation for one index is the estimation from the values with that index, if there is such a value. -/
theorem C65_index_partial {N : ℕ} {I : Type*} [DecidableEq I] (l : List (Vec ℝ N × I)) (comp : I) (h : ∃ p ∈ l, p.2 = comp) :
    estimateIndex l comp = some (estimate ((l.filter fun p => p.2 = comp).map Prod.fst)) := by
  have hn : (l.filter fun p => p.2 = comp).length ≠ 0 := by
    obtain ⟨p, hp, hc⟩ := h
    have : p ∈ l.filter fun p => p.2 = comp := List.mem_filter.mpr ⟨hp, by simpa using hc⟩
    exact fun h0 => by simp [List.length_eq_zero_iff.mp h0] at this
  have h1 : ¬ (((l.filter fun p => p.2 = comp).map Prod.fst).length < 1) := by
    rw [List.length_map]
    omega
  simp only [estimateIndex, estimate, index_filter, index_filter_cov, zero_add]
  rw [if_neg hn, if_neg h1, List.length_map]

example : ∃ p ∈ [((![1, 2] : Vec ℝ 2), 3), (![5, 6], 4)], p.2 = 4 := ⟨(![5, 6], 4), by simp, rfl⟩

/-- **C65** Without a value with the index the result is not a number, although there is a test for a list without values in the
other two functions. -/
theorem C65_index_refuted {N : ℕ} {I : Type*} [DecidableEq I] (l : List (Vec ℝ N × I)) (comp : I) (h : ¬ ∃ p ∈ l, p.2 = comp) :
    estimateIndex l comp = none := by
  have hn : (l.filter fun p => p.2 = comp) = [] := by
    rw [List.filter_eq_nil_iff]
    intro p hp
    simpa using fun hc => h ⟨p, hp, hc⟩
  simp only [estimateIndex, index_filter, hn, List.length_nil, add_zero, if_true]

example : ¬ ∃ p ∈ [((![1, 2] : Vec ℝ 2), 3), (![5, 6], 4)], p.2 = 7 := by simp

/-- **C65** A weighted covariance is symmetric and positive semidefinite for weights that are not negative. -/
theorem C65_covariance {N : ℕ} (l : List (ℝ × Vec ℝ N)) (hw : (l.map Prod.fst).sum = 1) (h0 : ∀ p ∈ l, 0 ≤ p.1) :
    (estimateWeighted l).2.covariance.PosSemidef ∧ 0 ≤ (estimateWeighted l).2.variance ∧
      (estimateWeighted l).2.standardDeviation ^ 2 = (estimateWeighted l).2.variance := by
  obtain ⟨-, -, hc, hv, hd⟩ := C65_weighted l hw
  have hp : (weightedCovariance l).PosSemidef := by
    refine Matrix.PosSemidef.of_dotProduct_mulVec_nonneg ?_ ?_
    · ext a b
      simp only [weightedCovariance, Matrix.conjTranspose_apply, Matrix.of_apply, star_trivial]
      congr 2
      exact List.map_congr_left fun p _ => by ring
    · intro x
      have : star x ⬝ᵥ (weightedCovariance l *ᵥ x) = (l.map fun p => p.1 * ((∑ a, x a * (p.2 a - weightedMean l a)) ^ 2)).sum := by
        simp only [dotProduct, Matrix.mulVec, weightedCovariance, hw, div_one, Matrix.of_apply, Pi.star_apply, star_trivial]
        generalize weightedMean l = m
        clear hw h0 hc hv hd
        induction l with
        | nil => simp
        | cons p l ih =>
          simp only [List.map_cons, List.sum_cons, add_mul, Finset.sum_add_distrib, mul_add, ih]
          congr 1
          rw [sq, Finset.sum_mul_sum, Finset.mul_sum]
          refine Finset.sum_congr rfl fun a _ => ?_
          rw [Finset.mul_sum, Finset.mul_sum]
          exact Finset.sum_congr rfl fun b _ => by ring
      rw [this]
      refine List.sum_nonneg fun y hy => ?_
      obtain ⟨p, hp, rfl⟩ := List.mem_map.mp hy
      exact mul_nonneg (h0 p hp) (sq_nonneg _)
  rw [hc, hv, hd]
  exact ⟨hp, hp.trace_nonneg, Real.sq_sqrt hp.trace_nonneg⟩

example : ∀ p ∈ ([(1 / 4, ![1, 2]), (3 / 4, ![3, 5])] : List (ℝ × Vec ℝ 2)), 0 ≤ p.1 := by
  intro p hp
  simp only [List.mem_cons, List.not_mem_nil, or_false] at hp
  rcases hp with rfl | rfl <;> norm_num

end Ubitrack.Gaussian
