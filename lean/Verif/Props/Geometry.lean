import Verif.Model.Geometry
import Mathlib.LinearAlgebra.Matrix.NonsingularInverse
import Mathlib.LinearAlgebra.Matrix.Determinant.Basic
import Mathlib.Tactic.FieldSimp
import Mathlib.Tactic.LinearCombination
import Mathlib.Tactic.FinCases
import Mathlib.Tactic.NormNum

/-!
# C36, C37, C48, C50
-/

namespace Ubitrack.Geometry

open Iterators

section Alg

variable {K : Type*} [Field K]

/-- Specification: homogeneous coordinates of a point, `[p 1]`. -/
def hom {n : ℕ} (p : Vec K n) : Vec K (n + 1) := Fin.snoc p 1

/-- Specification: homogeneous coordinates of a point of the plane `z = 0`. -/
def homPlane (p : Vec K 2) : Vec K 4 := ![p 0, p 1, 0, 1]

/-- Specification: the first two coordinates over the third. -/
def perspective (v : Vec K 3) : Vec K 2 := ![v 0 / v 2, v 1 / v 2]

lemma hom2 (p : Vec K 2) : hom p = ![p 0, p 1, 1] := by
  ext i; fin_cases i <;> rfl

lemma hom3 (p : Vec K 3) : hom p = ![p 0, p 1, p 2, 1] := by
  ext i; fin_cases i <;> rfl

/-- **C37** Every projection functor is the homogeneous matrix product followed by the perspective division. -/
theorem C37_project :
    (∀ (P : Mat K 3 3) (v : Vec K 2), projectPoint33_2 P v = perspective (P.mulVec (hom v))) ∧
    (∀ (P : Mat K 3 4) (v : Vec K 2), projectPoint34_2 P v = perspective (P.mulVec (homPlane v))) ∧
    (∀ (P : Mat K 3 4) (v : Vec K 3), projectPoint34_3 P v = perspective (P.mulVec (hom v))) ∧
    (∀ (P : Mat K 3 4) (v : Vec K 4), projectPoint34_4 P v = perspective (P.mulVec v)) := by
  refine ⟨fun P v => ?_, fun P v => ?_, fun P v => ?_, fun P v => ?_⟩ <;> ext i <;> fin_cases i <;>
    simp [projectPoint33_2, projectPoint34_2, projectPoint34_3, projectPoint34_4, perspective, hom2, hom3, homPlane,
      Matrix.mulVec, dotProduct, Fin.sum_univ_succ] <;> ring

/-- **C37** Every transformation functor but one is the (homogeneous) matrix product. -/
theorem C37_transform_partial :
    (∀ (M : Mat K 2 3) (v : Vec K 2), transformPoint23_2 M v = M.mulVec (hom v)) ∧
    (∀ (M : Mat K 2 3) (v : Vec K 3), transformPoint23_3 M v = M.mulVec v) ∧
    (∀ (M : Mat K 3 3) (v : Vec K 2), transformPoint33_2 M v = M.mulVec (hom v)) ∧
    (∀ (M : Mat K 3 3) (v : Vec K 3), transformPoint33_3 M v = M.mulVec v) ∧
    (∀ (M : Mat K 3 4) (v : Vec K 2), transformPoint34_2 M v = M.mulVec (homPlane v)) ∧
    (∀ (M : Mat K 3 4) (v : Vec K 3), transformPoint34_3 M v = M.mulVec (hom v)) ∧
    (∀ (M : Mat K 3 4) (v : Vec K 4), transformPoint34_4 M v = M.mulVec v) ∧
    (∀ (M : Mat K 4 4) (v : Vec K 2), transformPoint44_2 M v = M.mulVec (homPlane v)) ∧
    (∀ (M : Mat K 4 4) (v : Vec K 3), transformPoint44_3 M v = M.mulVec (hom v)) ∧
    (∀ (M : Mat K 4 4) (v : Vec K 4), transformPoint44_4 M v = M.mulVec v ↔ M 3 2 * v 2 = M 3 3 * v 2) := by
  refine ⟨fun P v => ?_, fun P v => ?_, fun P v => ?_, fun P v => ?_, fun P v => ?_, fun P v => ?_, fun P v => ?_,
    fun P v => ?_, fun P v => ?_, fun P v => ?_⟩
  on_goal 10 =>
    constructor
    · intro h
      have := congrFun h 3
      simp [transformPoint44_4, Matrix.mulVec, dotProduct, Fin.sum_univ_succ] at this
      linear_combination -this
    · intro h
      ext i
      fin_cases i <;> simp [transformPoint44_4, Matrix.mulVec, dotProduct, Fin.sum_univ_succ] <;>
        first
          | ring1
          | linear_combination -h
  all_goals
    ext i
    fin_cases i <;> simp [transformPoint23_2, transformPoint23_3, transformPoint33_2, transformPoint33_3,
      transformPoint34_2, transformPoint34_3, transformPoint34_4, transformPoint44_2, transformPoint44_3, hom2, hom3,
      homPlane, Matrix.mulVec, dotProduct, Fin.sum_univ_succ] <;> ring

/-- **C37** The transformation of 4-vectors by 4x4 matrices is not the matrix product, even for a translation. -/
theorem C37_transform44_refuted :
    ∃ (M : Mat ℚ 4 4) (v : Vec ℚ 4), M = !![1, 0, 0, 5; 0, 1, 0, 6; 0, 0, 1, 7; 0, 0, 0, 1] ∧ v 3 = 1 ∧
      transformPoint44_4 M v 3 ≠ (M.mulVec v) 3 ∧ (M.mulVec v) 3 = 1 := by
  refine ⟨_, ![1, 2, 3, 1], rfl, by simp, ?_, ?_⟩ <;>
    simp [transformPoint44_4, Matrix.mulVec, dotProduct, Fin.sum_univ_succ]

/-- **C48** The determinant functors. -/
theorem C48_det (A : Mat K 2 2) (B : Mat K 3 3) : det2 A = A.det ∧ det3 B = B.det := by
  rw [Matrix.det_fin_two, Matrix.det_fin_three]
  constructor
  · simp [det2]
  · simp only [det3]; ring

/-- **C48** The 2x2 inverse functor returns the two-sided inverse of every matrix with non-zero determinant. -/
theorem C48_inverse2 (A : Mat K 2 2) (h : A.det ≠ 0) : A * inverse2 A = 1 ∧ inverse2 A * A = 1 := by
  have e : inverse2 A * A = 1 := by
    rw [Matrix.det_fin_two] at h
    obtain ⟨d, hd⟩ : ∃ d, A 0 0 * A 1 1 - A 0 1 * A 1 0 = d := ⟨_, rfl⟩
    rw [hd] at h
    ext i j
    fin_cases i <;> fin_cases j <;> simp only [inverse2, hd] <;> simp [Matrix.mul_apply, Fin.sum_univ_two] <;> field_simp <;>
      first
        | ring1
        | linear_combination hd
  exact ⟨mul_eq_one_comm.mp e, e⟩

/-- **C48** The 3x3 inverse functor returns the two-sided inverse of every matrix with non-zero determinant. -/
theorem C48_inverse3 (A : Mat K 3 3) (h : A.det ≠ 0) : A * inverse3 A = 1 ∧ inverse3 A * A = 1 := by
  have e : inverse3 A * A = 1 := by
    rw [Matrix.det_fin_three] at h
    have h' : A 0 0 * A 1 1 * A 2 2 - A 0 0 * A 1 2 * A 2 1 - A 0 1 * A 1 0 * A 2 2 + A 0 1 * A 1 2 * A 2 0
      + A 0 2 * A 1 0 * A 2 1 - A 0 2 * A 1 1 * A 2 0 ≠ 0 := h
    obtain ⟨d, hd⟩ : ∃ d, A 0 0 * A 1 1 * A 2 2 - A 0 0 * A 1 2 * A 2 1 - A 0 1 * A 1 0 * A 2 2 + A 0 1 * A 1 2 * A 2 0
      + A 0 2 * A 1 0 * A 2 1 - A 0 2 * A 1 1 * A 2 0 = d := ⟨_, rfl⟩
    rw [hd] at h'
    ext i j
    fin_cases i <;> fin_cases j <;> simp only [inverse3, hd] <;> simp [Matrix.mul_apply, Fin.sum_univ_three] <;> field_simp <;>
      first
        | ring1
        | linear_combination hd
  exact ⟨mul_eq_one_comm.mp e, e⟩

/-- Non-vacuity. -/
example : (!![1, 2, 0; 0, 1, 3; 4, 0, 1] : Mat ℚ 3 3).det ≠ 0 := by
  rw [Matrix.det_fin_three]; simp; norm_num

/-- The entries of the normalisation matrix. -/
lemma generate_eq {n : ℕ} (shift scale : Vec K n) (inv : Bool) :
    generateNormalizationMatrix shift scale inv = Matrix.of fun r => Fin.lastCases (Pi.single (Fin.last n) 1)
      (fun i => Pi.single i.castSucc (if inv then scale i else 1 / scale i)
        + Pi.single (Fin.last n) (if inv then shift i else -(1 / scale i) * shift i)) r := by
  set tgt : Mat K (n + 1) (n + 1) := Matrix.of fun r => Fin.lastCases (Pi.single (Fin.last n) 1)
      (fun i => Pi.single i.castSucc (if inv then scale i else 1 / scale i)
        + Pi.single (Fin.last n) (if inv then shift i else -(1 / scale i) * shift i)) r with htgt
  have key : ∀ (l : List (Fin n)) (M : Mat K (n + 1) (n + 1)),
      (∀ r, M r = tgt r ∨ ((∃ i, r = Fin.castSucc i ∧ i ∈ l) ∧ M r = 0)) →
      l.foldl (normalizationStep shift scale inv) M = tgt := by
    intro l
    induction l with
    | nil =>
      intro M h
      funext r
      rcases h r with h | ⟨⟨i, _, hi⟩, _⟩
      · exact h
      · exact absurd hi List.not_mem_nil
    | cons a l ih =>
      intro M h
      rw [List.foldl_cons]
      apply ih
      have hne : (Fin.castSucc a) ≠ Fin.last n := (Fin.castSucc_lt_last a).ne
      have hrow : (normalizationStep shift scale inv M a) a.castSucc = tgt a.castSucc := by
        have hz : ∀ c, c ≠ a.castSucc → c ≠ Fin.last n → M a.castSucc c = 0 := by
          intro c h1 h2
          rcases h a.castSucc with h | ⟨_, h⟩
          · rw [h]; simp [tgt, h1, h2]
          · rw [h]; rfl
        funext c
        cases inv <;> simp only [normalizationStep, tgt, Matrix.of_apply, Fin.lastCases_castSucc, Bool.false_eq_true, if_false, if_true, Matrix.updateRow_self]
        all_goals
          by_cases h2 : c = Fin.last n
          · subst h2; simp [hne, hne.symm]
          · by_cases h1 : c = a.castSucc
            · subst h1; simp [hne]
            · simp [h1, h2, hz c h1 h2]
      intro r
      by_cases hr : r = a.castSucc
      · left; rw [hr, hrow]
      · have : normalizationStep shift scale inv M a r = M r := by
          cases inv <;> simp [normalizationStep, Matrix.updateRow_ne hr]
        rw [this]
        rcases h r with h | ⟨⟨i, rfl, hi⟩, h⟩
        · exact Or.inl h
        · rcases List.mem_cons.mp hi with rfl | hi
          · exact absurd rfl hr
          · exact Or.inr ⟨⟨i, rfl, hi⟩, h⟩
  unfold generateNormalizationMatrix
  apply key
  intro r
  induction r using Fin.lastCases with
  | last =>
    left
    have : tgt (Fin.last n) = Pi.single (Fin.last n) 1 := by
      rw [htgt]
      funext c
      rw [Matrix.of_apply, Fin.lastCases_last]
    rw [this, Matrix.updateRow_self]
  | cast i =>
    right
    exact ⟨⟨i, rfl, List.mem_finRange i⟩, by rw [Matrix.updateRow_ne (Fin.castSucc_lt_last i).ne]; rfl⟩

/-- **C36** The normalisation matrix maps a point `p` to `(p - shift) / scale`. -/
theorem C36_apply {n : ℕ} (shift scale p : Vec K n) :
    (generateNormalizationMatrix shift scale false).mulVec (hom p) = hom fun i => (p i - shift i) / scale i := by
  rw [generate_eq]
  funext r
  induction r using Fin.lastCases with
  | last => simp [Matrix.mulVec, hom]
  | cast i =>
    simp only [Matrix.mulVec, hom, Matrix.of_apply, Fin.lastCases_castSucc, Fin.snoc_castSucc]
    rw [add_dotProduct, single_dotProduct, single_dotProduct]
    simp
    ring

/-- **C36** The inverse normalisation matrix maps `q` to `q * scale + shift`. -/
theorem C36_apply_inverse {n : ℕ} (shift scale q : Vec K n) :
    (generateNormalizationMatrix shift scale true).mulVec (hom q) = hom fun i => q i * scale i + shift i := by
  rw [generate_eq]
  funext r
  induction r using Fin.lastCases with
  | last => simp [Matrix.mulVec, hom]
  | cast i =>
    simp only [Matrix.mulVec, hom, Matrix.of_apply, Fin.lastCases_castSucc, Fin.snoc_castSucc]
    rw [add_dotProduct, single_dotProduct, single_dotProduct]
    simp
    ring

/-- **C36** The two matrices are mutually inverse whenever no scale is zero. -/
theorem C36_mutually_inverse {n : ℕ} (shift scale : Vec K n) (h : ∀ i, scale i ≠ 0) :
    generateNormalizationMatrix shift scale false * generateNormalizationMatrix shift scale true = 1 ∧
    generateNormalizationMatrix shift scale true * generateNormalizationMatrix shift scale false = 1 := by
  have e : generateNormalizationMatrix shift scale false * generateNormalizationMatrix shift scale true = 1 := by
    rw [generate_eq, generate_eq]
    ext r c
    rw [Matrix.mul_apply]
    induction r using Fin.lastCases with
    | last =>
      rw [Finset.sum_eq_single (Fin.last n)]
      · simp [Matrix.one_apply, Pi.single_apply, eq_comm]
      · intro b _ hb; simp [hb]
      · simp
    | cast i =>
      simp only [Matrix.of_apply, Fin.lastCases_castSucc, Pi.add_apply, add_mul, Finset.sum_add_distrib]
      rw [Finset.sum_eq_single i.castSucc, Finset.sum_eq_single (Fin.last n)]
      · have hi := h i
        simp [Matrix.one_apply, Pi.single_apply, hi]
        by_cases h1 : c = i.castSucc
        · subst h1; simp [hi, (Fin.castSucc_lt_last i).ne]
        · by_cases h2 : c = Fin.last n
          · subst h2; simp [Ne.symm h1, h1]
          · simp [h1, h2, Ne.symm h1]
      · intro b _ hb; simp [hb]
      · simp
      · intro b _ hb; simp [hb]
      · simp
  exact ⟨e, mul_eq_one_comm.mp e⟩

/-- Non-vacuity. -/
example : ∀ i, (![2, 3] : Vec ℚ 2) i ≠ 0 := by intro i; fin_cases i <;> simp

end Alg

/-- **C37** `transform_points` writes the transformed points in order, for every number of points, and never reads past
the end. -/
theorem C37_transform_points {α β γ : Type*} (op : α → β → γ) (M : α) (pts : List β) :
    transformPoints op M pts = some (pts.map (op M)) := by
  have key : ∀ (l : List β) (c : ℕ), transformIdentityFirst op M c (c + l.length) l = some (l.map (op M)) := by
    intro l
    induction l with
    | nil => intro c; unfold transformIdentityFirst; simp
    | cons b l ih =>
      intro c
      unfold transformIdentityFirst
      have := ih (c + 1)
      rw [show c + 1 + l.length = c + (b :: l).length by simp; omega] at this
      simp only [List.length_cons] at this
      simp [this]
  have := key pts 0
  rwa [zero_add] at this

/-- **C37** `project_points` writes the projected points in order, for every number of points. -/
theorem C37_project_points {α β γ : Type*} (op : α → β → γ) (P : α) (pts : List β) :
    projectPoints op P pts = pts.map (op P) := by
  have key : ∀ (l : List β) (c : ℕ), transformIdentitySecond (fun v m => op m v) P l c = l.map (op P) := by
    intro l
    induction l with
    | nil => intro c; rfl
    | cons b l ih => intro c; simp [transformIdentitySecond, ih]
  exact key pts 0

lemma estimate_sums {n : ℕ} (pts : List (Vec ℝ n)) (a b : Vec ℝ n) :
    pts.foldl (fun (s : Vec ℝ n × Vec ℝ n) p => (s.1 + p, s.2 + p * p)) (a, b)
      = (a + pts.sum, b + (pts.map fun p => p * p).sum) := by
  induction pts generalizing a b with
  | nil => simp
  | cons p pts ih => rw [List.foldl_cons, ih]; simp [add_assoc]

lemma sum_coord {n : ℕ} (l : List (Vec ℝ n)) (i : Fin n) : l.sum i = (l.map fun p => p i).sum := by
  induction l with
  | nil => rfl
  | cons a l ih => simp [ih]

/-- Specification: the mean of a coordinate function over a list of points. -/
noncomputable def mean {n : ℕ} (pts : List (Vec ℝ n)) (g : Vec ℝ n → ℝ) : ℝ := (pts.map g).sum / pts.length

lemma mean_shift {n : ℕ} (pts : List (Vec ℝ n)) (g : Vec ℝ n → ℝ) (a b : ℝ) (hp : pts ≠ []) :
    mean pts (fun p => a * g p + b) = a * mean pts g + b := by
  have hl : (pts.length : ℝ) ≠ 0 := by
    simpa using hp
  have e : (pts.map fun p => a * g p + b).sum = a * (pts.map g).sum + pts.length * b := by
    clear hl hp
    induction pts with
    | nil => simp
    | cons p pts ih => simp [ih]; ring
  unfold mean
  rw [e]
  field_simp

lemma mean_add {n : ℕ} (pts : List (Vec ℝ n)) (g h : Vec ℝ n → ℝ) : mean pts (fun p => g p + h p) = mean pts g + mean pts h := by
  unfold mean
  rw [List.sum_map_add, add_div]

/-- **C36** The estimated shift is the mean and the squared scale the variance, for every non-empty point list. -/
theorem C36_estimate {n : ℕ} (pts : List (Vec ℝ n)) (hp : pts ≠ []) (i : Fin n) :
    (estimateNormalizationParameters pts).1 i = mean pts (fun p => p i) ∧ 0 ≤ (estimateNormalizationParameters pts).2 i ∧
    (estimateNormalizationParameters pts).2 i ^ 2 = mean pts (fun p => (p i - mean pts (fun p => p i)) ^ 2) := by
  have hl : (pts.length : ℝ) ≠ 0 := by
    simpa using hp
  have hs : (estimateNormalizationParameters pts).1 i = mean pts (fun p => p i) := by
    simp only [estimateNormalizationParameters, estimate_sums, mean, zero_add, Pi.smul_apply, smul_eq_mul, sum_coord]
    ring
  have hv : mean pts (fun p => (p i - (estimateNormalizationParameters pts).1 i) ^ 2)
      = mean pts (fun p => p i * p i) - (estimateNormalizationParameters pts).1 i * (estimateNormalizationParameters pts).1 i := by
    set m := (estimateNormalizationParameters pts).1 i with hm
    have e : (fun p : Vec ℝ n => (p i - m) ^ 2) = fun p => (p i * p i) + (-2 * m * p i + m * m) := by funext p; ring
    rw [e, mean_add, mean_shift pts (fun p => p i) _ _ hp, ← hs]
    ring
  refine ⟨hs, Real.sqrt_nonneg _, ?_⟩
  rw [← hs, hv]
  have hnn : 0 ≤ mean pts (fun p => (p i - (estimateNormalizationParameters pts).1 i) ^ 2) := by
    apply div_nonneg _ (Nat.cast_nonneg _)
    apply List.sum_nonneg
    intro x hx
    obtain ⟨p, _, rfl⟩ := List.mem_map.mp hx
    positivity
  rw [hv] at hnn
  have e2 : (estimateNormalizationParameters pts).2 i
      = Real.sqrt (mean pts (fun p => p i * p i) - (estimateNormalizationParameters pts).1 i * (estimateNormalizationParameters pts).1 i) := by
    simp only [estimateNormalizationParameters, estimate_sums, mean, zero_add, Pi.smul_apply, smul_eq_mul, sum_coord, List.map_map,
      Function.comp_def, Pi.mul_apply]
    congr 1
    ring
  rw [e2, Real.sq_sqrt hnn]

/-- **C36** The data normalised with the estimated parameters have mean 0 and variance 1 in every coordinate that is not
constant. -/
theorem C36_normalised_data {n : ℕ} (pts : List (Vec ℝ n)) (hp : pts ≠ []) (i : Fin n)
    (hs : (estimateNormalizationParameters pts).2 i ≠ 0) :
    let shift := (estimateNormalizationParameters pts).1
    let scale := (estimateNormalizationParameters pts).2
    let q := fun p : Vec ℝ n => (generateNormalizationMatrix shift scale false).mulVec (hom p) i.castSucc
    mean pts q = 0 ∧ mean pts (fun p => q p ^ 2) = 1 := by
  obtain ⟨h1, _, h3⟩ := C36_estimate pts hp i
  rw [← h1] at h3
  have hq : ∀ p : Vec ℝ n, (generateNormalizationMatrix (estimateNormalizationParameters pts).1
      (estimateNormalizationParameters pts).2 false).mulVec (hom p) i.castSucc
      = (p i - (estimateNormalizationParameters pts).1 i) / (estimateNormalizationParameters pts).2 i := by
    intro p
    rw [C36_apply]
    simp [hom]
  simp only [hq]
  set m := (estimateNormalizationParameters pts).1 i
  set s := (estimateNormalizationParameters pts).2 i
  constructor
  · have e : (fun p : Vec ℝ n => (p i - m) / s) = fun p => (1 / s) * p i + (-(m / s)) := by funext p; ring
    rw [e, mean_shift pts (fun p => p i) _ _ hp, ← h1]
    ring
  · have e : (fun p : Vec ℝ n => ((p i - m) / s) ^ 2) = fun p => (1 / s ^ 2) * (p i - m) ^ 2 + 0 := by
      funext p; rw [div_pow]; ring
    rw [e, mean_shift pts (fun p => (p i - m) ^ 2) _ _ hp, ← h3]
    field_simp
    ring

/-- Non-vacuity: two different points on a line. -/
example : (estimateNormalizationParameters [![0], ![2]] : Vec ℝ 1 × Vec ℝ 1).2 0 ≠ 0 := by
  simp [estimateNormalizationParameters]
  norm_num

/-- **C50** Walking the constant sequence yields its value exactly `n` times. -/
theorem C50_identity {α : Type*} (value : α) (n fuel : ℕ) (hf : n < fuel) :
    walkIdentity value fuel 0 n = some (List.replicate n value) := by
  have key : ∀ (k c fuel : ℕ), k < fuel → walkIdentity value fuel c (c + k) = some (List.replicate k value) := by
    intro k
    induction k with
    | zero =>
      intro c fuel h
      obtain ⟨f, rfl⟩ := Nat.exists_eq_succ_of_ne_zero (by omega : fuel ≠ 0)
      simp [walkIdentity]
    | succ k ih =>
      intro c fuel h
      obtain ⟨f, rfl⟩ := Nat.exists_eq_succ_of_ne_zero (by omega : fuel ≠ 0)
      have := ih (c + 1) f (by omega)
      rw [show c + 1 + k = c + (k + 1) by omega] at this
      simp [walkIdentity, this, List.replicate_succ]
  have := key n 0 fuel hf
  rwa [zero_add] at this

/-- Specification: the values whose index entry is the wanted one, in order. -/
def selected {α ι : Type*} [DecidableEq ι] (values : List α) (index : List ι) (c : ι) : List α :=
  ((values.zip index).filter fun p => p.2 = c).map Prod.fst

/-- **C50** The announced number of elements is right. -/
theorem C50_index_size {α ι : Type*} [DecidableEq ι] (values : List α) (index : List ι) (c : ι) (h : index.length = values.length) :
    (Indexed.mk values index c).size = (selected values index c).length := by
  simp only [Indexed.size, selected, List.length_map]
  induction index generalizing values with
  | nil => simp
  | cons i l ih =>
    cases values with
    | nil => simp at h
    | cons v vs =>
      simp only [List.zip_cons_cons, List.filter_cons, List.count_cons]
      rw [ih vs (by simpa using h)]
      by_cases hi : i = c <;> simp [hi]

/-- **C50** The indexed range is broken: if any index matches, walking the range never ends, whatever the contents. -/
theorem C50_index_diverges_refuted {α ι : Type*} [DecidableEq ι] (values : List α) (index : List ι) (c : ι) (hc : c ∈ index)
    (fuel : ℕ) : Indexed.walk fuel ⟨values, index, c⟩ = none := by
  induction fuel generalizing values index with
  | zero => rfl
  | succ f ih =>
    unfold Indexed.walk
    rw [if_neg (List.ne_nil_of_mem hc)]
    cases values with
    | nil => rfl
    | cons v vs =>
      have hn : (Indexed.mk (v :: vs) index c).next = ⟨(v :: vs).drop (index.findIdx (· = c)), index.drop (index.findIdx (· = c)), c⟩ := rfl
      have hlt : index.findIdx (· = c) < index.length := List.findIdx_lt_length_of_exists ⟨c, hc, by simp⟩
      have hmem : c ∈ index.drop (index.findIdx (· = c)) := by
        have h1 := List.findIdx_getElem (w := hlt)
        rw [List.drop_eq_getElem_cons hlt]
        have : index[index.findIdx (· = c)] = c := by simpa using h1
        rw [this]
        exact List.mem_cons_self
      simp only [hn, ih _ _ hmem, Option.map_none]

/-- **C50** If no index matches, the first element is visited although it is not selected. -/
theorem C50_index_first_refuted {α ι : Type*} [DecidableEq ι] (v : α) (values : List α) (i : ι) (index : List ι) (c : ι)
    (hc : c ∉ i :: index) (fuel : ℕ) (hf : 2 ≤ fuel) :
    Indexed.walk fuel ⟨v :: values, i :: index, c⟩ = some [v] ∧ selected (v :: values) (i :: index) c = [] := by
  obtain ⟨f, rfl⟩ := Nat.exists_eq_add_of_le' hf
  constructor
  · have hn : (Indexed.mk (v :: values) (i :: index) c).next.index = [] := by
      simp only [Indexed.next]
      rw [List.drop_eq_nil_iff]
      rw [List.findIdx_eq_length_of_false]
      intro x hx
      simp only [decide_eq_true_eq, decide_eq_false_iff_not]
      rintro rfl
      exact hc hx
    rw [Indexed.walk, if_neg (by simp)]
    simp only
    rw [Indexed.walk, if_pos hn]
    rfl
  · simp only [selected, List.map_eq_nil_iff, List.filter_eq_nil_iff]
    rintro ⟨a, b⟩ hab
    have := (List.of_mem_zip hab).2
    simp only [decide_eq_true_eq]
    rintro rfl
    exact hc this

end Ubitrack.Geometry
