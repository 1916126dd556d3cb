import Verif.Model.ConicCovariance
import Verif.Model.Conic
import Verif.Spec.ConicCovariance
import Verif.Spec.Conic
import Verif.Props.MatrixOperations
import Mathlib.LinearAlgebra.Matrix.PosDef
import Mathlib.Analysis.Calculus.Deriv.Pow
import Mathlib.Analysis.Calculus.Deriv.Add
import Mathlib.Analysis.Calculus.Deriv.Mul

/-!
# C85: covariance of an estimated conic
-/

namespace Ubitrack.ConicCovariance

open Spec MatrixOperations
open scoped Matrix

theorem gradientSq_eq (u : Vec ℝ 6) (p : Vec ℝ 2) :
    gradientSq u p = 4 * ((u 0 * p 0 + u 1 * p 1 + u 3) ^ 2 + (u 1 * p 0 + u 2 * p 1 + u 4) ^ 2) := by
  unfold gradientSq symmetricConicAt
  simp only [Matrix.cons_val_zero, Matrix.cons_val_one]
  have h1 : HasDerivAt (fun x : ℝ => u 0 * x ^ 2 + 2 * u 1 * (x * p 1) + u 2 * p 1 ^ 2 + 2 * u 3 * x + 2 * u 4 * p 1 + u 5)
      (2 * (u 0 * p 0 + u 1 * p 1 + u 3)) (p 0) := by
    have := ((((((hasDerivAt_id (p 0)).pow 2).const_mul (u 0)).add (((hasDerivAt_id (p 0)).mul_const (p 1)).const_mul (2 * u 1))).add_const (u 2 * p 1 ^ 2)).add
      ((hasDerivAt_id (p 0)).const_mul (2 * u 3))).add_const (2 * u 4 * p 1) |>.add_const (u 5)
    refine this.congr_deriv ?_
    simp
    ring
  have h2 : HasDerivAt (fun y : ℝ => u 0 * p 0 ^ 2 + 2 * u 1 * (p 0 * y) + u 2 * y ^ 2 + 2 * u 3 * p 0 + 2 * u 4 * y + u 5)
      (2 * (u 1 * p 0 + u 2 * p 1 + u 4)) (p 1) := by
    have := ((((((hasDerivAt_id (p 1)).const_mul (p 0)).const_mul (2 * u 1)).const_add (u 0 * p 0 ^ 2)).add (((hasDerivAt_id (p 1)).pow 2).const_mul (u 2))).add_const (2 * u 3 * p 0)).add
      ((hasDerivAt_id (p 1)).const_mul (2 * u 4)) |>.add_const (u 5)
    refine this.congr_deriv ?_
    simp
    ring
  rw [h1.deriv, h2.deriv]
  ring

theorem denominator_eq (u : Vec ℝ 6) (p : Vec ℝ 2) : denominator u p = stdDev * gradientSq u p := by
  rw [gradientSq_eq]
  unfold denominator
  ring

theorem norm2_eq (u : Vec ℝ 6) : norm2 u = Real.sqrt (∑ k, u k ^ 2) := by
  unfold norm2
  congr 1
  simp only [Fin.sum_univ_succ, Fin.sum_univ_zero, pow_two]
  simp only [Fin.succ_zero_eq_one, Fin.succ_one_eq_two]
  simp only [← add_assoc, add_zero]
  rfl

theorem norm2_zero (u : Vec ℝ 6) : norm2 u = 0 ↔ u = 0 := by
  rw [norm2_eq, Real.sqrt_eq_zero (Finset.sum_nonneg fun i _ => sq_nonneg _), Finset.sum_eq_zero_iff_of_nonneg (fun i _ => sq_nonneg _)]
  constructor
  · intro h
    funext i
    exact pow_eq_zero_iff (two_ne_zero) |>.mp (h i (Finset.mem_univ _))
  · rintro rfl
    simp

theorem monomials_eq (p : Vec ℝ 2) (i : Fin 6) : monomials p i = symmetricConicAt (Pi.single i 1) p := by
  unfold symmetricConicAt monomials
  fin_cases i <;> simp [Pi.single_apply] <;> ring

theorem stdDev_pos : 0 < stdDev := by
  unfold stdDev
  norm_num

/-- What the loop adds for a point. -/
theorem addPoint_eq (conic : Vec ℝ 6) (m : Mat ℝ 6 6) (p : Vec ℝ 2) (h0 : conic ≠ 0) (hg : gradientSq (unitConic conic) p ≠ 0) :
    addPoint conic m p = some (m + conicInformation stdDev conic [p]) := by
  unfold addPoint
  simp only
  have hu : (fun i => conic i / norm2 conic) = unitConic conic := by
    funext i
    rw [norm2_eq]
    rfl
  rw [hu, if_neg (by
    rw [norm2_zero, denominator_eq]
    push Not
    exact ⟨h0, mul_ne_zero stdDev_pos.ne' hg⟩), denominator_eq]
  congr 2
  ext i j
  simp only [conicInformation, List.map_cons, List.map_nil, List.sum_cons, List.sum_nil, add_zero, Matrix.of_apply, Matrix.smul_apply,
    monomials_eq, smul_eq_mul]
  ring

theorem addPoint_none (conic : Vec ℝ 6) (m : Mat ℝ 6 6) (p : Vec ℝ 2) (h : conic = 0 ∨ gradientSq (unitConic conic) p = 0) : addPoint conic m p = none := by
  unfold addPoint
  simp only
  have hu : (fun i => conic i / norm2 conic) = unitConic conic := by
    funext i
    rw [norm2_eq]
    rfl
  rw [hu, if_pos]
  rw [norm2_zero, denominator_eq]
  rcases h with h | h
  · exact Or.inl h
  · exact Or.inr (by rw [h, mul_zero])

theorem information_cons (v : ℝ) (conic : Vec ℝ 6) (p : Vec ℝ 2) (l : List (Vec ℝ 2)) :
    conicInformation v conic (p :: l) = conicInformation v conic [p] + conicInformation v conic l := by
  ext i j
  simp [conicInformation]

theorem loop_eq (conic : Vec ℝ 6) (h0 : conic ≠ 0) (points : List (Vec ℝ 2)) (hg : ∀ p ∈ points, gradientSq (unitConic conic) p ≠ 0) (m : Mat ℝ 6 6) :
    points.foldlM (addPoint conic) m = some (m + conicInformation stdDev conic points) := by
  induction points generalizing m with
  | nil =>
    simp only [List.foldlM_nil, Option.pure_def, Option.some.injEq]
    ext i j
    simp [conicInformation]
  | cons p l ih =>
    rw [List.foldlM_cons, addPoint_eq conic m p h0 (hg p (by simp)), Option.bind_eq_bind, Option.bind_some, ih (fun q hq => hg q (by simp [hq])),
      information_cons _ _ p l, add_assoc]

theorem loop_none (conic : Vec ℝ 6) (points : List (Vec ℝ 2)) (hg : ∃ p ∈ points, conic = 0 ∨ gradientSq (unitConic conic) p = 0) (m : Mat ℝ 6 6) :
    points.foldlM (addPoint conic) m = none := by
  induction points generalizing m with
  | nil => simp at hg
  | cons p l ih =>
    rw [List.foldlM_cons, Option.bind_eq_bind]
    by_cases hp : conic = 0 ∨ gradientSq (unitConic conic) p = 0
    · rw [addPoint_none conic m p hp]
      rfl
    · obtain ⟨q, hq, h⟩ := hg
      have hql : q ∈ l := by
        rcases List.mem_cons.mp hq with rfl | hq
        · exact absurd h hp
        · exact hq
      push Not at hp
      rw [addPoint_eq conic m p hp.1 hp.2, Option.bind_some]
      exact ih ⟨q, hql, h⟩ _

theorem gradientSq_unit (conic : Vec ℝ 6) (p : Vec ℝ 2) : gradientSq (unitConic conic) p = gradientSq conic p / ∑ k, conic k ^ 2 := by
  have hn : 0 ≤ ∑ k, conic k ^ 2 := Finset.sum_nonneg fun i _ => sq_nonneg _
  rw [gradientSq_eq, gradientSq_eq]
  unfold unitConic
  rw [show conic 0 / Real.sqrt (∑ k, conic k ^ 2) * p 0 + conic 1 / Real.sqrt (∑ k, conic k ^ 2) * p 1 + conic 3 / Real.sqrt (∑ k, conic k ^ 2) =
      (conic 0 * p 0 + conic 1 * p 1 + conic 3) / Real.sqrt (∑ k, conic k ^ 2) by ring,
    show conic 1 / Real.sqrt (∑ k, conic k ^ 2) * p 0 + conic 2 / Real.sqrt (∑ k, conic k ^ 2) * p 1 + conic 4 / Real.sqrt (∑ k, conic k ^ 2) =
      (conic 1 * p 0 + conic 2 * p 1 + conic 4) / Real.sqrt (∑ k, conic k ^ 2) by ring, div_pow, div_pow, Real.sq_sqrt hn]
  ring

theorem sum_sq_ne {conic : Vec ℝ 6} (h : conic ≠ 0) : ∑ k, conic k ^ 2 ≠ 0 := by
  intro hs
  apply h
  rw [← norm2_zero, norm2_eq, hs, Real.sqrt_zero]

theorem gradientSq_unit_ne {conic : Vec ℝ 6} (h0 : conic ≠ 0) (p : Vec ℝ 2) : gradientSq (unitConic conic) p ≠ 0 ↔ gradientSq conic p ≠ 0 := by
  rw [gradientSq_unit, div_ne_zero_iff]
  exact ⟨fun h => h.1, fun h => ⟨h, sum_sq_ne h0⟩⟩

/-- **C85** There is a result exactly if there are no points, or the conic is not zero and has a gradient at all points (it has none at the
centre). -/
theorem C85_defined (gesvd : Mat ℝ 6 6 → Vec ℝ 6 × Mat ℝ 6 6 × Mat ℝ 6 6) (points : List (Vec ℝ 2)) (conic : Vec ℝ 6) :
    (∃ C, estimateCovariance gesvd points conic = some C) ↔
      points = [] ∨ (conic ≠ 0 ∧ ∀ p ∈ points, gradientSq conic p ≠ 0) := by
  unfold estimateCovariance
  constructor
  · rintro ⟨C, hC⟩
    by_contra hc
    push Not at hc
    obtain ⟨hne, hc⟩ := hc
    rw [loop_none] at hC
    · simp at hC
    · by_cases h0 : conic = 0
      · obtain ⟨p, hp⟩ := List.exists_mem_of_ne_nil _ hne
        exact ⟨p, hp, Or.inl h0⟩
      · obtain ⟨p, hp, hg⟩ := hc h0
        exact ⟨p, hp, Or.inr (by rw [gradientSq_unit, hg, zero_div])⟩
  · rintro (rfl | ⟨h0, hg⟩)
    · exact ⟨_, rfl⟩
    · rw [loop_eq conic h0 points fun p hp => (gradientSq_unit_ne h0 p).mpr (hg p hp)]
      exact ⟨_, rfl⟩

theorem result_eq (gesvd : Mat ℝ 6 6 → Vec ℝ 6 × Mat ℝ 6 6 × Mat ℝ 6 6) (points : List (Vec ℝ 2)) (conic : Vec ℝ 6) (C : Mat ℝ 6 6)
    (h : estimateCovariance gesvd points conic = some C) : C = pseudoInvertMatrix gesvd (conicInformation stdDev conic points) := by
  have hd := (C85_defined gesvd points conic).mp ⟨C, h⟩
  unfold estimateCovariance at h
  rcases hd with rfl | ⟨h0, hg⟩
  · simp only [List.foldlM_nil, Option.pure_def, Option.map_some, Option.some.injEq] at h
    rw [← h]
    congr 1
  · rw [loop_eq conic h0 points fun p hp => (gradientSq_unit_ne h0 p).mpr (hg p hp)] at h
    simpa using h.symm

/-- **C85** The result is the pseudo-inverse of the information of the points, for a variance of the coordinates of 0.0001. -/
theorem C85_result (gesvd : Mat ℝ 6 6 → Vec ℝ 6 × Mat ℝ 6 6 × Mat ℝ 6 6) (hs : ThinSVD gesvd) (points : List (Vec ℝ 2)) (conic : Vec ℝ 6)
    (C : Mat ℝ 6 6) (h : estimateCovariance gesvd points conic = some C) : MoorePenrose (conicInformation (1 / 10000) conic points) C := by
  rw [result_eq gesvd points conic C h, show (1 / 10000 : ℝ) = stdDev by unfold stdDev; norm_num]
  exact C60_pseudo_inverse gesvd hs _

theorem information_symm (v : ℝ) (conic : Vec ℝ 6) (points : List (Vec ℝ 2)) : (conicInformation v conic points)ᵀ = conicInformation v conic points := by
  ext i j
  simp only [conicInformation, Matrix.transpose_apply, Matrix.of_apply]
  congr 2
  funext p
  ring

theorem symmetricConicAt_sum (c : Vec ℝ 6) (p : Vec ℝ 2) : ∑ i, symmetricConicAt (Pi.single i 1) p * c i = symmetricConicAt c p := by
  simp only [← monomials_eq]
  unfold monomials symmetricConicAt
  simp [Fin.sum_univ_succ]
  ring

theorem information_mulVec (v : ℝ) (conic : Vec ℝ 6) (points : List (Vec ℝ 2)) (c : Vec ℝ 6) :
    Matrix.mulVec (conicInformation v conic points) c = fun i => (points.map fun p =>
      symmetricConicAt (Pi.single i 1) p * symmetricConicAt c p / (v * gradientSq (unitConic conic) p)).sum := by
  induction points with
  | nil =>
    funext i
    simp [conicInformation, Matrix.mulVec, dotProduct]
  | cons p l ih =>
    rw [information_cons, Matrix.add_mulVec, ih]
    funext i
    simp only [Pi.add_apply, List.map_cons, List.sum_cons, add_left_inj]
    simp only [conicInformation, Matrix.mulVec, dotProduct, Matrix.of_apply, List.map_cons, List.map_nil, List.sum_cons, List.sum_nil, add_zero]
    rw [← symmetricConicAt_sum c p, Finset.mul_sum, Finset.sum_div]
    refine Finset.sum_congr rfl fun j _ => ?_
    ring

theorem gradientSq_nonneg (u : Vec ℝ 6) (p : Vec ℝ 2) : 0 ≤ gradientSq u p := by
  unfold gradientSq
  positivity

theorem information_nonneg (v : ℝ) (hv : 0 ≤ v) (conic : Vec ℝ 6) (points : List (Vec ℝ 2)) (c : Vec ℝ 6) :
    0 ≤ c ⬝ᵥ Matrix.mulVec (conicInformation v conic points) c := by
  induction points with
  | nil => simp [conicInformation, Matrix.mulVec, dotProduct]
  | cons p l ih =>
    rw [information_cons, Matrix.add_mulVec, dotProduct_add]
    refine add_nonneg ?_ ih
    rw [information_mulVec]
    simp only [dotProduct, List.map_cons, List.map_nil, List.sum_cons, List.sum_nil, add_zero]
    have : ∑ i, c i * (symmetricConicAt (Pi.single i 1) p * symmetricConicAt c p / (v * gradientSq (unitConic conic) p)) =
        symmetricConicAt c p * symmetricConicAt c p / (v * gradientSq (unitConic conic) p) := by
      nth_rewrite 2 [← symmetricConicAt_sum c p]
      rw [Finset.sum_mul, Finset.sum_div]
      refine Finset.sum_congr rfl fun j _ => ?_
      ring
    rw [this]
    exact div_nonneg (mul_self_nonneg _) (mul_nonneg hv (gradientSq_nonneg _ _))

theorem pinv_symm {A X : Mat ℝ 6 6} (hA : Aᵀ = A) (h : MoorePenrose A X) : Xᵀ = X := by
  refine C60_unique A _ _ ?_ h
  obtain ⟨h1, h2, h3, h4⟩ := h
  refine ⟨?_, ?_, ?_, ?_⟩
  · have := congrArg Matrix.transpose h1
    simpa only [Matrix.transpose_mul, hA, Matrix.mul_assoc] using this
  · have := congrArg Matrix.transpose h2
    simpa only [Matrix.transpose_mul, hA, Matrix.mul_assoc] using this
  · have : (A * Xᵀ) = (X * A)ᵀ := by rw [Matrix.transpose_mul, hA]
    rw [this, Matrix.transpose_transpose, h4]
  · have : (Xᵀ * A) = (A * X)ᵀ := by rw [Matrix.transpose_mul, hA]
    rw [this, Matrix.transpose_transpose, h3]

theorem pinv_kernel {A X : Mat ℝ 6 6} (hA : Aᵀ = A) (h : MoorePenrose A X) (v : Vec ℝ 6) : Matrix.mulVec X v = 0 ↔ Matrix.mulVec A v = 0 := by
  have hX := pinv_symm hA h
  obtain ⟨h1, h2, h3, h4⟩ := h
  have e1 : X * (X * A) = X := by
    calc X * (X * A) = X * (A * X)ᵀ := by rw [Matrix.transpose_mul, hA, hX]
      _ = X := by rw [h3, ← Matrix.mul_assoc, h2]
  have e2 : A * (A * X) = A := by
    calc A * (A * X) = A * (X * A)ᵀ := by rw [Matrix.transpose_mul, hA, hX]
      _ = A := by rw [h4, ← Matrix.mul_assoc, h1]
  constructor
  · intro hv
    rw [← e2, ← Matrix.mulVec_mulVec, ← Matrix.mulVec_mulVec, hv, Matrix.mulVec_zero, Matrix.mulVec_zero]
  · intro hv
    rw [← e1, ← Matrix.mulVec_mulVec, ← Matrix.mulVec_mulVec, hv, Matrix.mulVec_zero, Matrix.mulVec_zero]

/-- **C85** The result is a covariance matrix: symmetric and positive semidefinite. -/
theorem C85_covariance (gesvd : Mat ℝ 6 6 → Vec ℝ 6 × Mat ℝ 6 6 × Mat ℝ 6 6) (hs : ThinSVD gesvd) (points : List (Vec ℝ 2)) (conic : Vec ℝ 6)
    (C : Mat ℝ 6 6) (h : estimateCovariance gesvd points conic = some C) : C.PosSemidef := by
  have hm := C85_result gesvd hs points conic C h
  have hA := information_symm (1 / 10000) conic points
  have hX := pinv_symm hA hm
  refine Matrix.PosSemidef.of_dotProduct_mulVec_nonneg ?_ ?_
  · rw [Matrix.IsHermitian, Matrix.conjTranspose_eq_transpose_of_trivial, hX]
  · intro v
    have := information_nonneg (1 / 10000) (by norm_num) conic points (Matrix.mulVec C v)
    rw [star_trivial]
    have e : v ⬝ᵥ Matrix.mulVec C v = Matrix.mulVec C v ⬝ᵥ Matrix.mulVec (conicInformation (1 / 10000) conic points) (Matrix.mulVec C v) := by
      nth_rewrite 1 [← hm.2.1]
      rw [← Matrix.mulVec_mulVec, ← Matrix.mulVec_mulVec, Matrix.dotProduct_mulVec, ← Matrix.mulVec_transpose, hX]
    rw [e]
    exact this

/-- **C85** If the points are on the conic, there is no uncertainty in its own direction (the scale of the coefficients). -/
theorem C85_scale_free (gesvd : Mat ℝ 6 6 → Vec ℝ 6 × Mat ℝ 6 6 × Mat ℝ 6 6) (hs : ThinSVD gesvd) (points : List (Vec ℝ 2)) (conic : Vec ℝ 6)
    (C : Mat ℝ 6 6) (h : estimateCovariance gesvd points conic = some C) (hp : ∀ p ∈ points, symmetricConicAt conic p = 0) :
    Matrix.mulVec C conic = 0 := by
  rw [pinv_kernel (information_symm _ _ _) (C85_result gesvd hs points conic C h), information_mulVec]
  funext i
  refine List.sum_eq_zero fun x hx => ?_
  obtain ⟨p, hpp, rfl⟩ := List.mem_map.mp hx
  rw [hp p hpp, mul_zero, zero_div]

/-- **C85** The result does not depend on the scale of the conic. -/
theorem C85_scale (gesvd : Mat ℝ 6 6 → Vec ℝ 6 × Mat ℝ 6 6 × Mat ℝ 6 6) (points : List (Vec ℝ 2)) (conic : Vec ℝ 6) (s : ℝ) (hs : s ≠ 0) :
    estimateCovariance gesvd points (s • conic) = estimateCovariance gesvd points conic := by
  have hgs : ∀ p, gradientSq (s • conic) p = s ^ 2 * gradientSq conic p := by
    intro p
    rw [gradientSq_eq, gradientSq_eq]
    simp only [Pi.smul_apply, smul_eq_mul]
    ring
  have hgu : ∀ p, gradientSq (unitConic (s • conic)) p = gradientSq (unitConic conic) p := by
    intro p
    rw [gradientSq_unit, gradientSq_unit, hgs]
    simp only [Pi.smul_apply, smul_eq_mul, mul_pow, ← Finset.mul_sum]
    exact mul_div_mul_left _ _ (pow_ne_zero 2 hs)
  have hd : (∃ C, estimateCovariance gesvd points (s • conic) = some C) ↔ (∃ C, estimateCovariance gesvd points conic = some C) := by
    rw [C85_defined, C85_defined]
    simp only [hgs, ne_eq, mul_eq_zero, pow_eq_zero_iff two_ne_zero, hs, false_or, smul_eq_zero]
  by_cases hc : ∃ C, estimateCovariance gesvd points conic = some C
  · obtain ⟨D, hD⟩ := hd.mpr hc
    obtain ⟨C, hC⟩ := hc
    rw [hC, hD, result_eq _ _ _ _ hC, result_eq _ _ _ _ hD]
    unfold conicInformation
    simp only [hgu]
  · have hc' := hc
    rw [← hd] at hc'
    rw [Option.eq_none_iff_forall_ne_some.mpr fun C hC => hc ⟨C, hC⟩, Option.eq_none_iff_forall_ne_some.mpr fun C hC => hc' ⟨C, hC⟩]

/-- **C85** The order of the points does not matter. -/
theorem C85_order (gesvd : Mat ℝ 6 6 → Vec ℝ 6 × Mat ℝ 6 6 × Mat ℝ 6 6) (points points' : List (Vec ℝ 2)) (hp : points.Perm points') (conic : Vec ℝ 6) :
    estimateCovariance gesvd points conic = estimateCovariance gesvd points' conic := by
  have hd : (∃ C, estimateCovariance gesvd points conic = some C) ↔ (∃ C, estimateCovariance gesvd points' conic = some C) := by
    rw [C85_defined, C85_defined]
    simp only [hp.mem_iff, List.eq_nil_iff_length_eq_zero, hp.length_eq]
  by_cases hc : ∃ C, estimateCovariance gesvd points' conic = some C
  · obtain ⟨D, hD⟩ := hd.mpr hc
    obtain ⟨C, hC⟩ := hc
    rw [hC, hD, result_eq _ _ _ _ hC, result_eq _ _ _ _ hD]
    congr 2
    ext i j
    exact (hp.map _).sum_eq
  · have hc' := hc
    rw [← hd] at hc'
    rw [Option.eq_none_iff_forall_ne_some.mpr fun C hC => hc ⟨C, hC⟩, Option.eq_none_iff_forall_ne_some.mpr fun C hC => hc' ⟨C, hC⟩]

theorem pinv_smul {A X : Mat ℝ 6 6} (h : MoorePenrose A X) (k : ℝ) (hk : k ≠ 0) : MoorePenrose (k • A) ((1 / k) • X) := by
  obtain ⟨h1, h2, h3, h4⟩ := h
  have e1 : (k • A) * ((1 / k) • X) = A * X := by
    rw [Matrix.smul_mul, Matrix.mul_smul, smul_smul, mul_one_div_cancel hk, one_smul]
  have e2 : ((1 / k) • X) * (k • A) = X * A := by
    rw [Matrix.smul_mul, Matrix.mul_smul, smul_smul, one_div_mul_cancel hk, one_smul]
  refine ⟨?_, ?_, ?_, ?_⟩
  · rw [e1, Matrix.mul_smul, h1]
  · rw [e2, Matrix.mul_smul, h2]
  · rw [e1, h3]
  · rw [e2, h4]

/-- **C85** Every point measured `k` times instead of once divides the covariance by `k`. -/
theorem C85_repeat (gesvd : Mat ℝ 6 6 → Vec ℝ 6 × Mat ℝ 6 6 × Mat ℝ 6 6) (hs : ThinSVD gesvd) (points : List (Vec ℝ 2)) (conic : Vec ℝ 6)
    (C D : Mat ℝ 6 6) (k : ℕ) (hk : k ≠ 0) (h : estimateCovariance gesvd points conic = some C)
    (h' : estimateCovariance gesvd (List.replicate k points).flatten conic = some D) : D = (1 / (k : ℝ)) • C := by
  refine C60_unique _ _ _ (C85_result gesvd hs _ conic D h') ?_
  have : conicInformation (1 / 10000) conic (List.replicate k points).flatten = (k : ℝ) • conicInformation (1 / 10000) conic points := by
    ext i j
    simp [conicInformation, List.map_flatten, List.sum_flatten]
  rw [this]
  exact pinv_smul (C85_result gesvd hs points conic C h) k (by exact_mod_cast hk)

/-- **C85** Refuted: the covariance is the one for noise of the standard deviation 0.0001 that the code names. It is 10000 times as large: the
number is used as the variance. -/
theorem C85_noise_refuted (gesvd : Mat ℝ 6 6 → Vec ℝ 6 × Mat ℝ 6 6 × Mat ℝ 6 6) (hs : ThinSVD gesvd) (points : List (Vec ℝ 2)) (conic : Vec ℝ 6)
    (C : Mat ℝ 6 6) (h : estimateCovariance gesvd points conic = some C) :
    MoorePenrose (conicInformation ((1 / 10000) ^ 2) conic points) ((1 / 10000 : ℝ) • C) := by
  have := pinv_smul (C85_result gesvd hs points conic C h) 10000 (by norm_num)
  have e : conicInformation ((1 / 10000) ^ 2) conic points = (10000 : ℝ) • conicInformation (1 / 10000) conic points := by
    ext i j
    simp only [conicInformation, Matrix.of_apply, Matrix.smul_apply, smul_eq_mul, ← List.sum_map_mul_left]
    congr 2
    funext p
    rw [pow_two, mul_assoc, div_mul_eq_div_div, div_eq_mul_inv (_ / (1 / 10000 : ℝ)) _, div_eq_mul_inv _ (1 / 10000 * _ : ℝ), mul_inv]
    ring
  rwa [e]

/-- **C85** Refuted: `conic` is a conic as for the other functions of the library (`a x² + b x y + c y² + d x + e y + f`). The point (1, 1) is on
the circle `x² + y² - 2 x = 0` with these coefficients, and the result claims an uncertainty in the direction of the conic itself. -/
theorem C85_convention_refuted (gesvd : Mat ℝ 6 6 → Vec ℝ 6 × Mat ℝ 6 6 × Mat ℝ 6 6) (hs : ThinSVD gesvd) :
    ∃ (conic : Vec ℝ 6) (C : Mat ℝ 6 6), OnConic conic 1 1 ∧ Conic.pixel conic ![1, 1] = 0 ∧
      estimateCovariance gesvd [![1, 1]] conic = some C ∧ Matrix.mulVec C conic ≠ 0 := by
  have hg : gradientSq ![1, 0, 1, -2, 0, 0] ![1, 1] = 8 := by
    rw [gradientSq_eq]
    simp
    norm_num
  have h0 : (![1, 0, 1, -2, 0, 0] : Vec ℝ 6) ≠ 0 := by
    intro h
    simpa using congrFun h 0
  obtain ⟨C, hC⟩ := (C85_defined gesvd [![1, 1]] ![1, 0, 1, -2, 0, 0]).mpr (Or.inr ⟨h0, fun p hp => by
    rw [List.mem_singleton] at hp
    rw [hp, hg]
    norm_num⟩)
  refine ⟨![1, 0, 1, -2, 0, 0], C, ?_, ?_, hC, ?_⟩
  · simp [OnConic, conicAt]
    norm_num
  · simp [Conic.pixel]
  · rw [ne_eq, pinv_kernel (information_symm _ _ _) (C85_result gesvd hs _ _ C hC), information_mulVec]
    intro h
    have := congrFun h 5
    have hu : gradientSq (unitConic ![1, 0, 1, -2, 0, 0]) ![1, 1] ≠ 0 := (gradientSq_unit_ne h0 _).mpr (by rw [hg]; norm_num)
    simp only [List.map_cons, List.map_nil, List.sum_cons, List.sum_nil, add_zero, Pi.zero_apply] at this
    rw [div_eq_zero_iff] at this
    rcases this with h1 | h1
    · rw [← monomials_eq] at h1
      simp [monomials, symmetricConicAt] at h1
      norm_num at h1
    · exact mul_ne_zero (by norm_num) hu h1

/-! ### The hypotheses are met -/

/-- A singular value decomposition exists, and four points of the unit circle have a result, in which the circle itself is certain. -/
example : ∃ gesvd : Mat ℝ 6 6 → Vec ℝ 6 × Mat ℝ 6 6 × Mat ℝ 6 6, ThinSVD gesvd ∧ ∃ C,
    estimateCovariance gesvd [![1, 0], ![0, 1], ![-1, 0], ![0, -1]] ![1, 0, 1, 0, 0, -1] = some C ∧ Matrix.mulVec C ![1, 0, 1, 0, 0, -1] = 0 := by
  obtain ⟨gesvd, hs⟩ := exists_thinSVD (n := 6) (m := 6) le_rfl
  obtain ⟨C, hC⟩ := (C85_defined gesvd [![1, 0], ![0, 1], ![-1, 0], ![0, -1]] ![1, 0, 1, 0, 0, -1]).mpr (Or.inr ⟨by
    intro h
    simpa using congrFun h 0, by
    intro p hp
    rw [gradientSq_eq]
    simp only [List.mem_cons, List.not_mem_nil, or_false] at hp
    rcases hp with rfl | rfl | rfl | rfl <;> simp⟩)
  refine ⟨gesvd, hs, C, hC, C85_scale_free gesvd hs _ _ C hC ?_⟩
  intro p hp
  simp only [List.mem_cons, List.not_mem_nil, or_false] at hp
  rcases hp with rfl | rfl | rfl | rfl <;> simp [symmetricConicAt]

end Ubitrack.ConicCovariance
