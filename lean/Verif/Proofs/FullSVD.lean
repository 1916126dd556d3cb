import Verif.Spec.Factorisation
import Verif.Spec.Solver
import Verif.Spec.PlanarPose
import Verif.Props.AbsoluteOrientation
import Mathlib.Analysis.InnerProductSpace.PiL2

/-!
# The contract of the singular value decomposition with both factors can be met
-/

namespace Ubitrack.Spec
open scoped Matrix

lemma column_dot {n : ℕ} (V : Mat ℝ n n) (hV : Vᵀ * V = 1) (i j : Fin n) :
    (fun r => V r i) ⬝ᵥ (fun r => V r j) = if i = j then 1 else 0 := by
  have := congrFun (congrFun hV i) j
  rw [Matrix.mul_apply, Matrix.one_apply] at this
  exact this

/-- Vectors that are orthogonal with squared lengths `s²` can be divided by their lengths and, where the length is zero,
replaced so that all are orthonormal. -/
lemma orthonormal_completion {n m : ℕ} (hnm : n ≤ m) (g : Fin n → Vec ℝ m) (s : Fin n → ℝ)
    (hg : ∀ i j, g i ⬝ᵥ g j = if i = j then s i ^ 2 else 0) :
    ∃ V : Mat ℝ n m, V * Vᵀ = 1 ∧ ∀ i, g i = s i • V i := by
  let e : Fin n → Fin m := Fin.castLE hnm
  have he : Function.Injective e := Fin.castLE_injective hnm
  let f : Fin m → EuclideanSpace ℝ (Fin m) := fun j =>
    if h : j.val < n then WithLp.toLp 2 ((s ⟨j.val, h⟩)⁻¹ • g ⟨j.val, h⟩) else 0
  have hf : ∀ k, f (e k) = WithLp.toLp 2 ((s k)⁻¹ • g k) := by
    intro k
    simp only [f, e, Fin.val_castLE, k.isLt, dif_pos, Fin.eta]
  let S : Set (Fin m) := {j | ∃ k, j = e k ∧ s k ≠ 0}
  have hon : Orthonormal ℝ (S.domRestrict f) := by
    rw [orthonormal_iff_ite]
    rintro ⟨i, k, rfl, hk⟩ ⟨j, l, rfl, hl⟩
    simp only [Set.domRestrict_apply, hf]
    rw [EuclideanSpace.inner_eq_star_dotProduct]
    simp only [star_trivial, smul_dotProduct, dotProduct_smul, hg, smul_eq_mul, Subtype.mk.injEq, he.eq_iff]
    by_cases h : k = l
    · subst h; simp; field_simp
    · rw [if_neg h, if_neg (fun h' => h h'.symm)]; simp
  obtain ⟨b, hb⟩ := hon.exists_orthonormalBasis_extension_of_card_eq (by simp)
  refine ⟨Matrix.of fun k => WithLp.ofLp (b (e k)), ?_, ?_⟩
  · ext i j
    rw [Matrix.mul_apply, Matrix.one_apply]
    have := orthonormal_iff_ite.mp b.orthonormal (e j) (e i)
    rw [EuclideanSpace.inner_eq_star_dotProduct] at this
    simp only [star_trivial, he.eq_iff] at this
    change WithLp.ofLp (b (e i)) ⬝ᵥ WithLp.ofLp (b (e j)) = _
    rw [this]
    by_cases h : i = j
    · simp [h]
    · rw [if_neg h, if_neg (fun h' => h h'.symm)]
  · intro k
    by_cases hs : s k = 0
    · rw [hs, zero_smul]
      have := hg k k
      rw [if_pos rfl, hs] at this
      exact dotProduct_self_eq_zero.mp (by rw [this]; simp)
    · change g k = s k • WithLp.ofLp (b (e k))
      rw [hb (e k) ⟨k, rfl, hs⟩, hf]
      simp [smul_smul, hs]

/-- A singular value decomposition with both factors exists for every matrix with at most as many rows as columns. -/
theorem exists_svd {n m : ℕ} (hnm : n ≤ m) (A : Mat ℝ n m) : ∃ (s : Vec ℝ n) (U : Mat ℝ n n) (V : Mat ℝ n m),
    Antitone s ∧ (∀ i, 0 ≤ s i) ∧ Uᵀ * U = 1 ∧ V * Vᵀ = 1 ∧ A = U * Matrix.diagonal s * V := by
  obtain ⟨syev, hs, hc⟩ := exists_symmetricEigensolver n
  have hN : (A * Aᵀ).IsSymm := by
    unfold Matrix.IsSymm
    rw [Matrix.transpose_mul, Matrix.transpose_transpose]
  obtain ⟨⟨W, V0⟩, hr⟩ := hc (A * Aᵀ) hN
  obtain ⟨hm, hV, hev⟩ := hs _ hN W V0 hr
  let u : Fin n → Vec ℝ n := fun k i => V0 i k.rev
  have hu : ∀ i j, u i ⬝ᵥ u j = if i = j then 1 else 0 := by
    intro i j
    have := column_dot V0 hV i.rev j.rev
    simp only [Fin.rev_inj] at this
    exact this
  let g : Fin n → Vec ℝ m := fun k => Aᵀ *ᵥ u k
  have hgg : ∀ i j, g i ⬝ᵥ g j = W j.rev * (if i = j then 1 else 0) := by
    intro i j
    have e : g i ⬝ᵥ g j = u i ⬝ᵥ ((A * Aᵀ) *ᵥ u j) := by
      simp only [g]
      rw [← Matrix.mulVec_mulVec, Matrix.dotProduct_mulVec (u i), ← Matrix.mulVec_transpose]
    rw [e, show (A * Aᵀ) *ᵥ u j = W j.rev • u j from hev j.rev, dotProduct_smul, hu, smul_eq_mul]
  have hW : ∀ k, 0 ≤ W k := by
    intro k
    have := hgg k.rev k.rev
    simp at this
    rw [← this]
    exact Finset.sum_nonneg fun i _ => mul_self_nonneg _
  let s : Vec ℝ n := fun k => Real.sqrt (W k.rev)
  obtain ⟨V, hV1, hV2⟩ := orthonormal_completion hnm g s (by
    intro i j
    rw [hgg]
    by_cases h : i = j
    · subst h; simp [s, Real.sq_sqrt (hW _)]
    · simp [h])
  refine ⟨s, Matrix.of fun i k => u k i, V, ?_, fun i => Real.sqrt_nonneg _, ?_, hV1, ?_⟩
  · intro a b hab
    exact Real.sqrt_le_sqrt (hm (Fin.rev_le_rev.mpr hab))
  · ext i j
    rw [Matrix.mul_apply, Matrix.one_apply]
    exact hu i j
  · have hUU : (Matrix.of fun i k => u k i : Mat ℝ n n) * (Matrix.of fun i k => u k i : Mat ℝ n n)ᵀ = 1 := by
      apply mul_eq_one_comm.mp
      ext i j
      rw [Matrix.mul_apply, Matrix.one_apply]
      exact hu i j
    have hUA : (Matrix.of fun i k => u k i : Mat ℝ n n)ᵀ * A = Matrix.diagonal s * V := by
      ext k j
      rw [Matrix.diagonal_mul, Matrix.mul_apply]
      have := congrFun (hV2 k) j
      simp only [Pi.smul_apply, smul_eq_mul] at this
      rw [← this]
      simp [g, Matrix.mulVec, dotProduct, mul_comm]
    rw [Matrix.mul_assoc, ← hUA, ← Matrix.mul_assoc, hUU, Matrix.one_mul]

/-- The contract can be met for every wide or square shape. -/
theorem exists_thinSVD {n m : ℕ} (hnm : n ≤ m) : ∃ gesvd : Mat ℝ n m → Vec ℝ n × Mat ℝ n n × Mat ℝ n m, ThinSVD gesvd := by
  choose s U V h using fun A : Mat ℝ n m => exists_svd hnm A
  exact ⟨fun A => (s A, U A, V A), fun A => h A⟩

/-- The contract can be met for every tall shape. -/
theorem exists_thinSVD_tall {n m : ℕ} (hnm : m ≤ n) : ∃ gesvd : Mat ℝ n m → Vec ℝ m × Mat ℝ n m × Mat ℝ m m, ThinSVD gesvd := by
  obtain ⟨gesvd, hg⟩ := exists_thinSVD hnm
  refine ⟨fun A => ((gesvd Aᵀ).1, (gesvd Aᵀ).2.2ᵀ, (gesvd Aᵀ).2.1ᵀ), fun A => ?_⟩
  obtain ⟨h1, h2, h3, h4, h5⟩ := hg Aᵀ
  refine ⟨h1, h2, ?_, ?_, ?_⟩
  · simpa using h4
  · simpa using h3
  · have := congrArg Matrix.transpose h5
    simpa [Matrix.transpose_mul, Matrix.mul_assoc] using this

/-- The contract with square factors can be met for every tall shape. -/
theorem exists_fullSVD {n m : ℕ} (hnm : m ≤ n) : ∃ gesvd : Mat ℝ n m → Vec ℝ m × Mat ℝ n n × Mat ℝ m m, FullSVD gesvd := by
  have key : ∀ A : Mat ℝ n m, ∃ r : Vec ℝ m × Mat ℝ n n × Mat ℝ m m, Antitone r.1 ∧ (∀ i, 0 ≤ r.1 i) ∧ r.2.1ᵀ * r.2.1 = 1 ∧
      r.2.2 * r.2.2ᵀ = 1 ∧ A = r.2.1 * (Matrix.of fun i j => if i.val = j.val then r.1 j else 0) * r.2.2 := by
    intro A
    obtain ⟨s, U, V, h1, h2, h3, h4, h5⟩ := exists_svd hnm Aᵀ
    let s' : Fin n → ℝ := fun i => if h : i.val < m then s ⟨i.val, h⟩ else 0
    let g : Fin n → Vec ℝ n := fun i => if h : i.val < m then s ⟨i.val, h⟩ • V ⟨i.val, h⟩ else 0
    have hVV : ∀ i j, V i ⬝ᵥ V j = if i = j then 1 else 0 := by
      intro i j
      have := congrFun (congrFun h4 i) j
      rwa [Matrix.mul_apply, Matrix.one_apply] at this
    obtain ⟨W, hW, hgW⟩ := orthonormal_completion (le_refl n) g s' (by
      intro i j
      by_cases hi : i.val < m
      · by_cases hj : j.val < m
        · simp only [g, s', hi, hj, dif_pos, smul_dotProduct, dotProduct_smul, hVV, smul_eq_mul, Fin.ext_iff]
          split_ifs with h
          · have : (⟨j.val, hj⟩ : Fin m) = ⟨i.val, hi⟩ := Fin.ext h.symm
            rw [this]; ring
          · ring
        · have : i ≠ j := fun h => hj (h ▸ hi)
          simp [g, hj, this]
      · by_cases h : i = j
        · simp [g, s', hi, h ▸ hi, h]
        · simp [g, hi, h])
    refine ⟨(s, Wᵀ, Uᵀ), h1, h2, by simpa using hW, by simpa using h3, ?_⟩
    ext i j
    have e : A i j = ∑ k, s k * V k i * U j k := by
      rw [← Matrix.transpose_apply A, h5, Matrix.mul_apply]
      refine Finset.sum_congr rfl fun k _ => ?_
      rw [Matrix.mul_diagonal]
      ring
    rw [e, Matrix.mul_apply]
    refine Finset.sum_congr rfl fun k _ => ?_
    rw [Matrix.mul_apply, Finset.sum_eq_single (Fin.castLE hnm k)]
    · have := congrFun (hgW (Fin.castLE hnm k)) i
      simp only [g, s', Fin.val_castLE, k.isLt, dif_pos, Fin.eta, Pi.smul_apply, smul_eq_mul] at this
      simp only [Matrix.transpose_apply, Matrix.of_apply, Fin.val_castLE, if_true]
      rw [this]
      ring
    · intro l _ hl
      have hne : ¬ l.val = k.val := fun h => hl (Fin.ext h)
      rw [Matrix.of_apply, if_neg hne, mul_zero]
    · intro h
      exact absurd (Finset.mem_univ _) h
  choose r hr using key
  exact ⟨r, hr⟩

end Ubitrack.Spec
