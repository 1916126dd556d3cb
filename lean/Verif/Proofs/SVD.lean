import Verif.Spec.Solver
import Verif.Props.AbsoluteOrientation

/-!
# Consequences of the contract of the singular value decomposition, and that it can be met
-/

namespace Ubitrack.Spec
open scoped Matrix

variable {n : ℕ}

theorem rowsError_nonneg (rows : List (Vec ℝ n)) (v : Vec ℝ n) : 0 ≤ rowsError rows v := by
  unfold rowsError
  apply List.sum_nonneg
  intro x hx
  obtain ⟨r, _, rfl⟩ := List.mem_map.mp hx
  exact sq_nonneg _

theorem rowsError_eq_zero (rows : List (Vec ℝ n)) (v : Vec ℝ n) : rowsError rows v = 0 ↔ ∀ r ∈ rows, r ⬝ᵥ v = 0 := by
  induction rows with
  | nil => simp [rowsError]
  | cons r rows ih =>
    have h1 := rowsError_nonneg rows v
    have e : rowsError (r :: rows) v = (r ⬝ᵥ v) ^ 2 + rowsError rows v := by simp [rowsError]
    rw [e]
    constructor
    · intro h
      have h2 := sq_nonneg (r ⬝ᵥ v)
      have h3 : rowsError rows v = 0 := by linarith
      have h4 : (r ⬝ᵥ v) ^ 2 = 0 := by linarith
      intro r' hr'
      rcases List.mem_cons.mp hr' with rfl | hr'
      · exact pow_eq_zero_iff two_ne_zero |>.mp h4
      · exact ih.mp h3 r' hr'
    · intro h
      rw [ih.mpr fun r' hr' => h r' (List.mem_cons_of_mem _ hr'), h r List.mem_cons_self]
      simp

/-- The last row of `Vt` minimises the residual among the unit vectors. -/
theorem SingularValueSolver.minimal {gesvd : List (Vec ℝ n) → Option (Vec ℝ n × Mat ℝ n n)} (hg : SingularValueSolver gesvd)
    {rows : List (Vec ℝ n)} {s : Vec ℝ n} {vt : Mat ℝ n n} (h : gesvd rows = some (s, vt)) (l : Fin n) (hl : ∀ k, k ≤ l)
    (v : Vec ℝ n) (hv : v ⬝ᵥ v = 1) : rowsError rows (vt l) ≤ rowsError rows v := by
  obtain ⟨h1, h2, h3, h4⟩ := hg rows s vt h
  have hort : ∀ i j, vt i ⬝ᵥ vt j = if i = j then 1 else 0 := by
    intro i j
    have := congrFun (congrFun h3 i) j
    simpa [Matrix.mul_apply, dotProduct, Matrix.one_apply] using this
  have e1 : rowsError rows (vt l) = s l ^ 2 := by
    rw [h4]
    simp [hort]
  have hn : ∑ k, (vt k ⬝ᵥ v) ^ 2 = 1 := by
    have h3' : vtᵀ * vt = 1 := mul_eq_one_comm.mp h3
    have : (vt *ᵥ v) ⬝ᵥ (vt *ᵥ v) = 1 := by
      rw [Matrix.dotProduct_mulVec, Matrix.vecMul_mulVec, h3', Matrix.vecMul_one, hv]
    rw [← this]
    simp [dotProduct, Matrix.mulVec, sq]
  rw [e1, h4]
  calc s l ^ 2 = ∑ k, s l ^ 2 * (vt k ⬝ᵥ v) ^ 2 := by rw [← Finset.mul_sum, hn, mul_one]
    _ ≤ ∑ k, (s k * (vt k ⬝ᵥ v)) ^ 2 := by
      refine Finset.sum_le_sum fun k _ => ?_
      rw [mul_pow]
      refine mul_le_mul_of_nonneg_right ?_ (sq_nonneg _)
      exact pow_le_pow_left₀ (h2 l) (h1 (hl k)) 2

/-- A vector in the null space is orthogonal to the rows of `Vt` with positive singular value. -/
theorem SingularValueSolver.orthogonal {gesvd : List (Vec ℝ n) → Option (Vec ℝ n × Mat ℝ n n)} (hg : SingularValueSolver gesvd)
    {rows : List (Vec ℝ n)} {s : Vec ℝ n} {vt : Mat ℝ n n} (h : gesvd rows = some (s, vt)) (v : Vec ℝ n)
    (hv : ∀ r ∈ rows, r ⬝ᵥ v = 0) (k : Fin n) (hk : 0 < s k) : vt k ⬝ᵥ v = 0 := by
  obtain ⟨h1, h2, h3, h4⟩ := hg rows s vt h
  have h0 := (rowsError_eq_zero rows v).mpr hv
  rw [h4] at h0
  have := (Finset.sum_eq_zero_iff_of_nonneg fun k _ => sq_nonneg _).mp h0 k (Finset.mem_univ k)
  have := pow_eq_zero_iff two_ne_zero |>.mp this
  exact (mul_eq_zero.mp this).resolve_left hk.ne'

/-- Every vector is the combination of the rows of `Vt`. -/
theorem SingularValueSolver.expand {gesvd : List (Vec ℝ n) → Option (Vec ℝ n × Mat ℝ n n)} (hg : SingularValueSolver gesvd)
    {rows : List (Vec ℝ n)} {s : Vec ℝ n} {vt : Mat ℝ n n} (h : gesvd rows = some (s, vt)) (v : Vec ℝ n) :
    v = ∑ k, (vt k ⬝ᵥ v) • vt k := by
  obtain ⟨h1, h2, h3, h4⟩ := hg rows s vt h
  have h3' : vtᵀ * vt = 1 := mul_eq_one_comm.mp h3
  have : v = vtᵀ *ᵥ (vt *ᵥ v) := by rw [Matrix.mulVec_mulVec, h3', Matrix.one_mulVec]
  conv_lhs => rw [this]
  ext i
  simp [Matrix.mulVec, dotProduct, Finset.sum_apply, mul_comm]

/-- A routine with the contract exists, and it succeeds on every matrix. -/
theorem exists_singularValueSolver (n : ℕ) :
    ∃ gesvd : List (Vec ℝ n) → Option (Vec ℝ n × Mat ℝ n n), SingularValueSolver gesvd ∧ ∀ rows, ∃ r, gesvd rows = some r := by
  obtain ⟨syev, hs, hc⟩ := exists_symmetricEigensolver n
  have key : ∀ rows : List (Vec ℝ n), ∃ r : Vec ℝ n × Mat ℝ n n,
      Antitone r.1 ∧ (∀ k, 0 ≤ r.1 k) ∧ r.2 * r.2ᵀ = 1 ∧ ∀ v, rowsError rows v = ∑ k, (r.1 k * (r.2 k ⬝ᵥ v)) ^ 2 := by
    intro rows
    let N : Mat ℝ n n := (rows.map fun r => Matrix.vecMulVec r r).sum
    have hq : ∀ v w, v ⬝ᵥ (N *ᵥ w) = (rows.map fun r => (r ⬝ᵥ v) * (r ⬝ᵥ w)).sum := by
      intro v w
      simp only [N]
      induction rows with
      | nil => simp
      | cons r rows ih =>
        simp only [List.map_cons, List.sum_cons]
        rw [Matrix.add_mulVec, dotProduct_add, ih, Matrix.vecMulVec_mulVec, dotProduct_comm v]
        simp [mul_comm]
    have hN : N.IsSymm := by
      simp only [N]
      induction rows with
      | nil => simp [Matrix.IsSymm]
      | cons r rows ih =>
        simp only [List.map_cons, List.sum_cons]
        refine Matrix.IsSymm.add ?_ (ih (by
          intro v w
          clear hq ih
          induction rows with
          | nil => simp
          | cons r rows ih =>
            simp only [List.map_cons, List.sum_cons]
            rw [Matrix.add_mulVec, dotProduct_add, ih, Matrix.vecMulVec_mulVec, dotProduct_comm v]
            simp [mul_comm]))
        ext i j
        simp [Matrix.vecMulVec, mul_comm]
    obtain ⟨⟨W, V⟩, hr⟩ := hc N hN
    obtain ⟨hm, hV, he⟩ := hs N hN W V hr
    have hV' : V * Vᵀ = 1 := mul_eq_one_comm.mp hV
    have hW : ∀ k, 0 ≤ W k := by
      intro k
      have h1 : (fun i => V i k) ⬝ᵥ (N *ᵥ fun i => V i k) = W k := by
        rw [he k, dotProduct_smul]
        have := congrFun (congrFun hV k) k
        simp only [Matrix.mul_apply, Matrix.transpose_apply, Matrix.one_apply_eq] at this
        simp [dotProduct, this]
      rw [← h1, hq]
      apply List.sum_nonneg
      intro x hx
      obtain ⟨r, _, rfl⟩ := List.mem_map.mp hx
      exact mul_self_nonneg _
    refine ⟨(fun k => Real.sqrt (W k.rev), fun k i => V i k.rev), ?_, ?_, ?_, ?_⟩
    · intro a b hab
      exact Real.sqrt_le_sqrt (hm (Fin.rev_le_rev.mpr hab))
    · intro k; exact Real.sqrt_nonneg _
    · ext i j
      have := congrFun (congrFun hV i.rev) j.rev
      simp only [Matrix.mul_apply, Matrix.transpose_apply, Matrix.one_apply, Fin.rev_inj] at this ⊢
      exact this
    · intro v
      have h1 : rowsError rows v = v ⬝ᵥ (N *ᵥ v) := by
        rw [hq]; simp [rowsError, sq]
      have h2 : N = V * Matrix.diagonal W * Vᵀ := by
        have : N * V = V * Matrix.diagonal W := by
          ext i k
          have := congrFun (he k) i
          rw [Matrix.mul_diagonal, Matrix.mul_apply]
          simpa [Matrix.mulVec, dotProduct, mul_comm] using this
        rw [← this, Matrix.mul_assoc, hV', Matrix.mul_one]
      rw [h1, h2, ← Equiv.sum_comp Fin.revPerm]
      simp only [Fin.revPerm_apply, Fin.rev_rev]
      rw [← Matrix.mulVec_mulVec, ← Matrix.mulVec_mulVec, Matrix.dotProduct_mulVec, ← Matrix.mulVec_transpose]
      simp only [dotProduct, Matrix.mulVec, Matrix.diagonal, Matrix.of_apply, Matrix.transpose_apply, ite_mul, zero_mul,
        Finset.sum_ite_eq, Finset.mem_univ, if_true]
      refine Finset.sum_congr rfl fun k _ => ?_
      rw [mul_pow, Real.sq_sqrt (hW k)]
      ring
  choose f hf using key
  refine ⟨fun rows => some (f rows), ?_, fun rows => ⟨_, rfl⟩⟩
  intro rows s vt h
  simp only [Option.some.injEq] at h
  have := hf rows
  rw [h] at this
  exact this

end Ubitrack.Spec
