import Verif.Props.FundamentalMatrix
import Verif.Props.RotationMatrix
import Verif.Spec.Alignment
import Verif.Proofs.LU

/-!
# C62: the relative pose of two cameras from their fundamental matrix
-/

namespace Ubitrack.Epipolar
open Linear MatrixOperations Spec Quat
open scoped Matrix

/-! ## Cross products and rotations -/

lemma cross_conj (M : Mat ℝ 3 3) (a : Vec ℝ 3) : Mᵀ * crossMatrix (M.mulVec a) * M = M.det • crossMatrix a := by
  ext i j
  fin_cases i <;> fin_cases j <;>
    simp [crossMatrix, Matrix.mul_apply, Matrix.mulVec, dotProduct, Fin.sum_univ_three, Matrix.det_fin_three] <;> ring

lemma cross_smul (c : ℝ) (t : Vec ℝ 3) : crossMatrix (c • t) = c • crossMatrix t := by
  ext i j
  fin_cases i <;> fin_cases j <;> simp [crossMatrix]

lemma cross_cross (t : Vec ℝ 3) : crossMatrix t * (crossMatrix t)ᵀ = (t ⬝ᵥ t) • (1 : Mat ℝ 3 3) - Matrix.vecMulVec t t := by
  ext i j
  fin_cases i <;> fin_cases j <;>
    simp [crossMatrix, Matrix.mul_apply, dotProduct, Fin.sum_univ_three, Matrix.vecMulVec_apply] <;> ring

lemma cross_cross' (t : Vec ℝ 3) : (crossMatrix t)ᵀ * crossMatrix t = (t ⬝ᵥ t) • (1 : Mat ℝ 3 3) - Matrix.vecMulVec t t := by
  ext i j
  fin_cases i <;> fin_cases j <;>
    simp [crossMatrix, Matrix.mul_apply, dotProduct, Fin.sum_univ_three, Matrix.vecMulVec_apply] <;> ring

lemma vecMulVec_mulVec' (u v w : Vec ℝ 3) : (Matrix.vecMulVec u v).mulVec w = (v ⬝ᵥ w) • u := by
  funext i
  simp [Matrix.mulVec, dotProduct, Fin.sum_univ_three, Matrix.vecMulVec_apply]; ring

/-- The half turn about the direction `u`. -/
def halfTurn (u : Vec ℝ 3) : Mat ℝ 3 3 := (2 : ℝ) • Matrix.vecMulVec u u - 1

/-- Two rotations with the same products with a cross product matrix, up to sign, are the same or differ by a half turn. -/
lemma rotation_of_cross (u : Vec ℝ 3) (hu : u ⬝ᵥ u = 1) (Q R : Mat ℝ 3 3) (hQ : IsRotation Q) (hR : IsRotation R) (e : ℝ)
    (he : e ^ 2 = 1) (h : crossMatrix u * Q = e • (crossMatrix u * R)) :
    (e = 1 ∧ Q = R) ∨ (e = -1 ∧ Q = halfTurn u * R) := by
  have hRR : R * Rᵀ = 1 := mul_eq_one_comm.mp hR.1
  have hQQ : Q * Qᵀ = 1 := mul_eq_one_comm.mp hQ.1
  obtain ⟨M, hM⟩ : ∃ M : Mat ℝ 3 3, M = Q * Rᵀ := ⟨_, rfl⟩
  have hMR : M * R = Q := by rw [hM, Matrix.mul_assoc, hR.1, Matrix.mul_one]
  have hMM : M * Mᵀ = 1 := by
    rw [hM, Matrix.transpose_mul, Matrix.transpose_transpose]
    calc Q * Rᵀ * (R * Qᵀ) = Q * (Rᵀ * R) * Qᵀ := by simp only [Matrix.mul_assoc]
      _ = 1 := by rw [hR.1, Matrix.mul_one, hQQ]
  have hMd : M.det = 1 := by rw [hM, Matrix.det_mul, Matrix.det_transpose, hQ.2, hR.2, one_mul]
  have hc : crossMatrix u * M = e • crossMatrix u := by
    rw [hM, ← Matrix.mul_assoc, h, Matrix.smul_mul, Matrix.mul_assoc, hRR, Matrix.mul_one]
  -- the part of M perpendicular to u
  have h1 : M - Matrix.vecMulVec u u * M = e • ((1 : Mat ℝ 3 3) - Matrix.vecMulVec u u) := by
    have := congrArg (fun x => (crossMatrix u)ᵀ * x) hc
    simp only [← Matrix.mul_assoc, Matrix.mul_smul, cross_cross', hu, one_smul, Matrix.sub_mul, Matrix.one_mul] at this
    exact this
  obtain ⟨d, hd⟩ : ∃ d : Vec ℝ 3, d = Mᵀ.mulVec u - e • u := ⟨_, rfl⟩
  have h2 : M = e • (1 : Mat ℝ 3 3) + Matrix.vecMulVec u d := by
    have e1 : Matrix.vecMulVec u u * M = Matrix.vecMulVec u (Mᵀ.mulVec u) := by
      rw [Matrix.mulVec_transpose]
      ext i j
      simp [Matrix.mul_apply, Matrix.vecMulVec_apply, Matrix.vecMul, dotProduct, Fin.sum_univ_three]; ring
    have e2 : Matrix.vecMulVec u d = Matrix.vecMulVec u (Mᵀ.mulVec u) - e • Matrix.vecMulVec u u := by
      rw [hd]
      ext i j
      simp [Matrix.vecMulVec_apply]; ring
    have e3 : M = e • ((1 : Mat ℝ 3 3) - Matrix.vecMulVec u u) + Matrix.vecMulVec u u * M := by rw [← h1]; abel
    rw [e2, ← e1]
    refine e3.trans ?_
    rw [smul_sub]
    abel
  -- orthogonality makes d a multiple of u
  have h3 : ∃ k : ℝ, d = k • u := by
    have o : (M * Mᵀ).mulVec u = u := by rw [hMM, Matrix.one_mulVec]
    rw [← Matrix.mulVec_mulVec] at o
    have o1 : Mᵀ.mulVec u = e • u + d := by rw [hd]; abel
    rw [o1, h2, Matrix.add_mulVec, Matrix.smul_mulVec, Matrix.one_mulVec, vecMulVec_mulVec', smul_add, smul_smul, ← pow_two,
      he, one_smul] at o
    have o2 : e • d = (-(d ⬝ᵥ (e • u + d))) • u := by
      rw [neg_smul]
      have : e • d + (d ⬝ᵥ (e • u + d)) • u = 0 := by
        have := congrArg (fun x => x - u) o
        simp only [sub_self] at this
        rw [← this]; abel
      exact eq_neg_of_add_eq_zero_left this
    refine ⟨e * -(d ⬝ᵥ (e • u + d)), ?_⟩
    rw [mul_smul, ← o2, smul_smul, ← pow_two, he, one_smul]
  obtain ⟨k, hk⟩ := h3
  have h4 : M = e • (1 : Mat ℝ 3 3) + k • Matrix.vecMulVec u u := by
    rw [h2, hk]
    ext i j
    simp [Matrix.vecMulVec_apply]
  have hu' : u 0 * u 0 + u 1 * u 1 + u 2 * u 2 = 1 := by
    simpa [dotProduct, Fin.sum_univ_three] using hu
  have h5 : e + k = 1 := by
    have hdet : M.det = e ^ 2 * (e + k * (u 0 * u 0 + u 1 * u 1 + u 2 * u 2)) := by
      rw [h4]
      simp [Matrix.det_fin_three, Matrix.vecMulVec_apply]; ring
    rw [hMd, he, hu'] at hdet
    linarith
  have hcases : e = 1 ∨ e = -1 := sq_eq_one_iff.mp he
  rcases hcases with he1 | he1
  · left
    refine ⟨he1, ?_⟩
    have : k = 0 := by linarith
    rw [← hMR, h4, he1, this, zero_smul, add_zero, one_smul, Matrix.one_mul]
  · right
    refine ⟨he1, ?_⟩
    have : k = 2 := by linarith
    rw [← hMR, h4, he1, this, halfTurn]
    congr 1
    rw [neg_one_smul]
    abel

/-! ## The singular value decomposition of an essential matrix -/

/-- The singular values of `c [t]ₓ R` are `σ, σ, 0` with `σ = |c| |t|`, and the last left singular vector has the direction
of `t`. -/
lemma essential_svd (c : ℝ) (hc : c ≠ 0) (t : Vec ℝ 3) (ht : t ≠ 0) (R : Mat ℝ 3 3) (hR : IsRotation R) (U Vt : Mat ℝ 3 3)
    (s : Vec ℝ 3) (ha : Antitone s) (hn : ∀ i, 0 ≤ s i) (hU : Uᵀ * U = 1) (hV : Vt * Vtᵀ = 1)
    (h : c • (crossMatrix t * R) = U * Matrix.diagonal s * Vt) :
    ∃ g τ : ℝ, g ≠ 0 ∧ s 0 = g ∧ s 1 = g ∧ s 2 = 0 ∧ t = τ • (fun i => U i 2) ∧ τ ^ 2 = t ⬝ᵥ t ∧ g ^ 2 = c ^ 2 * τ ^ 2 := by
  have hRR : R * Rᵀ = 1 := mul_eq_one_comm.mp hR.1
  have hUU : U * Uᵀ = 1 := mul_eq_one_comm.mp hU
  have hEE : c ^ 2 • ((t ⬝ᵥ t) • (1 : Mat ℝ 3 3) - Matrix.vecMulVec t t) = U * Matrix.diagonal (fun i => s i ^ 2) * Uᵀ := by
    have h1 : (c • (crossMatrix t * R)) * (c • (crossMatrix t * R))ᵀ = c ^ 2 • (crossMatrix t * (crossMatrix t)ᵀ) := by
      rw [Matrix.transpose_smul, Matrix.transpose_mul, Matrix.smul_mul, Matrix.mul_smul, smul_smul, ← pow_two]
      congr 1
      calc crossMatrix t * R * (Rᵀ * (crossMatrix t)ᵀ) = crossMatrix t * (R * Rᵀ) * (crossMatrix t)ᵀ := by
            simp only [Matrix.mul_assoc]
        _ = _ := by rw [hRR, Matrix.mul_one]
    rw [← cross_cross, ← h1, h, Matrix.transpose_mul, Matrix.transpose_mul, Matrix.diagonal_transpose]
    calc U * Matrix.diagonal s * Vt * (Vtᵀ * (Matrix.diagonal s * Uᵀ))
        = U * (Matrix.diagonal s * (Vt * Vtᵀ) * Matrix.diagonal s) * Uᵀ := by simp only [Matrix.mul_assoc]
      _ = _ := by
        rw [hV, Matrix.mul_one, Matrix.diagonal_mul_diagonal]
        congr 3
        funext i
        ring
  -- the coordinates of t in the basis of the columns of U
  obtain ⟨b, hb⟩ : ∃ b : Vec ℝ 3, b = Uᵀ.mulVec t := ⟨_, rfl⟩
  have htb : t = U.mulVec b := by rw [hb, Matrix.mulVec_mulVec, hUU, Matrix.one_mulVec]
  have htt : t ⬝ᵥ t = b ⬝ᵥ b := by
    have : b ⬝ᵥ b = t ⬝ᵥ t := by
      rw [hb, Matrix.dotProduct_mulVec, Matrix.vecMul_transpose, Matrix.mulVec_mulVec, hUU, Matrix.one_mulVec]
    exact this.symm
  have hbne : b ≠ 0 := by
    rintro rfl
    exact ht (by rw [htb, Matrix.mulVec_zero])
  have hD : c ^ 2 • ((t ⬝ᵥ t) • (1 : Mat ℝ 3 3) - Matrix.vecMulVec b b) = Matrix.diagonal (fun i => s i ^ 2) := by
    have h1 := congrArg (fun X => Uᵀ * X * U) hEE
    have h2 : Uᵀ * (U * Matrix.diagonal (fun i => s i ^ 2) * Uᵀ) * U = Matrix.diagonal (fun i => s i ^ 2) :=
      conj_cancel _ _ _ _ _ hU hU
    rw [h2] at h1
    rw [← h1, Matrix.mul_smul, Matrix.smul_mul, Matrix.mul_sub, Matrix.sub_mul, Matrix.mul_smul, Matrix.mul_one,
      Matrix.smul_mul, hU]
    congr 2
    rw [hb]
    ext i j
    simp [Matrix.mul_apply, Matrix.vecMulVec_apply, Matrix.mulVec, dotProduct, Fin.sum_univ_three]; ring
  have hoff : ∀ i j, i ≠ j → b i * b j = 0 := by
    intro i j hij
    have := congrFun (congrFun hD i) j
    simp only [Matrix.smul_apply, Matrix.sub_apply, Matrix.one_apply_ne hij, Matrix.diagonal_apply_ne _ hij,
      Matrix.vecMulVec_apply, smul_eq_mul, mul_zero, zero_sub, mul_neg, neg_eq_zero] at this
    exact (mul_eq_zero.mp this).resolve_left (pow_ne_zero 2 hc)
  have hon : ∀ i, c ^ 2 * (b ⬝ᵥ b - b i * b i) = s i ^ 2 := by
    intro i
    have := congrFun (congrFun hD i) i
    simpa [Matrix.vecMulVec_apply, htt] using this
  have hbb : b ⬝ᵥ b = b 0 * b 0 + b 1 * b 1 + b 2 * b 2 := by simp [dotProduct, Fin.sum_univ_three]
  have hpos : 0 < b ⬝ᵥ b := by
    rcases (show 0 ≤ b ⬝ᵥ b from Finset.sum_nonneg fun i _ => mul_self_nonneg _).lt_or_eq with h | h
    · exact h
    · exact absurd (dotProduct_self_eq_zero.mp h.symm) hbne
  have hc2 : 0 < c ^ 2 := by positivity
  have l12 : s 2 ≤ s 1 := ha (by decide)
  have l01 : s 1 ≤ s 0 := ha (by decide)
  have h01 := hoff 0 1 (by decide)
  have h02 := hoff 0 2 (by decide)
  have h12 := hoff 1 2 (by decide)
  have o0 := hon 0
  have o1 := hon 1
  have o2 := hon 2
  have n0 := hn 0
  have n1 := hn 1
  have n2 := hn 2
  rw [hbb] at o0 o1 o2 hpos
  -- the other coordinates vanish
  have hb0 : b 0 = 0 := by
    by_contra hne
    have e1 : b 1 = 0 := (mul_eq_zero.mp h01).resolve_left hne
    have e2 : b 2 = 0 := (mul_eq_zero.mp h02).resolve_left hne
    rw [e1, e2] at o0 o2
    have s0 : s 0 = 0 := by
      have : s 0 ^ 2 = 0 := by rw [← o0]; ring
      exact pow_eq_zero_iff (two_ne_zero) |>.mp this
    have s2 : s 2 = 0 := by linarith
    rw [s2] at o2
    have : 0 < c ^ 2 * (b 0 * b 0) := mul_pos hc2 (mul_self_pos.mpr hne)
    nlinarith
  have hb1 : b 1 = 0 := by
    by_contra hne
    have e2 : b 2 = 0 := (mul_eq_zero.mp h12).resolve_left hne
    rw [hb0, e2] at o1 o2
    have s1 : s 1 = 0 := by
      have : s 1 ^ 2 = 0 := by rw [← o1]; ring
      exact pow_eq_zero_iff (two_ne_zero) |>.mp this
    have s2 : s 2 = 0 := by linarith
    rw [s2] at o2
    have : 0 < c ^ 2 * (b 1 * b 1) := mul_pos hc2 (mul_self_pos.mpr hne)
    nlinarith
  have hb2 : b 2 ≠ 0 := by
    intro h
    apply hbne
    funext i
    fin_cases i
    exacts [hb0, hb1, h]
  rw [hb0, hb1] at o0 o1 o2
  have s2 : s 2 = 0 := by
    have : s 2 ^ 2 = 0 := by rw [← o2]; ring
    exact pow_eq_zero_iff (two_ne_zero) |>.mp this
  have e01 : s 1 ^ 2 = s 0 ^ 2 := by rw [← o0, ← o1]
  have s01 : s 1 = s 0 := by
    rcases sq_eq_sq_iff_eq_or_eq_neg.mp e01 with h | h
    · exact h
    · linarith
  refine ⟨s 0, b 2, ?_, rfl, s01, s2, ?_, ?_, ?_⟩
  · intro h0
    rw [h0] at o0
    have : 0 < c ^ 2 * (b 2 * b 2) := mul_pos hc2 (mul_self_pos.mpr hb2)
    nlinarith
  · rw [htb]
    funext i
    simp [Matrix.mulVec, dotProduct, Fin.sum_univ_three, hb0, hb1]; ring
  · rw [htt, hbb, hb0, hb1]; ring
  · rw [← o0]; ring

/-! ## The two rotations -/

lemma candidate_eq (getrf : Mat ℝ 3 3 → Mat ℝ 3 3 × (Fin 3 → Fin 3)) (hrf : LUFactorisation getrf) (U w Vt : Mat ℝ 3 3)
    (hU : Uᵀ * U = 1) (hV : Vt * Vtᵀ = 1) (hw : IsRotation w) :
    candidate getrf U w Vt = (U.det * Vt.det) • (U * w * Vt) ∧ IsRotation (candidate getrf U w Vt) ∧
      (U.det * Vt.det) ^ 2 = 1 := by
  have hu : U.det * U.det = 1 := by
    have := congrArg Matrix.det hU
    rwa [Matrix.det_mul, Matrix.det_transpose, Matrix.det_one] at this
  have hv : Vt.det * Vt.det = 1 := by
    have := congrArg Matrix.det hV
    rwa [Matrix.det_mul, Matrix.det_transpose, Matrix.det_one] at this
  have hd2 : (U.det * Vt.det) ^ 2 = 1 := by
    calc (U.det * Vt.det) ^ 2 = (U.det * U.det) * (Vt.det * Vt.det) := by ring
      _ = 1 := by rw [hu, hv, one_mul]
  have hdet : (U * w * Vt).det = U.det * Vt.det := by rw [Matrix.det_mul, Matrix.det_mul, hw.2, mul_one]
  have hcand : candidate getrf U w Vt = (U.det * Vt.det) • (U * w * Vt) := by
    unfold candidate
    simp only [C60_determinant getrf hrf]
    rw [← Matrix.mul_assoc, hdet]
    rcases sq_eq_one_iff.mp hd2 with h | h
    · rw [h, if_neg (by norm_num), one_smul]
    · rw [h, if_pos (by norm_num)]
  refine ⟨hcand, ?_, hd2⟩
  rw [hcand]
  constructor
  · rw [Matrix.transpose_smul, Matrix.smul_mul, Matrix.mul_smul, smul_smul, ← pow_two, hd2, one_smul, Matrix.transpose_mul,
      Matrix.transpose_mul]
    calc Vtᵀ * (wᵀ * Uᵀ) * (U * w * Vt) = Vtᵀ * (wᵀ * (Uᵀ * U) * w) * Vt := by simp only [Matrix.mul_assoc]
      _ = 1 := by rw [hU, Matrix.mul_one, hw.1, Matrix.mul_one, mul_eq_one_comm.mp hV]
  · rw [Matrix.det_smul, hdet]
    simp only [Fintype.card_fin]
    calc (U.det * Vt.det) ^ 3 * (U.det * Vt.det) = ((U.det * Vt.det) ^ 2) ^ 2 := by ring
      _ = 1 := by rw [hd2, one_pow]

lemma turn_rotation : IsRotation turn := by
  constructor
  · ext i j
    fin_cases i <;> fin_cases j <;> simp [turn, Matrix.mul_apply, Fin.sum_univ_three]
  · simp [turn, Matrix.det_fin_three]

lemma turn_rotation' : IsRotation turnᵀ := by
  constructor
  · rw [Matrix.transpose_transpose]; exact mul_eq_one_comm.mp turn_rotation.1
  · rw [Matrix.det_transpose]; exact turn_rotation.2

/-- The cross product matrix of the last column of `U`. -/
lemma cross_column (U : Mat ℝ 3 3) (hU : Uᵀ * U = 1) :
    crossMatrix (fun i => U i 2) * U = U.det • (U * crossMatrix ![0, 0, 1]) := by
  have e : (fun i => U i 2) = U.mulVec ![0, 0, 1] := by
    funext i
    simp [Matrix.mulVec, dotProduct, Fin.sum_univ_three]
  rw [e, ← Matrix.mul_smul, ← cross_conj]
  rw [← Matrix.mul_assoc, ← Matrix.mul_assoc, mul_eq_one_comm.mp hU, Matrix.one_mul]

/-- The cross product of the last column with a candidate is a multiple of the essential matrix. -/
lemma cross_candidate (getrf : Mat ℝ 3 3 → Mat ℝ 3 3 × (Fin 3 → Fin 3)) (hrf : LUFactorisation getrf) (U Vt w : Mat ℝ 3 3)
    (s : Vec ℝ 3) (g σ : ℝ) (hg : g ≠ 0) (h0 : s 0 = g) (h1 : s 1 = g) (h2 : s 2 = 0)
    (hU : Uᵀ * U = 1) (hV : Vt * Vtᵀ = 1) (hw : IsRotation w)
    (hσ : crossMatrix ![0, 0, 1] * w = σ • Matrix.diagonal ![1, 1, 0]) :
    crossMatrix (fun i => U i 2) * candidate getrf U w Vt =
      (U.det * Vt.det * U.det * σ / g) • (U * Matrix.diagonal s * Vt) := by
  have hs : s = g • ![1, 1, 0] := by
    funext i
    fin_cases i <;> simp [h0, h1, h2]
  rw [(candidate_eq getrf hrf U w Vt hU hV hw).1, Matrix.mul_smul, ← Matrix.mul_assoc, ← Matrix.mul_assoc, cross_column U hU,
    Matrix.smul_mul, Matrix.smul_mul, Matrix.mul_assoc U, hσ, hs, Matrix.mul_smul, Matrix.smul_mul]
  have : Matrix.diagonal (g • ![1, 1, 0] : Vec ℝ 3) = g • Matrix.diagonal ![1, 1, 0] := by
    rw [Matrix.diagonal_smul]
  rw [this, Matrix.mul_smul, Matrix.smul_mul, smul_smul, smul_smul, smul_smul]
  congr 1
  field_simp

lemma turn_cross : crossMatrix ![0, 0, 1] * turn = (-1 : ℝ) • Matrix.diagonal ![1, 1, 0] := by
  ext i j
  fin_cases i <;> fin_cases j <;> simp [crossMatrix, turn, Matrix.mul_apply, Fin.sum_univ_three]

lemma turn_cross' : crossMatrix ![0, 0, 1] * turnᵀ = (1 : ℝ) • Matrix.diagonal ![1, 1, 0] := by
  ext i j
  fin_cases i <;> fin_cases j <;> simp [crossMatrix, turn, Matrix.mul_apply, Fin.sum_univ_three]

/-- The two candidates are the rotation and its product with the half turn about the translation, in some order, and the
last column of `U` is a unit vector in the direction of the translation or the opposite one. -/
lemma candidates (getrf : Mat ℝ 3 3 → Mat ℝ 3 3 × (Fin 3 → Fin 3)) (hrf : LUFactorisation getrf) (c : ℝ) (hc : c ≠ 0)
    (t : Vec ℝ 3) (ht : t ≠ 0) (R : Mat ℝ 3 3) (hR : IsRotation R) (U Vt : Mat ℝ 3 3)
    (s : Vec ℝ 3) (ha : Antitone s) (hn : ∀ i, 0 ≤ s i) (hU : Uᵀ * U = 1) (hV : Vt * Vtᵀ = 1)
    (h : c • (crossMatrix t * R) = U * Matrix.diagonal s * Vt) :
    ∃ u : Vec ℝ 3, u = (1 / Real.sqrt (t ⬝ᵥ t)) • t ∧ ((fun i => U i 2) = u ∨ (fun i => U i 2) = -u) ∧
      ((candidate getrf U turn Vt = R ∧ candidate getrf U turnᵀ Vt = halfTurn u * R) ∨
       (candidate getrf U turn Vt = halfTurn u * R ∧ candidate getrf U turnᵀ Vt = R)) := by
  obtain ⟨g, τ, hg, h0, h1, h2, htu, hτ, hgτ⟩ := essential_svd c hc t ht R hR U Vt s ha hn hU hV h
  obtain ⟨u3, hu3⟩ : ∃ u3 : Vec ℝ 3, u3 = fun i => U i 2 := ⟨_, rfl⟩
  have hpos : 0 < t ⬝ᵥ t := by
    rcases (show 0 ≤ t ⬝ᵥ t from Finset.sum_nonneg fun i _ => mul_self_nonneg _).lt_or_eq with h | h
    · exact h
    · exact absurd (dotProduct_self_eq_zero.mp h.symm) ht
  have hτ0 : τ ≠ 0 := by rintro rfl; simp at hτ; linarith
  have hu1 : u3 ⬝ᵥ u3 = 1 := by
    have := congrFun (congrFun hU 2) 2
    simpa [Matrix.mul_apply, dotProduct, hu3] using this
  have hl2 : Real.sqrt (t ⬝ᵥ t) ^ 2 = τ ^ 2 := by rw [Real.sq_sqrt hpos.le, hτ]
  have hl : 0 < Real.sqrt (t ⬝ᵥ t) := Real.sqrt_pos.mpr hpos
  rw [← hu3] at htu
  have hux : u3 = (1 / Real.sqrt (t ⬝ᵥ t)) • t ∨ u3 = -((1 / Real.sqrt (t ⬝ᵥ t)) • t) := by
    rcases sq_eq_sq_iff_eq_or_eq_neg.mp hl2 with e | e
    · left
      rw [e]
      conv_rhs => rw [htu]
      rw [smul_smul, one_div, inv_mul_cancel₀ hτ0, one_smul]
    · right
      rw [e]
      conv_rhs => rw [htu]
      rw [smul_smul, ← neg_smul, one_div, inv_neg, neg_mul, neg_neg, inv_mul_cancel₀ hτ0, one_smul]
  have hht : halfTurn ((1 / Real.sqrt (t ⬝ᵥ t)) • t) = halfTurn u3 := by
    rcases hux with e | e
    · rw [← e]
    · rw [e]
      unfold halfTurn
      congr 2
      ext i j
      simp [Matrix.vecMulVec_apply]
  refine ⟨_, rfl, by rw [← hu3]; exact hux, ?_⟩
  rw [hht]
  obtain ⟨_, hrot, hd⟩ := candidate_eq getrf hrf U turn Vt hU hV turn_rotation
  obtain ⟨_, hrot', _⟩ := candidate_eq getrf hrf U turnᵀ Vt hU hV turn_rotation'
  have hu2 : U.det ^ 2 = 1 := by
    have := congrArg Matrix.det hU
    rw [Matrix.det_mul, Matrix.det_transpose, Matrix.det_one] at this
    rw [pow_two]; exact this
  have key : ∀ (w : Mat ℝ 3 3) (σ : ℝ), IsRotation w → crossMatrix ![0, 0, 1] * w = σ • Matrix.diagonal ![1, 1, 0] →
      crossMatrix u3 * candidate getrf U w Vt = (U.det * Vt.det * U.det * σ / g * c * τ) • (crossMatrix u3 * R) := by
    intro w σ hw hσ
    rw [hu3, cross_candidate getrf hrf U Vt w s g σ hg h0 h1 h2 hU hV hw hσ, ← h, htu, cross_smul, Matrix.smul_mul, smul_smul,
      smul_smul, hu3]
  have k1 := key turn (-1) turn_rotation turn_cross
  have k2 := key turnᵀ 1 turn_rotation' turn_cross'
  obtain ⟨e, he⟩ : ∃ e : ℝ, e = U.det * Vt.det * U.det * 1 / g * c * τ := ⟨_, rfl⟩
  have hen : U.det * Vt.det * U.det * -1 / g * c * τ = -e := by rw [he]; ring
  rw [← he] at k2
  rw [hen] at k1
  have he2 : e ^ 2 = 1 := by
    have hg2 : g ^ 2 ≠ 0 := pow_ne_zero 2 hg
    rw [he]
    calc (U.det * Vt.det * U.det * 1 / g * c * τ) ^ 2 = (U.det * Vt.det) ^ 2 * U.det ^ 2 * (c ^ 2 * τ ^ 2) / g ^ 2 := by ring
      _ = 1 := by rw [hd, hu2, ← hgτ]; field_simp
  have r2 := rotation_of_cross u3 hu1 _ R hrot' hR e he2 k2
  have r1 := rotation_of_cross u3 hu1 _ R hrot hR (-e) (by rw [neg_sq]; exact he2) k1
  rcases r1 with ⟨a1, a2⟩ | ⟨a1, a2⟩ <;> rcases r2 with ⟨b1, b2⟩ | ⟨b1, b2⟩
  · exfalso; linarith
  · exact Or.inl ⟨a2, b2⟩
  · exact Or.inr ⟨a2, b2⟩
  · exfalso; linarith

/-! ## Triangulation of the candidates -/

lemma columns_mulVec (R : Mat ℝ 3 3) (t : Vec ℝ 3) (v : Vec ℝ 4) :
    (columns R t).mulVec v = R.mulVec ![v 0, v 1, v 2] + v 3 • t := by
  funext i
  fin_cases i <;> simp [columns, Matrix.mulVec, dotProduct, Fin.sum_univ_four, Fin.sum_univ_three] <;> ring

lemma columns_point (R : Mat ℝ 3 3) (t X : Vec ℝ 3) : (columns R t).mulVec (homogeneous X) = R.mulVec X + t := by
  rw [columns_mulVec, homogeneous3]
  have : (![X 0, X 1, X 2] : Vec ℝ 3) = X := by funext i; fin_cases i <;> rfl
  simp [this]

lemma columns_centre (K R : Mat ℝ 3 3) (hK : K.det ≠ 0) (hR : IsRotation R) (t : Vec ℝ 3) :
    IsCentre (K * columns R t) (-Rᵀ.mulVec t) := by
  have hRR : R * Rᵀ = 1 := mul_eq_one_comm.mp hR.1
  intro v
  rw [← Matrix.mulVec_mulVec]
  constructor
  · intro h
    have h1 := Matrix.eq_zero_of_mulVec_eq_zero hK h
    rw [columns_mulVec] at h1
    have h2 := congrArg (fun x => Rᵀ.mulVec x) h1
    simp only [Matrix.mulVec_add, Matrix.mulVec_smul, Matrix.mulVec_mulVec, hR.1, Matrix.one_mulVec, Matrix.mulVec_zero] at h2
    refine ⟨v 3, ?_⟩
    rw [homogeneous3]
    have a0 := congrFun h2 0
    have a1 := congrFun h2 1
    have a2 := congrFun h2 2
    simp at a0 a1 a2
    funext i
    fin_cases i
    · simp; linarith
    · simp; linarith
    · simp; linarith
    · simp
  · rintro ⟨m, rfl⟩
    rw [Matrix.mulVec_smul, columns_point, Matrix.mulVec_neg, Matrix.mulVec_mulVec, hRR, Matrix.one_mulVec, neg_add_cancel,
      smul_zero, Matrix.mulVec_zero]

lemma one_rotation : IsRotation (1 : Mat ℝ 3 3) := ⟨by simp, by simp⟩

/-- The triangulation of exact images with the cameras `K1 [1 | 0]` and `K2 [Q | τ]`. -/
lemma triangulate (gesvd4 : List (Vec ℝ 4) → Option (Vec ℝ 4 × Mat ℝ 4 4)) (hg4 : SingularValueSolver gesvd4)
    (hc4 : ∀ rows, ∃ r, gesvd4 rows = some r) (K1 K2 Q : Mat ℝ 3 3) (hK1 : K1.det ≠ 0) (hK2 : K2.det ≠ 0) (hQ : IsRotation Q)
    (τ s : Vec ℝ 3) (x x' : Vec ℝ 2) (h1 : ∃ w : ℝ, K1.mulVec s = w • homogeneous x)
    (h2 : ∃ w : ℝ, K2.mulVec (Q.mulVec s + τ) = w • homogeneous x')
    (hind : ∀ a b : ℝ, a • Q.mulVec s + b • (Q.mulVec s + τ) = 0 → a = 0 ∧ b = 0) (v : Bool)
    (hv : v = true ↔ (Q.mulVec s + τ) 2 < 0 ∧ s 2 < 0) :
    inFront gesvd4 K1 K2 x x' Q τ = some v := by
  have hQQ : Q * Qᵀ = 1 := mul_eq_one_comm.mp hQ.1
  have hs := C41_two_views_recovered gesvd4 hg4 hc4 (K1 * columns 1 0) (K2 * columns Q τ) _ _ s x x'
    (columns_centre K1 1 hK1 one_rotation 0) (columns_centre K2 Q hK2 hQ τ) (by
      rw [LinearIndependent.pair_iff]
      intro a b hab
      apply hind
      have := congrArg (fun y => Q.mulVec y) hab
      simp only [Matrix.mulVec_add, Matrix.mulVec_smul, Matrix.mulVec_mulVec, hQQ,
        Matrix.one_mulVec, Matrix.mulVec_zero, sub_neg_eq_add, neg_zero, sub_zero] at this
      simpa using this) (by
      obtain ⟨w, hw⟩ := h1
      refine ⟨w, ?_⟩
      rw [← Matrix.mulVec_mulVec, columns_point, Matrix.one_mulVec, add_zero, hw]) (by
      obtain ⟨w, hw⟩ := h2
      refine ⟨w, ?_⟩
      rw [← Matrix.mulVec_mulVec, columns_point, hw])
  unfold inFront
  simp only [hs, Option.bind_eq_bind, Option.bind_some, Option.some.injEq]
  rw [Bool.eq_iff_iff, decide_eq_true_iff, hv]

lemma halfTurn_mulVec (u v : Vec ℝ 3) : (halfTurn u).mulVec v = (2 * (u ⬝ᵥ v)) • u - v := by
  rw [halfTurn, Matrix.sub_mulVec, Matrix.smul_mulVec, vecMulVec_mulVec', Matrix.one_mulVec, smul_smul]

lemma halfTurn_rotation (u : Vec ℝ 3) (hu : u ⬝ᵥ u = 1) : IsRotation (halfTurn u) := by
  have hu' : u 0 * u 0 + u 1 * u 1 + u 2 * u 2 = 1 := by
    simpa [dotProduct, Fin.sum_univ_three] using hu
  constructor
  · have hsym : (halfTurn u)ᵀ = halfTurn u := by
      ext i j
      simp [halfTurn, Matrix.vecMulVec_apply, Matrix.one_apply, eq_comm, mul_comm]
    rw [hsym]
    apply Matrix.ext_of_mulVec_single
    intro i
    rw [← Matrix.mulVec_mulVec, Matrix.one_mulVec]
    obtain ⟨v, hv⟩ : ∃ v : Vec ℝ 3, v = Pi.single i 1 := ⟨_, rfl⟩
    rw [← hv, halfTurn_mulVec, halfTurn_mulVec, dotProduct_sub, dotProduct_smul, hu]
    funext j
    simp; ring
  · have : (halfTurn u).det = 2 * (u 0 * u 0 + u 1 * u 1 + u 2 * u 2) - 1 := by
      simp [halfTurn, Matrix.det_fin_three, Matrix.vecMulVec_apply]; ring
    rw [this, hu']; norm_num

lemma isRotation_mul {A B : Mat ℝ 3 3} (hA : IsRotation A) (hB : IsRotation B) : IsRotation (A * B) := by
  constructor
  · rw [Matrix.transpose_mul]
    calc Bᵀ * Aᵀ * (A * B) = Bᵀ * (Aᵀ * A) * B := by simp only [Matrix.mul_assoc]
      _ = 1 := by rw [hA.1, Matrix.mul_one, hB.1]
  · rw [Matrix.det_mul, hA.2, hB.2, one_mul]

/-- The four tests: only the true pose has the triangulated point in front of both cameras. -/
lemma tests (gesvd4 : List (Vec ℝ 4) → Option (Vec ℝ 4 × Mat ℝ 4 4)) (hg4 : SingularValueSolver gesvd4)
    (hc4 : ∀ rows, ∃ r, gesvd4 rows = some r) (K1 K2 R : Mat ℝ 3 3) (hK1 : K1.det ≠ 0) (hK2 : K2.det ≠ 0) (hR : IsRotation R)
    (u X : Vec ℝ 3) (hu : u ⬝ᵥ u = 1) (x x' : Vec ℝ 2) (h1 : ∃ w : ℝ, K1.mulVec X = w • homogeneous x)
    (h2 : ∃ w : ℝ, K2.mulVec (R.mulVec X + u) = w • homogeneous x') (hz1 : X 2 < 0) (hz2 : (R.mulVec X + u) 2 < 0)
    (hind : ∀ a b : ℝ, a • R.mulVec X + b • u = 0 → a = 0 ∧ b = 0) (hne : 1 + 2 * (u ⬝ᵥ R.mulVec X) ≠ 0) :
    inFront gesvd4 K1 K2 x x' R u = some true ∧ inFront gesvd4 K1 K2 x x' R (-u) = some false ∧
    inFront gesvd4 K1 K2 x x' (halfTurn u * R) u = some false ∧
    inFront gesvd4 K1 K2 x x' (halfTurn u * R) (-u) = some false := by
  obtain ⟨w1, hw1⟩ := h1
  obtain ⟨w2, hw2⟩ := h2
  obtain ⟨y, hy⟩ : ∃ y, y = R.mulVec X := ⟨_, rfl⟩
  obtain ⟨m, hm⟩ : ∃ m : ℝ, m = (1 + 2 * (u ⬝ᵥ y))⁻¹ := ⟨_, rfl⟩
  rw [← hy] at hw2 hz2 hind hne
  have hm1 : m * (1 + 2 * (u ⬝ᵥ y)) = 1 := by rw [hm]; exact inv_mul_cancel₀ hne
  have hm0 : m ≠ 0 := by rw [hm]; exact inv_ne_zero hne
  have hHR := isRotation_mul (halfTurn_rotation u hu) hR
  have hHX : (halfTurn u * R).mulVec X = (2 * (u ⬝ᵥ y)) • u - y := by
    rw [← Matrix.mulVec_mulVec, ← hy, halfTurn_mulVec]
  -- the images of the triangulated points in the second camera
  have e3 : (halfTurn u * R).mulVec (-m • X) + u = m • (y + u) := by
    rw [Matrix.mulVec_smul, hHX]
    funext i
    simp only [Pi.add_apply, Pi.smul_apply, Pi.sub_apply, smul_eq_mul]
    linear_combination (-u i) * hm1
  have e4 : (halfTurn u * R).mulVec (m • X) + -u = -m • (y + u) := by
    rw [Matrix.mulVec_smul, hHX]
    funext i
    simp only [Pi.add_apply, Pi.smul_apply, Pi.sub_apply, Pi.neg_apply, smul_eq_mul]
    linear_combination (u i) * hm1
  have hz : y 2 + u 2 < 0 := hz2
  have hind' : ∀ p q : ℝ, p • y + q • u = 0 → p = 0 ∧ q = 0 := hind
  have indH : ∀ l n : ℝ, l ≠ 0 → n ≠ 0 → ∀ a b : ℝ,
      a • (l • ((2 * (u ⬝ᵥ y)) • u - y)) + b • (n • (y + u)) = 0 → a = 0 ∧ b = 0 := by
    intro l n hl hn a b hab
    have : (b * n - a * l) • y + (b * n + a * l * (2 * (u ⬝ᵥ y))) • u = 0 := by
      rw [← hab]
      funext i
      simp only [Pi.add_apply, Pi.smul_apply, Pi.sub_apply, smul_eq_mul]
      ring
    obtain ⟨c1, c2⟩ := hind' _ _ this
    have c3 : a * l * (1 + 2 * (u ⬝ᵥ y)) = 0 := by linear_combination c2 - c1
    have ha : a * l = 0 := (mul_eq_zero.mp c3).resolve_right hne
    have ha0 : a = 0 := (mul_eq_zero.mp ha).resolve_right hl
    rw [ha0, zero_mul, sub_zero] at c1
    exact ⟨ha0, (mul_eq_zero.mp c1).resolve_right hn⟩
  refine ⟨?_, ?_, ?_, ?_⟩
  · refine triangulate gesvd4 hg4 hc4 K1 K2 R hK1 hK2 hR u X x x' ⟨w1, hw1⟩ ⟨w2, by rw [← hy]; exact hw2⟩ ?_ true ?_
    · intro a b hab
      rw [← hy] at hab
      have : (a + b) • y + b • u = 0 := by rw [← hab, add_smul, smul_add]; abel
      obtain ⟨c1, c2⟩ := hind' _ _ this
      exact ⟨by linarith, c2⟩
    · rw [← hy]; exact ⟨fun _ => ⟨hz, hz1⟩, fun _ => rfl⟩
  · refine triangulate gesvd4 hg4 hc4 K1 K2 R hK1 hK2 hR (-u) (-X) x x' ⟨-w1, by rw [Matrix.mulVec_neg, hw1, neg_smul]⟩
      ⟨-w2, by rw [Matrix.mulVec_neg, ← hy, ← neg_add, Matrix.mulVec_neg, hw2, neg_smul]⟩ ?_ false ?_
    · intro a b hab
      rw [Matrix.mulVec_neg, ← hy] at hab
      have : (a + b) • y + b • u = 0 := by
        rw [← neg_eq_zero, ← hab, add_smul]
        simp only [smul_add, smul_neg]
        abel
      obtain ⟨c1, c2⟩ := hind' _ _ this
      exact ⟨by linarith, c2⟩
    · simp only [Bool.false_eq_true, false_iff, not_and, not_lt, Pi.neg_apply]
      intro _; linarith
  · refine triangulate gesvd4 hg4 hc4 K1 K2 _ hK1 hK2 hHR u (-m • X) x x'
      ⟨-m * w1, by rw [Matrix.mulVec_smul, hw1, smul_smul]⟩
      ⟨m * w2, by rw [e3, Matrix.mulVec_smul, hw2, smul_smul]⟩ ?_ false ?_
    · intro a b hab
      rw [e3, Matrix.mulVec_smul, hHX] at hab
      exact indH (-m) m (neg_ne_zero.mpr hm0) hm0 a b hab
    · rw [e3]
      simp only [Bool.false_eq_true, false_iff, not_and, not_lt, Pi.add_apply, Pi.smul_apply, smul_eq_mul]
      intro h
      have : 0 < m := by
        by_contra hc
        nlinarith [mul_nonneg (neg_nonneg.mpr (not_lt.mp hc)) (neg_nonneg.mpr hz.le)]
      nlinarith
  · refine triangulate gesvd4 hg4 hc4 K1 K2 _ hK1 hK2 hHR (-u) (m • X) x x'
      ⟨m * w1, by rw [Matrix.mulVec_smul, hw1, smul_smul]⟩
      ⟨-m * w2, by rw [e4, Matrix.mulVec_smul, hw2, smul_smul]⟩ ?_ false ?_
    · intro a b hab
      rw [e4, Matrix.mulVec_smul, hHX] at hab
      exact indH m (-m) hm0 (neg_ne_zero.mpr hm0) a b hab
    · rw [e4]
      simp only [Bool.false_eq_true, false_iff, not_and, not_lt, Pi.add_apply, Pi.smul_apply, smul_eq_mul]
      intro h
      have : m < 0 := by
        by_contra hc
        nlinarith [mul_nonneg (not_lt.mp hc) (neg_nonneg.mpr hz.le)]
      nlinarith

/-! ## The property -/

/-- **C62** Whatever matrix is given, a returned pose has a unit quaternion and a translation of length one. -/
theorem C62_valid (getrf : Mat ℝ 3 3 → Mat ℝ 3 3 × (Fin 3 → Fin 3)) (hrf : LUFactorisation getrf)
    (gesvd3 : Mat ℝ 3 3 → Vec ℝ 3 × Mat ℝ 3 3 × Mat ℝ 3 3) (hsvd : ThinSVD gesvd3)
    (gesvd4 : List (Vec ℝ 4) → Option (Vec ℝ 4 × Mat ℝ 4 4)) (F K1 K2 : Mat ℝ 3 3) (x x' : Vec ℝ 2) (p : Pose ℝ)
    (h : poseFromFundamentalMatrix getrf gesvd3 gesvd4 F x x' K1 K2 = some p) :
    UnitQ p.rotation ∧ p.translation ⬝ᵥ p.translation = 1 := by
  obtain ⟨_, _, hU, hV, _⟩ := hsvd (K2ᵀ * F * K1)
  obtain ⟨U, hU'⟩ : ∃ U, U = (gesvd3 (K2ᵀ * F * K1)).2.1 := ⟨_, rfl⟩
  obtain ⟨Vt, hV'⟩ : ∃ Vt, Vt = (gesvd3 (K2ᵀ * F * K1)).2.2 := ⟨_, rfl⟩
  have hr1 := (candidate_eq getrf hrf U turn Vt (by rw [hU']; exact hU) (by rw [hV']; exact hV) turn_rotation).2.1
  have hr2 := (candidate_eq getrf hrf U turnᵀ Vt (by rw [hU']; exact hU) (by rw [hV']; exact hV) turn_rotation').2.1
  have hq1 := (C04_every_rotation_matrix _ hr1.1 hr1.2).1
  have hq2 := (C04_every_rotation_matrix _ hr2.1 hr2.2).1
  have hu : (fun i => U i 2) ⬝ᵥ (fun i => U i 2) = 1 := by
    have := congrFun (congrFun hU 2) 2
    simpa [Matrix.mul_apply, dotProduct, hU'] using this
  have hu' : (-(fun i => U i 2)) ⬝ᵥ (-(fun i => U i 2)) = 1 := by rw [neg_dotProduct_neg]; exact hu
  unfold poseFromFundamentalMatrix at h
  simp only [← hU', ← hV', Option.bind_eq_bind, Option.bind_eq_some_iff] at h
  obtain ⟨b1, _, h⟩ := h
  split_ifs at h
  · rw [← Option.some.inj h]; exact ⟨hq1, hu⟩
  · obtain ⟨b2, _, h⟩ := Option.bind_eq_some_iff.mp h
    split_ifs at h
    · rw [← Option.some.inj h]; exact ⟨hq1, hu'⟩
    · obtain ⟨b3, _, h⟩ := Option.bind_eq_some_iff.mp h
      split_ifs at h
      · rw [← Option.some.inj h]; exact ⟨hq2, hu'⟩
      · rw [← Option.some.inj h]; exact ⟨hq2, hu⟩

/-- **C62** The relative pose of two calibrated cameras is recovered from their fundamental matrix and one corresponding pair
of image points. `F` is, up to scale, the fundamental matrix of the cameras `K1 [1 | 0]` and `K2 [R | t]`, where `p` is the
pose with rotation `R` and translation `t`. `X` is a point in front of both cameras (negative depth) seen at `x` and `x'`,
not on the line through the camera centres, and not equally far from both centres. Then the result is the pose with the
rotation `R` and the translation `t / |t|`. -/
theorem C62_recovered (getrf : Mat ℝ 3 3 → Mat ℝ 3 3 × (Fin 3 → Fin 3)) (hrf : LUFactorisation getrf)
    (gesvd3 : Mat ℝ 3 3 → Vec ℝ 3 × Mat ℝ 3 3 × Mat ℝ 3 3) (hsvd : ThinSVD gesvd3)
    (gesvd4 : List (Vec ℝ 4) → Option (Vec ℝ 4 × Mat ℝ 4 4)) (hg4 : SingularValueSolver gesvd4)
    (hc4 : ∀ rows, ∃ r, gesvd4 rows = some r) (K1 K2 : Mat ℝ 3 3) (hK1 : K1.det ≠ 0) (hK2 : K2.det ≠ 0)
    (p : Pose ℝ) (hp : UnitQ p.rotation) (F : Mat ℝ 3 3) (c : ℝ) (hc : c ≠ 0)
    (hF : K2ᵀ * F * K1 = c • (crossMatrix p.translation * p.rotation.toMatrix))
    (X : Vec ℝ 3) (x x' : Vec ℝ 2) (hx : ∃ w : ℝ, K1.mulVec X = w • homogeneous x)
    (hx' : ∃ w : ℝ, K2.mulVec (p.apply X) = w • homogeneous x') (hz : X 2 < 0) (hz' : (p.apply X) 2 < 0)
    (hline : LinearIndependent ℝ ![p.rotation.rotate X, p.translation])
    (hfar : p.apply X ⬝ᵥ p.apply X ≠ X ⬝ᵥ X) :
    ∃ r : Pose ℝ, poseFromFundamentalMatrix getrf gesvd3 gesvd4 F x x' K1 K2 = some r ∧ UnitQ r.rotation ∧
      r.rotation.toMatrix = p.rotation.toMatrix ∧
      r.translation = (1 / Real.sqrt (p.translation ⬝ᵥ p.translation)) • p.translation := by
  obtain ⟨t, ht⟩ : ∃ t, t = p.translation := ⟨_, rfl⟩
  obtain ⟨R, hRe⟩ : ∃ R, R = p.rotation.toMatrix := ⟨_, rfl⟩
  obtain ⟨hRv, hRt, _, hRd⟩ := C03_quaternion_to_matrix _ hp
  rw [← hRe] at hRv hRt hRd hF ⊢
  have hR : IsRotation R := ⟨hRt, hRd⟩
  have hap : p.apply X = R.mulVec X + t := by rw [Pose.apply, hRv, ht]
  rw [← ht] at hF hline ⊢
  rw [← hRv] at hline
  rw [hap] at hx' hz' hfar
  have hind := LinearIndependent.pair_iff.mp hline
  have ht0 : t ≠ 0 := by
    rintro rfl
    have := hind 0 1 (by simp)
    exact one_ne_zero this.2
  have hpos : 0 < t ⬝ᵥ t := by
    rcases (show 0 ≤ t ⬝ᵥ t from Finset.sum_nonneg fun i _ => mul_self_nonneg _).lt_or_eq with h | h
    · exact h
    · exact absurd (dotProduct_self_eq_zero.mp h.symm) ht0
  obtain ⟨ha, hn, hU, hV, hA⟩ := hsvd (K2ᵀ * F * K1)
  obtain ⟨s, hs'⟩ : ∃ s, s = (gesvd3 (K2ᵀ * F * K1)).1 := ⟨_, rfl⟩
  obtain ⟨U, hU'⟩ : ∃ U, U = (gesvd3 (K2ᵀ * F * K1)).2.1 := ⟨_, rfl⟩
  obtain ⟨Vt, hV'⟩ : ∃ Vt, Vt = (gesvd3 (K2ᵀ * F * K1)).2.2 := ⟨_, rfl⟩
  rw [← hs', ← hU', ← hV'] at hA
  rw [← hs'] at ha hn
  rw [← hU'] at hU
  rw [← hV'] at hV
  obtain ⟨u, hu, hu3, hcand⟩ := candidates getrf hrf c hc t ht0 R hR U Vt s ha hn hU hV (hF.symm.trans hA)
  obtain ⟨l, hl⟩ : ∃ l : ℝ, l = Real.sqrt (t ⬝ᵥ t) := ⟨_, rfl⟩
  have hl0 : 0 < l := by rw [hl]; exact Real.sqrt_pos.mpr hpos
  have hl2 : l * l = t ⬝ᵥ t := by rw [hl]; exact Real.mul_self_sqrt hpos.le
  rw [← hl] at hu
  have htl : t = l • u := by rw [hu, smul_smul, mul_one_div_cancel hl0.ne', one_smul]
  have hu1 : u ⬝ᵥ u = 1 := by
    rw [hu, smul_dotProduct, dotProduct_smul, ← hl2]
    simp only [smul_eq_mul]
    field_simp
  have hRX : R.mulVec X ⬝ᵥ R.mulVec X = X ⬝ᵥ X := by
    rw [Matrix.dotProduct_mulVec, ← Matrix.mulVec_transpose, Matrix.mulVec_mulVec, hRt, Matrix.one_mulVec]
  have hscale : R.mulVec (l⁻¹ • X) + u = l⁻¹ • (R.mulVec X + t) := by
    rw [Matrix.mulVec_smul, smul_add, htl, smul_smul, inv_mul_cancel₀ hl0.ne', one_smul]
  obtain ⟨t1, t2, t3, t4⟩ := tests gesvd4 hg4 hc4 K1 K2 R hK1 hK2 hR u (l⁻¹ • X) hu1 x x'
    (by obtain ⟨w, hw⟩ := hx; exact ⟨l⁻¹ * w, by rw [Matrix.mulVec_smul, hw, smul_smul]⟩)
    (by obtain ⟨w, hw⟩ := hx'; exact ⟨l⁻¹ * w, by rw [hscale, Matrix.mulVec_smul, hw, smul_smul]⟩)
    (by simp only [Pi.smul_apply, smul_eq_mul]; exact mul_neg_of_pos_of_neg (inv_pos.mpr hl0) hz)
    (by rw [hscale]; simp only [Pi.smul_apply, smul_eq_mul]; exact mul_neg_of_pos_of_neg (inv_pos.mpr hl0) hz')
    (by
      intro a b hab
      have := hind (a * l⁻¹) (b * l⁻¹) (by
        rw [htl, ← hab, Matrix.mulVec_smul, smul_smul, smul_smul, mul_assoc, inv_mul_cancel₀ hl0.ne', mul_one])
      have hli := inv_ne_zero hl0.ne'
      exact ⟨(mul_eq_zero.mp this.1).resolve_right hli, (mul_eq_zero.mp this.2).resolve_right hli⟩)
    (by
      intro h0
      apply hfar
      rw [add_dotProduct, dotProduct_add, dotProduct_add, hRX, dotProduct_comm t (R.mulVec X)]
      rw [Matrix.mulVec_smul, dotProduct_smul, dotProduct_comm, smul_eq_mul] at h0
      rw [← hl2]
      have e : R.mulVec X ⬝ᵥ t = l * (R.mulVec X ⬝ᵥ u) := by
        conv_lhs => rw [htl]
        rw [dotProduct_smul, smul_eq_mul]
      rw [e]
      have hli : l * l⁻¹ = 1 := mul_inv_cancel₀ hl0.ne'
      linear_combination l ^ 2 * h0 - 2 * l * (R.mulVec X ⬝ᵥ u) * hli)
  obtain ⟨hq, hqm, _⟩ := C04_every_rotation_matrix R hR.1 hR.2
  have hgoal : ∀ r : Pose ℝ, r = ⟨Quat.ofMatrix R, u⟩ → UnitQ r.rotation ∧ r.rotation.toMatrix = R ∧
      r.translation = (1 / Real.sqrt (t ⬝ᵥ t)) • t := by
    rintro r rfl
    exact ⟨hq, hqm, by rw [hu, hl]⟩
  refine ⟨⟨Quat.ofMatrix R, u⟩, ?_, hgoal _ rfl⟩
  unfold poseFromFundamentalMatrix
  simp only [← hU', ← hV', Option.bind_eq_bind]
  rcases hcand with ⟨hW, hWt⟩ | ⟨hW, hWt⟩ <;> rcases hu3 with h3 | h3 <;> rw [hW, hWt, h3]
  · simp [t1]
  · simp [t1, t2]
  · simp [t2, t3, t4]
  · simp [t1, t3, t4]

/-- **C62** Round trip: the fundamental matrix computed from two poses, the first the identity, gives back the second pose, up
to the length of the translation. -/
theorem C62_round_trip (getrf : Mat ℝ 3 3 → Mat ℝ 3 3 × (Fin 3 → Fin 3)) (hrf : LUFactorisation getrf)
    (getrf4 : Mat ℝ 4 4 → Mat ℝ 4 4 × (Fin 4 → Fin 4)) (hrf4 : LUFactorisation getrf4)
    (getri4 : Mat ℝ 4 4 → (Fin 4 → Fin 4) → Mat ℝ 4 4) (hri4 : LUInverse getri4)
    (gesvd34 : Mat ℝ 3 4 → Vec ℝ 3 × Mat ℝ 3 3 × Mat ℝ 3 4) (hsvd34 : ThinSVD gesvd34)
    (gesvd3 : Mat ℝ 3 3 → Vec ℝ 3 × Mat ℝ 3 3 × Mat ℝ 3 3) (hsvd : ThinSVD gesvd3)
    (gesvd4 : List (Vec ℝ 4) → Option (Vec ℝ 4 × Mat ℝ 4 4)) (hg4 : SingularValueSolver gesvd4)
    (hc4 : ∀ rows, ∃ r, gesvd4 rows = some r) (K1 K2 : Mat ℝ 3 3) (hK1 : K1.det ≠ 0) (hK2 : K2.det ≠ 0)
    (p : Pose ℝ) (hp : UnitQ p.rotation)
    (X : Vec ℝ 3) (x x' : Vec ℝ 2) (hx : ∃ w : ℝ, K1.mulVec X = w • homogeneous x)
    (hx' : ∃ w : ℝ, K2.mulVec (p.apply X) = w • homogeneous x') (hz : X 2 < 0) (hz' : (p.apply X) 2 < 0)
    (hline : LinearIndependent ℝ ![p.rotation.rotate X, p.translation])
    (hfar : p.apply X ⬝ᵥ p.apply X ≠ X ⬝ᵥ X) :
    ∃ r : Pose ℝ, poseFromFundamentalMatrix getrf gesvd3 gesvd4
        (fundamentalMatrixFromPoses getrf4 getri4 gesvd34 Pose.one p K1 K2) x x' K1 K2 = some r ∧ UnitQ r.rotation ∧
      r.rotation.toMatrix = p.rotation.toMatrix ∧
      r.translation = (1 / Real.sqrt (p.translation ⬝ᵥ p.translation)) • p.translation := by
  refine C62_recovered getrf hrf gesvd3 hsvd gesvd4 hg4 hc4 K1 K2 hK1 hK2 p hp _ K2.det hK2 ?_ X x x' hx hx' hz hz' hline hfar
  have h1 : UnitQ (Pose.one : Pose ℝ).rotation := isUnit_one
  obtain ⟨C, hC, hC0⟩ := centre_eq getrf4 hrf4 getri4 hri4 gesvd34 hsvd34 Pose.one h1
  have key := fromPoses_mulVec getrf4 hrf4 getri4 hri4 gesvd34 hsvd34 Pose.one p K1 K2 h1 hK1 C hC hC0
  have hone : (Pose.one : Pose ℝ).toMatrix34 = !![1, 0, 0, 0; 0, 1, 0, 0; 0, 0, 1, 0] := by
    ext i j
    fin_cases i <;> fin_cases j <;> simp [Pose.toMatrix34, Pose.one, Quat.one, Quat.toMatrix]
  have hCe : C = ![0, 0, 0, 1] := by
    rw [hone] at hC0
    have c0 := congrFun hC0 0
    have c1 := congrFun hC0 1
    have c2 := congrFun hC0 2
    simp [Matrix.mulVec, dotProduct, Fin.sum_univ_four] at c0 c1 c2
    funext i
    fin_cases i
    · simpa using c0
    · simpa using c1
    · simpa using c2
    · simp [hC]
  have hpC : p.toMatrix34.mulVec C = p.translation := by
    rw [hCe]
    funext i
    fin_cases i <;> simp [Pose.toMatrix34, Matrix.mulVec, dotProduct, Fin.sum_univ_four]
  have hFK : fundamentalMatrixFromPoses getrf4 getri4 gesvd34 Pose.one p K1 K2 * K1 =
      crossMatrix (K2.mulVec p.translation) * (K2 * p.rotation.toMatrix) := by
    apply Matrix.ext_of_mulVec_single
    intro i
    obtain ⟨y, hy⟩ : ∃ y : Vec ℝ 3, y = Pi.single i 1 := ⟨_, rfl⟩
    rw [← hy]
    have k := key ![y 0, y 1, y 2, 0]
    have e1 : (Pose.one : Pose ℝ).toMatrix34.mulVec ![y 0, y 1, y 2, 0] = y := by
      rw [hone]
      funext j
      fin_cases j <;> simp [Matrix.mulVec, dotProduct, Fin.sum_univ_four]
    have e2 : p.toMatrix34.mulVec ![y 0, y 1, y 2, 0] = p.rotation.toMatrix.mulVec y := by
      funext j
      fin_cases j <;> simp [Pose.toMatrix34, Matrix.mulVec, dotProduct, Fin.sum_univ_four, Fin.sum_univ_three]
    rw [← Matrix.mulVec_mulVec, e1, ← Matrix.mulVec_mulVec C, hpC, ← Matrix.mulVec_mulVec _ K2, e2] at k
    rw [← Matrix.mulVec_mulVec, ← Matrix.mulVec_mulVec, ← Matrix.mulVec_mulVec]
    exact k
  rw [Matrix.mul_assoc, hFK, ← Matrix.smul_mul, ← cross_conj]
  simp only [Matrix.mul_assoc]

/-- The hypotheses are met: a motion by one along the first axis, a point at depth -1. -/
example : ∃ getrf getrf4 getri4 gesvd34 gesvd3 gesvd4, ∃ r : Pose ℝ, poseFromFundamentalMatrix getrf gesvd3 gesvd4
    (fundamentalMatrixFromPoses getrf4 getri4 gesvd34 Pose.one ⟨Quat.one, ![1, 0, 0]⟩ 1 1) ![0, 0] ![-1, 0] 1 1 = some r ∧
    UnitQ r.rotation ∧ r.rotation.toMatrix = (Quat.one : Quat ℝ).toMatrix ∧
    r.translation = (1 / Real.sqrt (![1, 0, 0] ⬝ᵥ ![1, 0, 0])) • ![1, 0, 0] := by
  obtain ⟨getrf, h1⟩ := exists_luFactorisation 3
  obtain ⟨getrf4, h2⟩ := exists_luFactorisation 4
  obtain ⟨getri4, h3⟩ := exists_luInverse 4
  obtain ⟨gesvd34, h4⟩ := exists_thinSVD (n := 3) (m := 4) (by norm_num)
  obtain ⟨gesvd3, h5⟩ := exists_thinSVD (n := 3) (m := 3) (by norm_num)
  obtain ⟨gesvd4, h6, h7⟩ := exists_singularValueSolver 4
  have hrot : (Quat.one : Quat ℝ).rotate ![0, 0, -1] = ![0, 0, -1] := by
    funext i; fin_cases i <;> simp [Quat.rotate, Quat.one] <;> norm_num
  refine ⟨getrf, getrf4, getri4, gesvd34, gesvd3, gesvd4, C62_round_trip getrf h1 getrf4 h2 getri4 h3 gesvd34 h4 gesvd3 h5
    gesvd4 h6 h7 1 1 (by simp) (by simp) ⟨Quat.one, ![1, 0, 0]⟩ isUnit_one ![0, 0, -1] ![0, 0] ![-1, 0] ⟨-1, ?_⟩ ⟨-1, ?_⟩
    (by simp) ?_ ?_ ?_⟩
  · rw [Matrix.one_mulVec, homogeneous2]
    funext i; fin_cases i <;> simp
  · rw [Matrix.one_mulVec, homogeneous2]
    simp only [Pose.apply, hrot]
    funext i; fin_cases i <;> simp
  · simp only [Pose.apply, hrot]; simp
  · simp only [hrot]
    rw [LinearIndependent.pair_iff]
    intro a b h
    have e0 := congrFun h 0
    have e2 := congrFun h 2
    simp at e0 e2
    exact ⟨e2, e0⟩
  · simp only [Pose.apply, hrot]
    simp [dotProduct, Fin.sum_univ_three]

end Ubitrack.Epipolar
