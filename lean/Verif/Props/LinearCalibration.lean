import Verif.Model.LinearCalibration
import Verif.Spec.LinearCalibration
import Verif.Spec.Solver
import Verif.Proofs.SVD
import Verif.Props.Geometry

/-!
# C41: linear estimation of homographies, projections and 3D points
-/

namespace Ubitrack.Linear
open Geometry Spec
open scoped Matrix

/-! ## Homogeneous points and the normalisation -/

lemma homogeneous_eq {n : ℕ} (p : Vec ℝ n) : homogeneous p = hom p := rfl

lemma homogeneous2 (p : Vec ℝ 2) : homogeneous p = ![p 0, p 1, 1] := by
  funext i; fin_cases i <;> rfl

lemma homogeneous3 (p : Vec ℝ 3) : homogeneous p = ![p 0, p 1, p 2, 1] := by
  funext i; fin_cases i <;> rfl

lemma mulVec_homogeneous2 (H : Mat ℝ 3 3) (p : Vec ℝ 2) : H.mulVec (homogeneous p) =
    ![H 0 0 * p 0 + H 0 1 * p 1 + H 0 2, H 1 0 * p 0 + H 1 1 * p 1 + H 1 2, H 2 0 * p 0 + H 2 1 * p 1 + H 2 2] := by
  rw [homogeneous2]
  funext i
  fin_cases i <;> simp [Matrix.mulVec, dotProduct, Fin.sum_univ_three]

/-- The scale estimated for a coordinate is not zero exactly if the coordinate differs between two points. -/
theorem scale_ne_zero_iff {n : ℕ} (pts : List (Vec ℝ n)) (hp : pts ≠ []) (i : Fin n) :
    (estimateNormalizationParameters pts).2 i ≠ 0 ↔ ∃ p ∈ pts, ∃ q ∈ pts, p i ≠ q i := by
  obtain ⟨_, _, h3⟩ := C36_estimate pts hp i
  have hl : (0 : ℝ) < pts.length := by
    have := List.length_pos_iff.mpr hp
    exact_mod_cast this
  constructor
  · intro h
    by_contra hc
    push Not at hc
    apply h
    have hm : ∀ p ∈ pts, p i = Geometry.mean pts (fun p => p i) := by
      intro p hp'
      unfold Geometry.mean
      rw [List.map_congr_left (g := fun _ => p i) (fun q hq => hc q hq p hp'), List.map_const', List.sum_replicate]
      field_simp
      simp [mul_comm]
    have : Geometry.mean pts (fun p => (p i - Geometry.mean pts (fun p => p i)) ^ 2) = 0 := by
      unfold Geometry.mean
      rw [List.map_congr_left (g := fun _ => (0 : ℝ)) (fun q hq => by
        have := hm q hq
        unfold Geometry.mean at this
        rw [← this]; simp), List.map_const', List.sum_replicate]
      simp
    rw [this] at h3
    exact pow_eq_zero_iff (two_ne_zero) |>.mp h3
  · rintro ⟨p, hp', q, hq, hne⟩ h0
    rw [h0] at h3
    set m := Geometry.mean pts (fun p => p i) with hm
    have hz : ((pts.map fun p => (p i - m) ^ 2)).sum = 0 := by
      unfold Geometry.mean at h3
      have := h3.symm
      rcases div_eq_zero_iff.mp (this.trans (by norm_num)) with h | h
      · exact h
      · exact absurd h hl.ne'
    have hall : ∀ r ∈ pts, r i = m := by
      intro r hr
      have : (r i - m) ^ 2 = 0 := by
        have := List.all_zero_of_le_zero_le_of_sum_eq_zero (l := pts.map fun p => (p i - m) ^ 2)
          (by intro x hx; obtain ⟨y, _, rfl⟩ := List.mem_map.mp hx; exact sq_nonneg _) hz
          (List.mem_map.mpr ⟨r, hr, rfl⟩)
        exact this
      have := pow_eq_zero_iff (two_ne_zero) |>.mp this
      linarith
    exact hne ((hall p hp').trans (hall q hq).symm)

/-- The normalisation matrix and its inverse act on homogeneous points. -/
lemma normalise_apply {n : ℕ} (f : Vec ℝ n × Vec ℝ n) (p : Vec ℝ n) :
    (generateNormalizationMatrix f.1 f.2 false).mulVec (homogeneous p) = homogeneous (normalise f p) := C36_apply _ _ _

lemma denormalise_apply {n : ℕ} (f : Vec ℝ n × Vec ℝ n) (hf : ∀ i, f.2 i ≠ 0) (p : Vec ℝ n) :
    (generateNormalizationMatrix f.1 f.2 true).mulVec (homogeneous (normalise f p)) = homogeneous p := by
  rw [← normalise_apply, Matrix.mulVec_mulVec, (C36_mutually_inverse _ _ hf).2, Matrix.one_mulVec]

/-- If the rows have a common zero other than the zero vector, the last right singular vector is one. -/
lemma svd_null {k : ℕ} (gesvd : List (Vec ℝ k) → Option (Vec ℝ k × Mat ℝ k k)) (hg : SingularValueSolver gesvd)
    (rows : List (Vec ℝ k)) (v0 : Vec ℝ k) (hv0ne : v0 ≠ 0) (hv0 : ∀ r ∈ rows, r ⬝ᵥ v0 = 0) (l : Fin k)
    (hl : ∀ j, j ≤ l) (s : Vec ℝ k) (vt : Mat ℝ k k) (hvt : gesvd rows = some (s, vt)) :
    (∀ r ∈ rows, r ⬝ᵥ vt l = 0) ∧ vt l ≠ 0 := by
  have hpos : 0 < v0 ⬝ᵥ v0 := by
    have : 0 ≤ v0 ⬝ᵥ v0 := Finset.sum_nonneg fun i _ => mul_self_nonneg _
    rcases this.lt_or_eq with h | h
    · exact h
    · exact absurd (dotProduct_self_eq_zero.mp h.symm) hv0ne
  set c := (Real.sqrt (v0 ⬝ᵥ v0))⁻¹ with hc
  have hc1 : (c • v0) ⬝ᵥ (c • v0) = 1 := by
    rw [smul_dotProduct, dotProduct_smul, smul_eq_mul, smul_eq_mul, hc]
    have := Real.mul_self_sqrt hpos.le
    have h0 : Real.sqrt (v0 ⬝ᵥ v0) ≠ 0 := (Real.sqrt_pos.mpr hpos).ne'
    field_simp
    nlinarith
  have hmin := hg.minimal hvt l hl (c • v0) hc1
  have hz : rowsError rows (c • v0) = 0 := by
    rw [rowsError_eq_zero]
    intro r hr
    rw [dotProduct_smul, hv0 r hr, smul_zero]
  rw [hz] at hmin
  refine ⟨(rowsError_eq_zero _ _).mp (le_antisymm hmin (rowsError_nonneg _ _)), fun hv => ?_⟩
  have hunit := congrFun (congrFun (hg _ s vt hvt).2.2.1 l) l
  rw [Matrix.mul_apply, Matrix.one_apply_eq] at hunit
  have : ∑ j, vt l j * vtᵀ j l = 0 := Finset.sum_eq_zero fun j _ => by rw [show vt l j = 0 from congrFun hv j]; simp
  linarith

lemma conj_cancel {m n : ℕ} (A B : Mat ℝ m m) (C D : Mat ℝ n n) (M : Mat ℝ m n) (h1 : A * B = 1) (h2 : C * D = 1) :
    A * (B * M * C) * D = M := by
  have : A * (B * M * C) * D = (A * B) * M * (C * D) := by simp only [Matrix.mul_assoc]
  rw [this, h1, h2, Matrix.one_mul, Matrix.mul_one]

/-- The step common to the two DLT estimators: an exact solution of the measured correspondences makes the matrix
obtained from the last right singular vector an exact solution as well, and it is not zero. -/
lemma dlt_exact {m n k : ℕ} (gesvd : List (Vec ℝ k) → Option (Vec ℝ k × Mat ℝ k k)) (hg : SingularValueSolver gesvd)
    (toMat : Vec ℝ k → Mat ℝ (m + 1) (n + 1)) (ofMat : Mat ℝ (m + 1) (n + 1) → Vec ℝ k)
    (h1 : ∀ M, toMat (ofMat M) = M) (h2 : ∀ v, ofMat (toMat v) = v) (h3 : ∀ (c : ℝ) M, ofMat (c • M) = c • ofMat M)
    (rows : Vec ℝ n → Vec ℝ m → List (Vec ℝ k))
    (hrows : ∀ v p q, (∀ r ∈ rows p q, r ⬝ᵥ v = 0) ↔ MapsTo (toMat v) p q)
    (pairs : List (Vec ℝ n × Vec ℝ m)) (f : Vec ℝ n × Vec ℝ n) (t : Vec ℝ m × Vec ℝ m)
    (hf : ∀ i, f.2 i ≠ 0) (ht : ∀ i, t.2 i ≠ 0) (l : Fin k) (hl : ∀ j, j ≤ l) (s : Vec ℝ k) (vt : Mat ℝ k k)
    (hvt : gesvd (pairs.flatMap fun p => rows (normalise f p.1) (normalise t p.2)) = some (s, vt))
    (H0 : Mat ℝ (m + 1) (n + 1)) (hne : H0 ≠ 0) (hmap : ∀ p ∈ pairs, MapsTo H0 p.1 p.2) :
    (∀ p ∈ pairs, MapsTo (generateNormalizationMatrix t.1 t.2 true * toMat (vt l) *
      generateNormalizationMatrix f.1 f.2 false) p.1 p.2) ∧
    generateNormalizationMatrix t.1 t.2 true * toMat (vt l) * generateNormalizationMatrix f.1 f.2 false ≠ 0 := by
  obtain ⟨hNt, hDt⟩ := C36_mutually_inverse t.1 t.2 ht
  obtain ⟨hNf, hDf⟩ := C36_mutually_inverse f.1 f.2 hf
  have of0 : ofMat 0 = 0 := by have := h3 0 0; simpa using this
  have to0 : ∀ v, toMat v = 0 → v = 0 := by
    intro v hv
    rw [← h2 v, hv, of0]
  -- the normalised exact solution
  obtain ⟨G, hG⟩ : ∃ G : Mat ℝ (m + 1) (n + 1), G = generateNormalizationMatrix t.1 t.2 false * H0 *
      generateNormalizationMatrix f.1 f.2 true := ⟨_, rfl⟩
  have hG0 : G ≠ 0 := by
    intro h0
    apply hne
    have : H0 = generateNormalizationMatrix t.1 t.2 true * G * generateNormalizationMatrix f.1 f.2 false := by
      rw [hG, conj_cancel _ _ _ _ H0 hDt hDf]
    rw [this, h0]; simp
  have hGmap : ∀ p ∈ pairs, MapsTo G (normalise f p.1) (normalise t p.2) := by
    intro p hp
    obtain ⟨w, hw⟩ := hmap p hp
    refine ⟨w, ?_⟩
    rw [hG, ← Matrix.mulVec_mulVec, denormalise_apply f hf, ← Matrix.mulVec_mulVec, hw, Matrix.mulVec_smul, normalise_apply]
  set v0 := ofMat G with hv0
  have hv0ne : v0 ≠ 0 := by
    intro h
    apply hG0
    have h' := h1 G
    rw [← h', ← hv0, h]
    have := h1 0
    rw [of0] at this
    exact this
  have hz : ∀ r ∈ (pairs.flatMap fun p => rows (normalise f p.1) (normalise t p.2)), r ⬝ᵥ v0 = 0 := by
    intro r hr
    obtain ⟨p, hp, hr⟩ := List.mem_flatMap.mp hr
    exact ((hrows v0 _ _).mpr (by rw [hv0, h1]; exact hGmap p hp)) r hr
  obtain ⟨hlast, hunit⟩ := svd_null gesvd hg _ v0 hv0ne hz l hl s vt hvt
  have hmapL : ∀ p ∈ pairs, MapsTo (toMat (vt l)) (normalise f p.1) (normalise t p.2) := by
    intro p hp
    apply (hrows _ _ _).mp
    intro r hr
    exact hlast r (List.mem_flatMap.mpr ⟨p, hp, hr⟩)
  constructor
  · intro p hp
    obtain ⟨w, hw⟩ := hmapL p hp
    refine ⟨w, ?_⟩
    rw [← Matrix.mulVec_mulVec, normalise_apply, ← Matrix.mulVec_mulVec, hw, Matrix.mulVec_smul, denormalise_apply t ht]
  · intro h0
    have hz : toMat (vt l) = 0 := by
      rw [← conj_cancel _ _ _ _ (toMat (vt l)) hNt hNf, h0]; simp
    exact hunit (to0 _ hz)

/-! ## Homographies -/

def ofMatrix33 (M : Mat ℝ 3 3) : Vec ℝ 9 := ![M 0 0, M 0 1, M 0 2, M 1 0, M 1 1, M 1 2, M 2 0, M 2 1, M 2 2]

/-- **C41** The two rows written for a pair of points vanish on a matrix, read row by row, exactly if the matrix maps the
first point to the second. -/
theorem C41_homography_rows (v : Vec ℝ 9) (p q : Vec ℝ 2) :
    (∀ r ∈ homographyRows p q, r ⬝ᵥ v = 0) ↔ MapsTo (toMatrix33 v) p q := by
  have e : (toMatrix33 v).mulVec (homogeneous p) = ![v 0 * p 0 + v 1 * p 1 + v 2, v 3 * p 0 + v 4 * p 1 + v 5,
      v 6 * p 0 + v 7 * p 1 + v 8] := by
    rw [homogeneous2]
    funext i
    fin_cases i <;> simp [toMatrix33, Matrix.mulVec, dotProduct, Fin.sum_univ_three]
  unfold MapsTo
  rw [e, homogeneous2]
  simp only [homographyRows, List.mem_cons, List.not_mem_nil, or_false, forall_eq_or_imp, forall_eq, dotProduct,
    Fin.sum_univ_succ, Matrix.cons_val_zero, Matrix.cons_val_succ, Fin.sum_univ_zero, Fin.reduceSucc, Fin.succ_zero_eq_one,
    Matrix.cons_val]
  constructor
  · rintro ⟨ha, hb⟩
    refine ⟨v 6 * p 0 + v 7 * p 1 + v 8, ?_⟩
    funext i
    fin_cases i
    · simp; linarith
    · simp; linarith
    · simp
  · rintro ⟨w, hw⟩
    have h0 := congrFun hw 0
    have h1 := congrFun hw 1
    have h2 := congrFun hw 2
    simp at h0 h1 h2
    subst h2
    constructor
    · linarith
    · linarith

lemma toMatrix33_ofMatrix33 (M : Mat ℝ 3 3) : toMatrix33 (ofMatrix33 M) = M := by
  ext i j
  fin_cases i <;> fin_cases j <;> rfl

lemma ofMatrix33_toMatrix33 (v : Vec ℝ 9) : ofMatrix33 (toMatrix33 v) = v := by
  funext i
  fin_cases i <;> rfl

lemma ofMatrix33_smul (c : ℝ) (M : Mat ℝ 3 3) : ofMatrix33 (c • M) = c • ofMatrix33 M := by
  funext i
  fin_cases i <;> rfl

lemma homographyDLT_eq {gesvd : List (Vec ℝ 9) → Option (Vec ℝ 9 × Mat ℝ 9 9)} {fromPoints toPoints : List (Vec ℝ 2)}
    {H : Mat ℝ 3 3} (h : homographyDLT gesvd fromPoints toPoints = some H) :
    fromPoints.length = toPoints.length ∧ 4 ≤ fromPoints.length ∧ scalesNonzero fromPoints ∧ scalesNonzero toPoints ∧
    ∃ s vt, gesvd (homographySystem fromPoints toPoints) = some (s, vt) ∧
      H = generateNormalizationMatrix (estimateNormalizationParameters toPoints).1
          (estimateNormalizationParameters toPoints).2 true * toMatrix33 (vt 8) *
        generateNormalizationMatrix (estimateNormalizationParameters fromPoints).1
          (estimateNormalizationParameters fromPoints).2 false := by
  unfold homographyDLT at h
  split at h
  · rename_i h1
    split at h
    · rename_i h2
      simp only [Option.bind_eq_bind, Option.bind_eq_some_iff] at h
      obtain ⟨⟨s, vt⟩, h3, h4⟩ := h
      exact ⟨h1.1, h1.2, h2.1, h2.2, s, vt, h3, (Option.some.inj h4).symm⟩
    · cases h
  · cases h

/-- **C41** If some non-zero homography explains all correspondences exactly, the returned matrix is not zero and explains
all of them exactly. -/
theorem C41_homography (gesvd : List (Vec ℝ 9) → Option (Vec ℝ 9 × Mat ℝ 9 9)) (hg : SingularValueSolver gesvd)
    (fromPoints toPoints : List (Vec ℝ 2)) (H H0 : Mat ℝ 3 3) (hne : H0 ≠ 0)
    (hmap : ∀ p ∈ fromPoints.zip toPoints, MapsTo H0 p.1 p.2) (h : homographyDLT gesvd fromPoints toPoints = some H) :
    H ≠ 0 ∧ ∀ p ∈ fromPoints.zip toPoints, MapsTo H p.1 p.2 := by
  obtain ⟨_, _, hf, ht, s, vt, hvt, rfl⟩ := homographyDLT_eq h
  have := dlt_exact (m := 2) (n := 2) gesvd hg toMatrix33 ofMatrix33 toMatrix33_ofMatrix33 ofMatrix33_toMatrix33 ofMatrix33_smul
    homographyRows C41_homography_rows (fromPoints.zip toPoints) (estimateNormalizationParameters fromPoints)
    (estimateNormalizationParameters toPoints) hf ht 8 (fun j => Fin.le_last j) s vt hvt H0 hne hmap
  exact ⟨this.2, this.1⟩

/-- A linear function that vanishes on three points that do not lie on a line is zero. -/
lemma functional_zero (u : Vec ℝ 3) (a b c : Vec ℝ 2) (hn : ¬ Collinear2 a b c) (ha : u ⬝ᵥ homogeneous a = 0)
    (hb : u ⬝ᵥ homogeneous b = 0) (hc : u ⬝ᵥ homogeneous c = 0) : u = 0 := by
  rw [homogeneous2] at ha hb hc
  simp only [dotProduct, Fin.sum_univ_three, Matrix.cons_val] at ha hb hc
  unfold Collinear2 at hn
  have h0 : u 0 = 0 := (mul_eq_zero.mp (show ((b 0 - a 0) * (c 1 - a 1) - (b 1 - a 1) * (c 0 - a 0)) * u 0 = 0 by
    linear_combination (c 1 - a 1) * (hb - ha) - (b 1 - a 1) * (hc - ha))).resolve_left hn
  have h1 : u 1 = 0 := (mul_eq_zero.mp (show ((b 0 - a 0) * (c 1 - a 1) - (b 1 - a 1) * (c 0 - a 0)) * u 1 = 0 by
    linear_combination -(c 0 - a 0) * (hb - ha) + (b 0 - a 0) * (hc - ha))).resolve_left hn
  have h2 : u 2 = 0 := by rw [h0, h1] at ha; linarith
  funext i
  fin_cases i
  · exact h0
  · exact h1
  · exact h2

lemma matrix_zero (M : Mat ℝ 3 3) (a b c : Vec ℝ 2) (hn : ¬ Collinear2 a b c) (ha : M.mulVec (homogeneous a) = 0)
    (hb : M.mulVec (homogeneous b) = 0) (hc : M.mulVec (homogeneous c) = 0) : M = 0 := by
  funext i
  exact functional_zero (M i) a b c hn (congrFun ha i) (congrFun hb i) (congrFun hc i)

lemma homogeneous_ne_zero {n : ℕ} (p : Vec ℝ n) : homogeneous p ≠ 0 := by
  intro h
  have := congrFun h (Fin.last n)
  simp [homogeneous] at this

/-- Three points that do not lie on a line are linearly independent in homogeneous coordinates. -/
lemma combination_zero (a b c : Vec ℝ 2) (hn : ¬ Collinear2 a b c) (x y z : ℝ)
    (h : x • homogeneous a + y • homogeneous b + z • homogeneous c = 0) : x = 0 ∧ y = 0 ∧ z = 0 := by
  simp only [homogeneous2] at h
  have z0 := congrFun h 0
  have z1 := congrFun h 1
  have z2 := congrFun h 2
  simp at z0 z1 z2
  unfold Collinear2 at hn
  have hy := (mul_eq_zero.mp (show ((b 0 - a 0) * (c 1 - a 1) - (b 1 - a 1) * (c 0 - a 0)) * y = 0 by
    linear_combination (c 1 - a 1) * (z0 - a 0 * z2) - (c 0 - a 0) * (z1 - a 1 * z2))).resolve_left hn
  have hz := (mul_eq_zero.mp (show ((b 0 - a 0) * (c 1 - a 1) - (b 1 - a 1) * (c 0 - a 0)) * z = 0 by
    linear_combination -(b 1 - a 1) * (z0 - a 0 * z2) + (b 0 - a 0) * (z1 - a 1 * z2))).resolve_left hn
  exact ⟨by rw [hy, hz] at z2; linarith, hy, hz⟩

/-- Two homographies that agree on four points, no three of them on a line, agree up to a factor. -/
theorem homography_unique (G H : Mat ℝ 3 3) (hH : H.det ≠ 0) (p q : Fin 4 → Vec ℝ 2)
    (hp : ∀ i j k : Fin 4, i ≠ j → i ≠ k → j ≠ k → ¬ Collinear2 (p i) (p j) (p k))
    (hGm : ∀ i, MapsTo G (p i) (q i)) (hHm : ∀ i, MapsTo H (p i) (q i)) : ∃ w : ℝ, G = w • H := by
  have hinj : ∀ v, H.mulVec v = 0 → v = 0 := by
    intro v hv
    have := congrArg (fun x => H⁻¹.mulVec x) hv
    simpa [Matrix.mulVec_mulVec, Matrix.nonsing_inv_mul H (isUnit_iff_ne_zero.mpr hH)] using this
  have hl : ∀ i, ∃ l : ℝ, G.mulVec (homogeneous (p i)) = l • H.mulVec (homogeneous (p i)) := by
    intro i
    obtain ⟨g, hg⟩ := hGm i
    obtain ⟨h, hh⟩ := hHm i
    have hne : h ≠ 0 := by
      rintro rfl
      rw [zero_smul] at hh
      exact homogeneous_ne_zero _ (hinj _ hh)
    refine ⟨g / h, ?_⟩
    rw [hg, hh, smul_smul, div_mul_cancel₀ _ hne]
  choose l hl using hl
  have bary : ((p 1 0 - p 0 0) * (p 2 1 - p 0 1) - (p 1 1 - p 0 1) * (p 2 0 - p 0 0)) • homogeneous (p 3)
      = ((p 1 0 - p 3 0) * (p 2 1 - p 3 1) - (p 1 1 - p 3 1) * (p 2 0 - p 3 0)) • homogeneous (p 0)
      + ((p 3 0 - p 0 0) * (p 2 1 - p 0 1) - (p 3 1 - p 0 1) * (p 2 0 - p 0 0)) • homogeneous (p 1)
      + ((p 1 0 - p 0 0) * (p 3 1 - p 0 1) - (p 1 1 - p 0 1) * (p 3 0 - p 0 0)) • homogeneous (p 2) := by
    simp only [homogeneous2]
    funext i
    fin_cases i
    · simp; ring
    · simp; ring
    · simp; ring
  set D := (p 1 0 - p 0 0) * (p 2 1 - p 0 1) - (p 1 1 - p 0 1) * (p 2 0 - p 0 0) with hD
  set A := (p 1 0 - p 3 0) * (p 2 1 - p 3 1) - (p 1 1 - p 3 1) * (p 2 0 - p 3 0) with hA
  set B := (p 3 0 - p 0 0) * (p 2 1 - p 0 1) - (p 3 1 - p 0 1) * (p 2 0 - p 0 0) with hB
  set C := (p 1 0 - p 0 0) * (p 3 1 - p 0 1) - (p 1 1 - p 0 1) * (p 3 0 - p 0 0) with hC
  have hA0 : A ≠ 0 := hp 3 1 2 (by decide) (by decide) (by decide)
  have hB0 : B ≠ 0 := hp 0 3 2 (by decide) (by decide) (by decide)
  have hC0 : C ≠ 0 := hp 0 1 3 (by decide) (by decide) (by decide)
  have hz : (A * (l 0 - l 3)) • homogeneous (p 0) + (B * (l 1 - l 3)) • homogeneous (p 1)
      + (C * (l 2 - l 3)) • homogeneous (p 2) = 0 := by
    apply hinj
    have e := congrArg (fun x => G.mulVec x) bary
    have e' := congrArg (fun x => l 3 • H.mulVec x) bary
    simp only [Matrix.mulVec_add, Matrix.mulVec_smul, hl, smul_add] at e e' ⊢
    have e3 := e.symm.trans ((smul_comm D (l 3) (H.mulVec (homogeneous (p 3)))).trans e')
    simp only [smul_smul, mul_sub, sub_smul] at e3 ⊢
    rw [← sub_eq_zero] at e3
    rw [← e3]
    simp only [mul_comm (l 3)]
    abel
  have hcoef := combination_zero (p 0) (p 1) (p 2) (hp 0 1 2 (by decide) (by decide) (by decide)) _ _ _ hz
  have e0 : l 0 = l 3 := by linarith [(mul_eq_zero.mp hcoef.1).resolve_left hA0]
  have e1 : l 1 = l 3 := by linarith [(mul_eq_zero.mp hcoef.2.1).resolve_left hB0]
  have e2 : l 2 = l 3 := by linarith [(mul_eq_zero.mp hcoef.2.2).resolve_left hC0]
  refine ⟨l 3, sub_eq_zero.mp (matrix_zero _ (p 0) (p 1) (p 2) (hp 0 1 2 (by decide) (by decide) (by decide)) ?_ ?_ ?_)⟩
  · rw [Matrix.sub_mulVec, hl, e0, Matrix.smul_mulVec, sub_self]
  · rw [Matrix.sub_mulVec, hl, e1, Matrix.smul_mulVec, sub_self]
  · rw [Matrix.sub_mulVec, hl, e2, Matrix.smul_mulVec, sub_self]

/-- **C41** The homography is recovered: if an invertible homography explains all correspondences and four of the points,
no three on a line, are among them, the function returns this homography up to a factor different from zero. -/
theorem C41_homography_recovered (gesvd : List (Vec ℝ 9) → Option (Vec ℝ 9 × Mat ℝ 9 9)) (hg : SingularValueSolver gesvd)
    (hc : ∀ rows, ∃ r, gesvd rows = some r) (fromPoints toPoints : List (Vec ℝ 2))
    (hlen : fromPoints.length = toPoints.length) (H0 : Mat ℝ 3 3) (hdet : H0.det ≠ 0)
    (hmap : ∀ p ∈ fromPoints.zip toPoints, MapsTo H0 p.1 p.2) (p : Fin 4 → Vec ℝ 2) (hmem : ∀ i, p i ∈ fromPoints)
    (hp : ∀ i j k : Fin 4, i ≠ j → i ≠ k → j ≠ k → ¬ Collinear2 (p i) (p j) (p k)) :
    ∃ (H : Mat ℝ 3 3) (w : ℝ), homographyDLT gesvd fromPoints toPoints = some H ∧ w ≠ 0 ∧ H = w • H0 := by
  have hq : ∀ i, ∃ q, (p i, q) ∈ fromPoints.zip toPoints := by
    intro i
    obtain ⟨k, hk, hki⟩ := List.mem_iff_getElem.mp (hmem i)
    refine ⟨toPoints[k]'(hlen ▸ hk), ?_⟩
    rw [← hki]
    have hk' : k < (fromPoints.zip toPoints).length := by rw [List.length_zip, ← hlen, min_self]; exact hk
    have := List.getElem_mem (l := fromPoints.zip toPoints) hk'
    rwa [List.getElem_zip] at this
  choose q hq using hq
  have hinjp : Function.Injective p := by
    intro i j hij
    by_contra hne
    obtain ⟨k, hk1, hk2⟩ : ∃ k : Fin 4, i ≠ k ∧ j ≠ k := by
      have : ∀ i j : Fin 4, ∃ k : Fin 4, i ≠ k ∧ j ≠ k := by decide
      exact this i j
    exact hp i j k hne hk1 hk2 (by unfold Collinear2; rw [hij]; ring)
  have h4 : 4 ≤ fromPoints.length := by
    have : (List.ofFn p).Nodup := List.nodup_ofFn.mpr hinjp
    have hsub : List.ofFn p ⊆ fromPoints := by
      intro x hx
      obtain ⟨i, rfl⟩ := (List.mem_ofFn).mp hx
      exact hmem i
    have := (this.subperm hsub).length_le
    simpa using this
  have hfne : fromPoints ≠ [] := by rintro h; rw [h] at h4; simp at h4
  have htne : toPoints ≠ [] := by rintro h; rw [hlen, h] at h4; simp at h4
  have hsf : scalesNonzero fromPoints := by
    intro i
    rw [scale_ne_zero_iff _ hfne]
    by_contra hcon
    push Not at hcon
    apply hp 0 1 2 (by decide) (by decide) (by decide)
    have e1 := hcon _ (hmem 0) _ (hmem 1)
    have e2 := hcon _ (hmem 0) _ (hmem 2)
    unfold Collinear2
    fin_cases i
    · simp only [Fin.zero_eta] at e1 e2; rw [← e1, ← e2]; ring
    · simp only [Fin.mk_one] at e1 e2; rw [← e1, ← e2]; ring
  have hst : scalesNonzero toPoints := by
    intro i
    rw [scale_ne_zero_iff _ htne]
    by_contra hcon
    push Not at hcon
    have hqm : ∀ j, q j ∈ toPoints := fun j => (List.of_mem_zip (hq j)).2
    -- row i minus a multiple of row 2 vanishes on three points
    have hrow : H0 i.castSucc - (q 0 i) • H0 2 = 0 := by
      have hv : ∀ j, (H0 i.castSucc - (q 0 i) • H0 2) ⬝ᵥ homogeneous (p j) = 0 := by
        intro j
        obtain ⟨w, hw⟩ := hmap _ (hq j)
        have w0 := congrFun hw i.castSucc
        have w2 := congrFun hw 2
        have e := hcon _ (hqm j) _ (hqm 0)
        rw [sub_dotProduct, smul_dotProduct]
        change H0 i.castSucc ⬝ᵥ homogeneous (p j) = _ at w0
        change H0 2 ⬝ᵥ homogeneous (p j) = _ at w2
        rw [w0, w2, homogeneous2, ← e]
        fin_cases i <;> simp <;> ring
      exact functional_zero _ (p 0) (p 1) (p 2) (hp 0 1 2 (by decide) (by decide) (by decide)) (hv 0) (hv 1) (hv 2)
    apply hdet
    have hr : ∀ k, H0 i.castSucc k = q 0 i * H0 2 k := by
      intro k
      have := congrFun hrow k
      simp at this
      linarith
    rw [Matrix.det_fin_three]
    fin_cases i
    · have r0 := hr 0; have r1 := hr 1; have r2 := hr 2
      simp at r0 r1 r2
      rw [r0, r1, r2]; ring
    · have r0 := hr 0; have r1 := hr 1; have r2 := hr 2
      simp at r0 r1 r2
      rw [r0, r1, r2]; ring
  obtain ⟨⟨s, vt⟩, hvt⟩ := hc (homographySystem fromPoints toPoints)
  obtain ⟨H, hH⟩ : ∃ H, homographyDLT gesvd fromPoints toPoints = some H := by
    unfold homographyDLT
    rw [if_pos ⟨hlen, h4⟩, if_pos ⟨hsf, hst⟩, hvt]
    exact ⟨_, rfl⟩
  have hne : H0 ≠ 0 := by rintro rfl; simp at hdet
  obtain ⟨hH0, hHm⟩ := C41_homography gesvd hg fromPoints toPoints H H0 hne hmap hH
  obtain ⟨w, hw⟩ := homography_unique H H0 hdet p q hp (fun i => hHm _ (hq i)) (fun i => hmap _ (hq i))
  refine ⟨H, w, hH, ?_, hw⟩
  rintro rfl
  rw [zero_smul] at hw
  exact hH0 hw

/-! ## Homographies of a square -/

/-- Specification: the corners of the unit square centred at the origin, in the order of the documentation
(Homography.h l.71). -/
noncomputable def squareCorner : Fin 4 → Vec ℝ 2 := ![![-1/2, 1/2], ![-1/2, -1/2], ![1/2, -1/2], ![1/2, 1/2]]

lemma centredCorners_eq (corners : Fin 4 → Vec ℝ 2) : centredCorners corners =
    (fun i k => corners i k - (corners 0 k + corners 1 k + corners 2 k + corners 3 k) / 4,
      fun k => (corners 0 k + corners 1 k + corners 2 k + corners 3 k) / 4) := by
  have e : (List.finRange 4).foldl (fun m i => m + corners i) (0 : Vec ℝ 2)
      = fun k => corners 0 k + corners 1 k + corners 2 k + corners 3 k := by
    funext k
    simp [List.finRange_succ]
  simp only [centredCorners, e]
  refine Prod.ext ?_ rfl
  funext i k
  rfl

lemma squareSystem_null (c : Fin 4 → Vec ℝ 2) (hc : ∀ k, c 0 k + c 1 k + c 2 k + c 3 k = 0) :
    ∃ v : Vec ℝ 3, v ≠ 0 ∧ ∀ r ∈ squareSystem c, r ⬝ᵥ v = 0 := by
  obtain ⟨M, hM⟩ : ∃ M : Mat ℝ 3 3, M = ![![c 0 0 - c 1 0 - c 2 0 + c 3 0, -c 0 0 - c 1 0 + c 2 0 + c 3 0, -2 * (c 0 0 + c 2 0)],
    ![c 0 1 - c 1 1 - c 2 1 + c 3 1, -c 0 1 - c 1 1 + c 2 1 + c 3 1, -2 * (c 0 1 + c 2 1)], 0] := ⟨_, rfl⟩
  have hdet : M.det = 0 := Matrix.det_eq_zero_of_row_eq_zero 2 (by intro j; rw [hM]; rfl)
  obtain ⟨v, hv, hMv⟩ := Matrix.exists_mulVec_eq_zero_iff.mpr hdet
  refine ⟨v, hv, ?_⟩
  have m0 := congrFun hMv 0
  have m1 := congrFun hMv 1
  rw [hM] at m0 m1
  simp [Matrix.mulVec, dotProduct, Fin.sum_univ_three] at m0 m1
  have c0 := hc 0
  have c1 := hc 1
  simp only [squareSystem, List.mem_cons, List.not_mem_nil, or_false, forall_eq_or_imp, forall_eq, dotProduct,
    Fin.sum_univ_three, Matrix.cons_val]
  refine ⟨by linarith, by linear_combination -m0 - 2 * v 2 * c0, by linarith, by linear_combination -m1 - 2 * v 2 * c1⟩

lemma squareHomography_eq {gesvd : List (Vec ℝ 3) → Option (Vec ℝ 3 × Mat ℝ 3 3)} (hg : SingularValueSolver gesvd)
    {corners : Fin 4 → Vec ℝ 2} {H : Mat ℝ 3 3} (h : squareHomography gesvd corners = some H) :
    H ≠ 0 ∧ ∀ i, MapsTo H (squareCorner i) (corners i) := by
  unfold squareHomography at h
  rw [centredCorners_eq] at h
  simp only [Option.bind_eq_bind, Option.bind_eq_some_iff] at h
  obtain ⟨⟨s, vt⟩, h1, h2⟩ := h
  obtain ⟨m, hm⟩ : ∃ m : Vec ℝ 2, m = fun k => (corners 0 k + corners 1 k + corners 2 k + corners 3 k) / 4 := ⟨_, rfl⟩
  obtain ⟨c, hc⟩ : ∃ c : Fin 4 → Vec ℝ 2, c = fun i k => corners i k - (corners 0 k + corners 1 k + corners 2 k + corners 3 k) / 4 :=
    ⟨_, rfl⟩
  rw [← hc] at h1
  have h2 := (Option.some.inj h2).symm
  simp only [← hc] at h2
  obtain ⟨v0, hv0, hz⟩ := squareSystem_null c (by intro k; rw [hc]; ring)
  obtain ⟨hnull, hne⟩ := svd_null gesvd hg _ v0 hv0 hz 2 (fun j => Fin.le_last j) s vt h1
  obtain ⟨v, hv⟩ : ∃ v : Vec ℝ 3, v = vt 2 := ⟨_, rfl⟩
  rw [← hv] at hnull hne h2
  have hcor : ∀ i k, corners i k = c i k + m k := by intro i k; rw [hc, hm]; ring
  simp only [squareSystem, List.mem_cons, List.not_mem_nil, or_false, forall_eq_or_imp, forall_eq, dotProduct,
    Fin.sum_univ_three, Matrix.cons_val] at hnull
  obtain ⟨n0, n1, n2, n3⟩ := hnull
  constructor
  · intro h0
    apply hne
    have e := congrFun (h2.symm.trans h0) 2
    have e0 := congrFun e 0
    have e1 := congrFun e 1
    have e2 := congrFun e 2
    simp at e0 e1 e2
    funext i
    fin_cases i
    · exact e0
    · exact e1
    · exact e2
  · intro i
    refine ⟨2 * v 0 * squareCorner i 0 + 2 * v 1 * squareCorner i 1 + v 2, ?_⟩
    rw [mulVec_homogeneous2, homogeneous2, hcor i 0, hcor i 1, h2]
    have hm0 : m 0 = (corners 0 0 + corners 1 0 + corners 2 0 + corners 3 0) / 4 := by rw [hm]
    have hm1 : m 1 = (corners 0 1 + corners 1 1 + corners 2 1 + corners 3 1) / 4 := by rw [hm]
    rw [← hm0, ← hm1]
    funext r
    fin_cases i <;> fin_cases r <;>
      simp only [squareRow, squareCorner, Fin.isValue, Fin.zero_eta,
        Fin.mk_one, Fin.reduceFinMk, Matrix.cons_val, Pi.smul_apply, smul_eq_mul]
    · linear_combination 1 / 4 * n0
    · linear_combination 1 / 4 * n2
    · ring
    · linear_combination 1 / 4 * n1
    · linear_combination 1 / 4 * n3
    · ring
    · linear_combination 1 / 4 * n0
    · linear_combination 1 / 4 * n2
    · ring
    · linear_combination 1 / 4 * n1
    · linear_combination 1 / 4 * n3
    · ring

/-- **C41** The homography of a square maps the corners of the unit square to the given corners, for every four corners
(exactly, whatever they are), and it is not the zero matrix. -/
theorem C41_square (gesvd : List (Vec ℝ 3) → Option (Vec ℝ 3 × Mat ℝ 3 3)) (hg : SingularValueSolver gesvd)
    (corners : Fin 4 → Vec ℝ 2) (H : Mat ℝ 3 3) (h : squareHomography gesvd corners = some H) :
    H ≠ 0 ∧ ∀ i, MapsTo H (squareCorner i) (corners i) := squareHomography_eq hg h

/-- **C41** If no three of the corners lie on a line, the homography of the square is invertible and sends every corner of
the unit square to a finite point, the given corner. -/
theorem C41_square_invertible (gesvd : List (Vec ℝ 3) → Option (Vec ℝ 3 × Mat ℝ 3 3)) (hg : SingularValueSolver gesvd)
    (corners : Fin 4 → Vec ℝ 2) (hq : ∀ i j k : Fin 4, i ≠ j → i ≠ k → j ≠ k → ¬ Collinear2 (corners i) (corners j) (corners k))
    (H : Mat ℝ 3 3) (h : squareHomography gesvd corners = some H) :
    H.det ≠ 0 ∧ ∀ i, ∃ w : ℝ, w ≠ 0 ∧ H.mulVec (homogeneous (squareCorner i)) = w • homogeneous (corners i) := by
  obtain ⟨hne, hmap⟩ := C41_square gesvd hg corners H h
  choose w hw using hmap
  have bary : homogeneous (squareCorner 3) = homogeneous (squareCorner 0) - homogeneous (squareCorner 1) + homogeneous (squareCorner 2) := by
    simp only [homogeneous2, squareCorner]
    funext i
    fin_cases i <;> simp <;> norm_num
  have hrel : w 3 • homogeneous (corners 3) = w 0 • homogeneous (corners 0) - w 1 • homogeneous (corners 1)
      + w 2 • homogeneous (corners 2) := by
    rw [← hw 3, bary, Matrix.mulVec_add, Matrix.mulVec_sub, hw, hw, hw]
  have hzero : ¬ (w 0 = 0 ∧ w 1 = 0 ∧ w 2 = 0) := by
    rintro ⟨h0, h1, h2⟩
    apply hne
    apply matrix_zero H (squareCorner 0) (squareCorner 1) (squareCorner 2)
    · unfold Collinear2 squareCorner; simp; norm_num
    · rw [hw, h0, zero_smul]
    · rw [hw, h1, zero_smul]
    · rw [hw, h2, zero_smul]
  have hw0 : w 0 ≠ 0 := by
    intro h0
    have := combination_zero (corners 1) (corners 2) (corners 3) (hq _ _ _ (by decide) (by decide) (by decide)) (-w 1) (w 2) (-w 3)
      (by rw [neg_smul (w 3), hrel, h0]; simp)
    exact hzero ⟨h0, by linarith [this.1], this.2.1⟩
  have hw1 : w 1 ≠ 0 := by
    intro h0
    have := combination_zero (corners 0) (corners 2) (corners 3) (hq _ _ _ (by decide) (by decide) (by decide)) (w 0) (w 2) (-w 3)
      (by rw [neg_smul (w 3), hrel, h0]; simp)
    exact hzero ⟨this.1, h0, this.2.1⟩
  have hw2 : w 2 ≠ 0 := by
    intro h0
    have := combination_zero (corners 0) (corners 1) (corners 3) (hq _ _ _ (by decide) (by decide) (by decide)) (w 0) (-w 1) (-w 3)
      (by rw [neg_smul (w 3), hrel, h0]; simp; abel)
    exact hzero ⟨this.1, by linarith [this.2.1], h0⟩
  have hw3 : w 3 ≠ 0 := by
    intro h0
    rw [h0, zero_smul] at hrel
    have := combination_zero (corners 0) (corners 1) (corners 2) (hq _ _ _ (by decide) (by decide) (by decide)) (w 0) (-w 1) (w 2)
      (by rw [hrel]; simp; abel)
    exact hzero ⟨this.1, by linarith [this.2.1], this.2.2⟩
  refine ⟨?_, fun i => ⟨w i, ?_, hw i⟩⟩
  · intro hdet
    obtain ⟨v, hv, hHv⟩ := Matrix.exists_mulVec_eq_zero_iff.mpr hdet
    have hdec : v = ((v 2 + 2 * v 1) / 2) • homogeneous (squareCorner 0) + (-v 0 - v 1) • homogeneous (squareCorner 1)
        + ((v 2 + 2 * v 0) / 2) • homogeneous (squareCorner 2) := by
      simp only [homogeneous2, squareCorner]
      funext i
      fin_cases i <;> simp <;> ring
    have hz := hHv
    rw [hdec, Matrix.mulVec_add, Matrix.mulVec_add, Matrix.mulVec_smul, Matrix.mulVec_smul, Matrix.mulVec_smul, hw, hw, hw,
      smul_smul, smul_smul, smul_smul] at hz
    obtain ⟨a, b, c⟩ := combination_zero _ _ _ (hq 0 1 2 (by decide) (by decide) (by decide)) _ _ _ hz
    have a := (mul_eq_zero.mp a).resolve_right hw0
    have b := (mul_eq_zero.mp b).resolve_right hw1
    have c := (mul_eq_zero.mp c).resolve_right hw2
    apply hv
    rw [hdec, a, b, c]
    simp
  · fin_cases i
    · exact hw0
    · exact hw1
    · exact hw2
    · exact hw3

/-! ## Projections -/

def ofMatrix34 (M : Mat ℝ 3 4) : Vec ℝ 12 :=
  ![M 0 0, M 0 1, M 0 2, M 0 3, M 1 0, M 1 1, M 1 2, M 1 3, M 2 0, M 2 1, M 2 2, M 2 3]

lemma mulVec_homogeneous3 (P : Mat ℝ 3 4) (p : Vec ℝ 3) : P.mulVec (homogeneous p) =
    ![P 0 0 * p 0 + P 0 1 * p 1 + P 0 2 * p 2 + P 0 3, P 1 0 * p 0 + P 1 1 * p 1 + P 1 2 * p 2 + P 1 3,
      P 2 0 * p 0 + P 2 1 * p 1 + P 2 2 * p 2 + P 2 3] := by
  rw [homogeneous3]
  funext i
  fin_cases i <;> simp [Matrix.mulVec, dotProduct, Fin.sum_univ_four]

/-- **C41** The two rows written for a pair of points vanish on a matrix, read row by row, exactly if the matrix projects
the first point to the second. -/
theorem C41_projection_rows (v : Vec ℝ 12) (p : Vec ℝ 3) (q : Vec ℝ 2) :
    (∀ r ∈ projectionRows p q, r ⬝ᵥ v = 0) ↔ MapsTo (toMatrix34 v) p q := by
  have e : (toMatrix34 v).mulVec (homogeneous p) = ![v 0 * p 0 + v 1 * p 1 + v 2 * p 2 + v 3,
      v 4 * p 0 + v 5 * p 1 + v 6 * p 2 + v 7, v 8 * p 0 + v 9 * p 1 + v 10 * p 2 + v 11] := mulVec_homogeneous3 _ _
  unfold MapsTo
  rw [e, homogeneous2]
  simp only [projectionRows, List.mem_cons, List.not_mem_nil, or_false, forall_eq_or_imp, forall_eq, dotProduct,
    Fin.sum_univ_succ, Matrix.cons_val_zero, Matrix.cons_val_succ, Fin.sum_univ_zero, Fin.reduceSucc, Fin.succ_zero_eq_one,
    Matrix.cons_val]
  constructor
  · rintro ⟨ha, hb⟩
    refine ⟨v 8 * p 0 + v 9 * p 1 + v 10 * p 2 + v 11, ?_⟩
    funext i
    fin_cases i
    · simp; linarith
    · simp; linarith
    · simp
  · rintro ⟨w, hw⟩
    have h0 := congrFun hw 0
    have h1 := congrFun hw 1
    have h2 := congrFun hw 2
    simp at h0 h1 h2
    subst h2
    constructor
    · linarith
    · linarith

lemma toMatrix34_ofMatrix34 (M : Mat ℝ 3 4) : toMatrix34 (ofMatrix34 M) = M := by
  ext i j
  fin_cases i <;> fin_cases j <;> rfl

lemma ofMatrix34_toMatrix34 (v : Vec ℝ 12) : ofMatrix34 (toMatrix34 v) = v := by
  funext i
  fin_cases i <;> rfl

lemma ofMatrix34_smul (c : ℝ) (M : Mat ℝ 3 4) : ofMatrix34 (c • M) = c • ofMatrix34 M := by
  funext i
  fin_cases i <;> rfl

/-- Specification: the squared length of the viewing direction, the first three elements of the last row. -/
def viewLengthSq (P : Mat ℝ 3 4) : ℝ := P 2 0 ^ 2 + P 2 1 ^ 2 + P 2 2 ^ 2

/-- Specification: the third homogeneous coordinate of a projected point. -/
def depth (P : Mat ℝ 3 4) (p : Vec ℝ 3) : ℝ := P.mulVec (homogeneous p) 2

lemma normaliseProjection_spec (P Q : Mat ℝ 3 4) (p : Vec ℝ 3) (h : normaliseProjection P p = some Q) :
    viewLengthSq Q = 1 ∧ 0 ≤ depth Q p ∧ ∃ c : ℝ, c ≠ 0 ∧ Q = c • P := by
  have hd : ∀ M : Mat ℝ 3 4, depth M p = M 2 0 * p 0 + M 2 1 * p 1 + M 2 2 * p 2 + M 2 3 := by
    intro M; unfold depth; rw [mulVec_homogeneous3]; rfl
  unfold normaliseProjection at h
  simp only at h
  set len := Real.sqrt (P 2 0 * P 2 0 + P 2 1 * P 2 1 + P 2 2 * P 2 2) with hlen
  have hsq : len * len = P 2 0 * P 2 0 + P 2 1 * P 2 1 + P 2 2 * P 2 2 :=
    Real.mul_self_sqrt (by nlinarith [mul_self_nonneg (P 2 0), mul_self_nonneg (P 2 1), mul_self_nonneg (P 2 2)])
  have hnn : 0 ≤ len := Real.sqrt_nonneg _
  have key : ∀ c : ℝ, c ≠ 0 → c * c = len * len → Q = (1 / c) • P → viewLengthSq Q = 1 := by
    intro c hc hcc hQ
    rw [hQ]
    simp only [viewLengthSq, Matrix.smul_apply, smul_eq_mul]
    field_simp
    nlinarith
  obtain ⟨c, hcdef⟩ : ∃ c : ℝ, c = if P 2 0 * p 0 + P 2 1 * p 1 + P 2 2 * p 2 + P 2 3 < 0 then -len else len := ⟨_, rfl⟩
  rw [← hcdef] at h
  by_cases hne : c = 0
  · rw [if_pos hne] at h; cases h
  · rw [if_neg hne] at h
    have hQ := (Option.some.inj h).symm
    rw [hcdef] at hne hQ
    refine ⟨?_, ?_, ?_⟩
    · refine key _ hne ?_ hQ
      split_ifs <;> ring
    · rw [hd, hQ]
      simp only [Matrix.smul_apply, smul_eq_mul]
      split_ifs at hne ⊢ with hneg
      · have : len ≠ 0 := by simpa using hne
        have hp : 0 < len := lt_of_le_of_ne hnn (Ne.symm this)
        have : 1 / -len * P 2 0 * p 0 + 1 / -len * P 2 1 * p 1 + 1 / -len * P 2 2 * p 2 + 1 / -len * P 2 3
          = -(P 2 0 * p 0 + P 2 1 * p 1 + P 2 2 * p 2 + P 2 3) / len := by field_simp; ring
        rw [this]
        exact div_nonneg (by linarith) hnn
      · have hp : 0 < len := lt_of_le_of_ne hnn (Ne.symm hne)
        have : 1 / len * P 2 0 * p 0 + 1 / len * P 2 1 * p 1 + 1 / len * P 2 2 * p 2 + 1 / len * P 2 3
          = (P 2 0 * p 0 + P 2 1 * p 1 + P 2 2 * p 2 + P 2 3) / len := by field_simp
        rw [this]
        exact div_nonneg (by linarith) hnn
    · exact ⟨_, one_div_ne_zero hne, hQ⟩

lemma mapsTo_smul {m n : ℕ} {H : Mat ℝ (m + 1) (n + 1)} {p : Vec ℝ n} {q : Vec ℝ m} (h : MapsTo H p q) (c : ℝ) :
    MapsTo (c • H) p q := by
  obtain ⟨w, hw⟩ := h
  exact ⟨c * w, by rw [Matrix.smul_mulVec, hw, smul_smul]⟩

/-- **C41** If some non-zero projection explains all correspondences exactly, so does the returned one; its viewing
direction has length one and the first point is not projected with a negative third coordinate. -/
theorem C41_projection (gesvd : List (Vec ℝ 12) → Option (Vec ℝ 12 × Mat ℝ 12 12)) (hg : SingularValueSolver gesvd)
    (first : Vec ℝ 3) (rest : List (Vec ℝ 3)) (toPoints : List (Vec ℝ 2)) (P P0 : Mat ℝ 3 4) (hne : P0 ≠ 0)
    (hmap : ∀ p ∈ (first :: rest).zip toPoints, MapsTo P0 p.1 p.2)
    (h : projectionDLT gesvd (first :: rest) toPoints = some P) :
    (∀ p ∈ (first :: rest).zip toPoints, MapsTo P p.1 p.2) ∧ viewLengthSq P = 1 ∧ 0 ≤ depth P first := by
  unfold projectionDLT at h
  split at h
  · split at h
    · rename_i h2
      simp only [Option.bind_eq_bind, Option.bind_eq_some_iff] at h
      obtain ⟨⟨s, vt⟩, h3, p, h4, h5⟩ := h
      simp only [List.head?_cons, Option.some.injEq] at h4
      subst h4
      have := dlt_exact (m := 2) (n := 3) gesvd hg toMatrix34 ofMatrix34 toMatrix34_ofMatrix34 ofMatrix34_toMatrix34
        ofMatrix34_smul projectionRows C41_projection_rows ((first :: rest).zip toPoints)
        (estimateNormalizationParameters (first :: rest)) (estimateNormalizationParameters toPoints) h2.1 h2.2 11
        (fun j => Fin.le_last j) s vt h3 P0 hne hmap
      obtain ⟨q1, q2, c, _, q3⟩ := normaliseProjection_spec _ _ _ h5
      refine ⟨?_, q1, q2⟩
      intro p hp
      rw [q3]
      exact mapsTo_smul (this.1 p hp) c
    · cases h
  · cases h

/-- **C41** The projection is recovered: if the correspondences determine it up to a factor, every coordinate varies among
the points, and it is scaled so that its viewing direction has length one and the first point lies in front of the camera,
then exactly this projection is returned. -/
theorem C41_projection_recovered (gesvd : List (Vec ℝ 12) → Option (Vec ℝ 12 × Mat ℝ 12 12)) (hg : SingularValueSolver gesvd)
    (hc : ∀ rows, ∃ r, gesvd rows = some r) (first : Vec ℝ 3) (rest : List (Vec ℝ 3)) (toPoints : List (Vec ℝ 2))
    (hlen : (first :: rest).length = toPoints.length) (h6 : 6 ≤ (first :: rest).length)
    (hvf : ∀ i, ∃ p ∈ first :: rest, ∃ q ∈ first :: rest, p i ≠ q i) (hvt : ∀ i, ∃ p ∈ toPoints, ∃ q ∈ toPoints, p i ≠ q i)
    (P0 : Mat ℝ 3 4) (hview : viewLengthSq P0 = 1) (hfront : 0 < depth P0 first)
    (hmap : ∀ p ∈ (first :: rest).zip toPoints, MapsTo P0 p.1 p.2)
    (hunique : ∀ Q : Mat ℝ 3 4, (∀ p ∈ (first :: rest).zip toPoints, MapsTo Q p.1 p.2) → ∃ w : ℝ, Q = w • P0) :
    projectionDLT gesvd (first :: rest) toPoints = some P0 := by
  have htne : toPoints ≠ [] := by rintro h; rw [h] at hlen; simp at hlen
  have hsf : scalesNonzero (first :: rest) := fun i => (scale_ne_zero_iff _ (by simp) i).mpr (hvf i)
  have hst : scalesNonzero toPoints := fun i => (scale_ne_zero_iff _ htne i).mpr (hvt i)
  have hne : P0 ≠ 0 := by rintro rfl; simp [viewLengthSq] at hview
  obtain ⟨⟨s, vt⟩, hs⟩ := hc (projectionSystem (first :: rest) toPoints)
  have hex := dlt_exact (m := 2) (n := 3) gesvd hg toMatrix34 ofMatrix34 toMatrix34_ofMatrix34 ofMatrix34_toMatrix34
    ofMatrix34_smul projectionRows C41_projection_rows ((first :: rest).zip toPoints)
    (estimateNormalizationParameters (first :: rest)) (estimateNormalizationParameters toPoints) hsf hst 11
    (fun j => Fin.le_last j) s vt hs P0 hne hmap
  obtain ⟨Q, hQ⟩ : ∃ Q : Mat ℝ 3 4, Q = generateNormalizationMatrix (estimateNormalizationParameters toPoints).1
      (estimateNormalizationParameters toPoints).2 true * toMatrix34 (vt 11) *
      generateNormalizationMatrix (estimateNormalizationParameters (first :: rest)).1
        (estimateNormalizationParameters (first :: rest)).2 false := ⟨_, rfl⟩
  have hQ1 : ∀ p ∈ (first :: rest).zip toPoints, MapsTo Q p.1 p.2 := by rw [hQ]; exact hex.1
  have hQ2 : Q ≠ 0 := by rw [hQ]; exact hex.2
  obtain ⟨w, hw⟩ := hunique Q hQ1
  have hw0 : w ≠ 0 := by rintro rfl; exact hQ2 (by rw [hw, zero_smul])
  have hlenne : Q 2 0 * Q 2 0 + Q 2 1 * Q 2 1 + Q 2 2 * Q 2 2 = w * w := by
    rw [hw]
    simp only [Matrix.smul_apply, smul_eq_mul]
    unfold viewLengthSq at hview
    linear_combination w ^ 2 * hview
  obtain ⟨P, hP⟩ : ∃ P, normaliseProjection Q first = some P := by
    unfold normaliseProjection
    simp only
    rw [hlenne, if_neg]
    · exact ⟨_, rfl⟩
    · have : Real.sqrt (w * w) ≠ 0 := (Real.sqrt_pos.mpr (mul_self_pos.mpr hw0)).ne'
      split_ifs
      · simpa using this
      · exact this
  obtain ⟨q1, q2, c, _, q3⟩ := normaliseProjection_spec _ _ _ hP
  have hPe : P = (c * w) • P0 := by rw [q3, hw, smul_smul]
  have hcw : (c * w) ^ 2 = 1 := by
    rw [hPe] at q1
    simp only [viewLengthSq, Matrix.smul_apply, smul_eq_mul] at q1 hview
    linear_combination q1 - (c * w) ^ 2 * hview
  have hcw1 : c * w = 1 := by
    rcases sq_eq_one_iff.mp hcw with h | h
    · exact h
    · exfalso
      rw [hPe, h] at q2
      unfold depth at q2 hfront
      rw [Matrix.smul_mulVec] at q2
      simp at q2
      linarith
  rw [hcw1, one_smul] at hPe
  unfold projectionDLT
  rw [if_pos ⟨hlen, h6⟩, if_pos ⟨hsf, hst⟩]
  simp only [hs, Option.bind_eq_bind, Option.bind_some, List.head?_cons]
  rw [← hQ, hP, hPe]

/-! ## Distance to the epipolar line -/

/-- **C41** The distance between two image points under a fundamental matrix is the squared distance of the second point to
the epipolar line of the first: no point of the line is closer, and one has exactly this distance. -/
theorem C41_epipolar_distance (p q : Vec ℝ 2) (F : Mat ℝ 3 3) (d : ℝ) (h : pointToPointDist p q F = some d) :
    (∀ x : Vec ℝ 2, homogeneous x ⬝ᵥ F.mulVec (homogeneous p) = 0 → d ≤ (x 0 - q 0) ^ 2 + (x 1 - q 1) ^ 2) ∧
    ∃ x : Vec ℝ 2, homogeneous x ⬝ᵥ F.mulVec (homogeneous p) = 0 ∧ d = (x 0 - q 0) ^ 2 + (x 1 - q 1) ^ 2 := by
  unfold pointToPointDist pointToPointDistImp at h
  rw [← homogeneous2 p] at h
  obtain ⟨l, hl⟩ : ∃ l : Vec ℝ 3, l = F.mulVec (homogeneous p) := ⟨_, rfl⟩
  rw [← hl] at h ⊢
  simp only [Matrix.cons_val] at h
  split at h
  · cases h
  · rename_i hne
    have hd := (Option.some.inj h).symm
    have hdot : ∀ x : Vec ℝ 2, homogeneous x ⬝ᵥ l = x 0 * l 0 + x 1 * l 1 + l 2 := by
      intro x
      rw [homogeneous2]
      simp [dotProduct, Fin.sum_univ_three]
    have hpos : 0 < l 0 * l 0 + l 1 * l 1 :=
      lt_of_le_of_ne (by nlinarith [mul_self_nonneg (l 0), mul_self_nonneg (l 1)]) (Ne.symm hne)
    constructor
    · intro x hx
      rw [hdot] at hx
      rw [hd, div_le_iff₀ hpos]
      have e : l 0 * q 0 + l 1 * q 1 + l 2 = -(l 0 * (x 0 - q 0) + l 1 * (x 1 - q 1)) := by linarith
      rw [e]
      nlinarith [sq_nonneg (l 0 * (x 1 - q 1) - l 1 * (x 0 - q 0))]
    · set e := (l 0 * q 0 + l 1 * q 1 + l 2) / (l 0 * l 0 + l 1 * l 1) with he
      have he' : e * (l 0 * l 0 + l 1 * l 1) = l 0 * q 0 + l 1 * q 1 + l 2 := by rw [he]; exact div_mul_cancel₀ _ hne
      refine ⟨![q 0 - e * l 0, q 1 - e * l 1], ?_, ?_⟩
      · rw [hdot]
        simp
        linarith
      · rw [hd, ← he']
        simp
        field_simp

/-- **C41** The distance is zero exactly if the two image points satisfy the epipolar constraint. -/
theorem C41_epipolar_distance_zero (p q : Vec ℝ 2) (F : Mat ℝ 3 3) (d : ℝ) (h : pointToPointDist p q F = some d) :
    0 ≤ d ∧ (d = 0 ↔ homogeneous q ⬝ᵥ F.mulVec (homogeneous p) = 0) := by
  obtain ⟨h1, x, hx, hd⟩ := C41_epipolar_distance p q F d h
  refine ⟨by rw [hd]; positivity, ?_, ?_⟩
  · intro h0
    have e0 : x 0 = q 0 := by nlinarith [sq_nonneg (x 0 - q 0), sq_nonneg (x 1 - q 1)]
    have e1 : x 1 = q 1 := by nlinarith [sq_nonneg (x 0 - q 0), sq_nonneg (x 1 - q 1)]
    have : x = q := by funext i; fin_cases i; exacts [e0, e1]
    rw [← this]; exact hx
  · intro h0
    have := h1 q h0
    have h2 : 0 ≤ d := by rw [hd]; positivity
    simp at this
    linarith

/-! ## Triangulation -/

/-- The two rows for one view vanish exactly on the homogeneous points projected to a multiple of the image point. -/
lemma rows2_iff (P : Mat ℝ 3 4) (x : Vec ℝ 2) (v : Vec ℝ 4) :
    ((x 0 • P 2 - P 0) ⬝ᵥ v = 0 ∧ (x 1 • P 2 - P 1) ⬝ᵥ v = 0) ↔ ∃ w : ℝ, P.mulVec v = w • homogeneous x := by
  simp only [sub_dotProduct, smul_dotProduct, smul_eq_mul]
  rw [homogeneous2]
  constructor
  · rintro ⟨h0, h1⟩
    refine ⟨P 2 ⬝ᵥ v, ?_⟩
    funext i
    fin_cases i
    · change P 0 ⬝ᵥ v = (P 2 ⬝ᵥ v) * x 0; linarith
    · change P 1 ⬝ᵥ v = (P 2 ⬝ᵥ v) * x 1; linarith
    · change P 2 ⬝ᵥ v = (P 2 ⬝ᵥ v) * 1; ring
  · rintro ⟨w, hw⟩
    have h0 : P 0 ⬝ᵥ v = w * x 0 := congrFun hw 0
    have h1 : P 1 ⬝ᵥ v = w * x 1 := congrFun hw 1
    have h2 : P 2 ⬝ᵥ v = w * 1 := congrFun hw 2
    constructor
    · rw [h0, h2]; ring
    · rw [h1, h2]; ring

/-- The three rows for one view vanish exactly on the homogeneous points projected to a multiple of the image point. -/
lemma rows3_iff (P : Mat ℝ 3 4) (x : Vec ℝ 2) (v : Vec ℝ 4) :
    (∀ k, (skewPoint x * P : Mat ℝ 3 4) k ⬝ᵥ v = 0) ↔ ∃ w : ℝ, P.mulVec v = w • homogeneous x := by
  have e : ∀ k, (skewPoint x * P : Mat ℝ 3 4) k ⬝ᵥ v = (skewPoint x).mulVec (P.mulVec v) k := by
    intro k
    rw [Matrix.mulVec_mulVec]
    rfl
  simp only [e]
  obtain ⟨y, hy⟩ : ∃ y : Vec ℝ 3, y = P.mulVec v := ⟨_, rfl⟩
  rw [← hy, homogeneous2]
  constructor
  · intro h
    have h0 := h 0
    have h1 := h 1
    simp [skewPoint, Matrix.mulVec, dotProduct, Fin.sum_univ_three] at h0 h1
    refine ⟨y 2, ?_⟩
    funext i
    fin_cases i
    · simp; linarith
    · simp; linarith
    · simp
  · rintro ⟨w, hw⟩ k
    have h0 := congrFun hw 0
    have h1 := congrFun hw 1
    have h2 := congrFun hw 2
    simp at h0 h1 h2
    fin_cases k <;> simp [skewPoint, Matrix.mulVec, dotProduct, Fin.sum_univ_three, h0, h1, h2] <;> ring

lemma homogeneous_scale (v : Vec ℝ 4) (h : v 3 ≠ 0) : v = v 3 • homogeneous ![v 0 / v 3, v 1 / v 3, v 2 / v 3] := by
  rw [homogeneous3]
  funext i
  fin_cases i <;> simp <;> field_simp

lemma mapsTo_of_scale {P : Mat ℝ 3 4} {x : Vec ℝ 2} {v : Vec ℝ 4} (h : v 3 ≠ 0) (hv : ∃ w : ℝ, P.mulVec v = w • homogeneous x) :
    MapsTo P ![v 0 / v 3, v 1 / v 3, v 2 / v 3] x := by
  obtain ⟨w, hw⟩ := hv
  refine ⟨(v 3)⁻¹ * w, ?_⟩
  rw [homogeneous_scale v h, Matrix.mulVec_smul] at hw
  rw [mul_smul, ← hw, smul_smul, inv_mul_cancel₀ h, one_smul]

/-- Specification: the centre of a camera, the only point it projects to nothing. -/
def IsCentre (P : Mat ℝ 3 4) (C : Vec ℝ 3) : Prop := ∀ v, P.mulVec v = 0 ↔ ∃ m : ℝ, v = m • homogeneous C

/-- Two views determine a point: a homogeneous point seen in both views where `X` is seen is a multiple of `X`, if the rays
from the two centres to `X` are not parallel. -/
lemma two_views_unique (P1 P2 : Mat ℝ 3 4) (C1 C2 X : Vec ℝ 3) (x1 x2 : Vec ℝ 2) (h1 : IsCentre P1 C1) (h2 : IsCentre P2 C2)
    (hrays : LinearIndependent ℝ ![X - C1, X - C2]) (hX1 : MapsTo P1 X x1) (hX2 : MapsTo P2 X x2) (v : Vec ℝ 4)
    (hv1 : ∃ w : ℝ, P1.mulVec v = w • homogeneous x1) (hv2 : ∃ w : ℝ, P2.mulVec v = w • homogeneous x2) :
    ∃ a : ℝ, v = a • homogeneous X := by
  have hind := LinearIndependent.pair_iff.mp hrays
  have decomp : ∀ (P : Mat ℝ 3 4) (C : Vec ℝ 3) (x : Vec ℝ 2), IsCentre P C → X - C ≠ 0 → MapsTo P X x →
      (∃ w : ℝ, P.mulVec v = w • homogeneous x) → ∃ a m : ℝ, v = a • homogeneous X + m • homogeneous C := by
    rintro P C x hC hne ⟨w, hw⟩ ⟨b, hb⟩
    have hw0 : w ≠ 0 := by
      rintro rfl
      rw [zero_smul] at hw
      obtain ⟨m, hm⟩ := (hC _).mp hw
      apply hne
      rw [homogeneous3, homogeneous3] at hm
      have m0 := congrFun hm 0
      have m1 := congrFun hm 1
      have m2 := congrFun hm 2
      have m3 := congrFun hm 3
      simp at m0 m1 m2 m3
      funext i
      fin_cases i
      · simp [m0, ← m3]
      · simp [m1, ← m3]
      · simp [m2, ← m3]
    have : P.mulVec (v - (b / w) • homogeneous X) = 0 := by
      rw [Matrix.mulVec_sub, Matrix.mulVec_smul, hw, hb, smul_smul, div_mul_cancel₀ _ hw0, sub_self]
    obtain ⟨m, hm⟩ := (hC _).mp this
    exact ⟨b / w, m, by rw [← hm]; abel⟩
  have n1 : X - C1 ≠ 0 := hrays.ne_zero 0
  have n2 : X - C2 ≠ 0 := hrays.ne_zero 1
  obtain ⟨a, m, e1⟩ := decomp P1 C1 x1 h1 n1 hX1 hv1
  obtain ⟨b, n, e2⟩ := decomp P2 C2 x2 h2 n2 hX2 hv2
  have e := e1.symm.trans e2
  rw [homogeneous3, homogeneous3, homogeneous3] at e
  have q0 := congrFun e 0
  have q1 := congrFun e 1
  have q2 := congrFun e 2
  have q3 := congrFun e 3
  simp at q0 q1 q2 q3
  have hz := hind m (-n) (by
    funext i
    fin_cases i
    · simp; linear_combination X 0 * q3 - q0
    · simp; linear_combination X 1 * q3 - q1
    · simp; linear_combination X 2 * q3 - q2)
  exact ⟨a, by rw [e1, hz.1]; simp⟩

/-- **C41** Triangulation from two views: if some point is seen at the two given image points, the returned point is seen
there. -/
theorem C41_two_views (gesvd : List (Vec ℝ 4) → Option (Vec ℝ 4 × Mat ℝ 4 4)) (hg : SingularValueSolver gesvd)
    (P1 P2 : Mat ℝ 3 4) (x x' : Vec ℝ 2) (X Y : Vec ℝ 3) (hX1 : MapsTo P1 X x) (hX2 : MapsTo P2 X x')
    (h : get3DPosition2 gesvd P1 P2 x x' = some Y) : MapsTo P1 Y x ∧ MapsTo P2 Y x' := by
  unfold get3DPosition2 at h
  simp only [Option.bind_eq_bind, Option.bind_eq_some_iff] at h
  obtain ⟨⟨s, vt⟩, h1, h2⟩ := h
  split at h2
  · cases h2
  · rename_i hne
    have hY := Option.some.inj h2
    have r1 := (rows2_iff P1 x (homogeneous X)).mpr hX1
    have r2 := (rows2_iff P2 x' (homogeneous X)).mpr hX2
    have := (svd_null gesvd hg _ (homogeneous X) (homogeneous_ne_zero X) (by
      simp only [List.mem_cons, List.not_mem_nil, or_false, forall_eq_or_imp, forall_eq]
      exact ⟨r1.1, r1.2, r2.1, r2.2⟩) 3 (fun j => Fin.le_last j) s vt h1).1
    simp only [List.mem_cons, List.not_mem_nil, or_false, forall_eq_or_imp, forall_eq] at this
    rw [← hY]
    exact ⟨mapsTo_of_scale hne ((rows2_iff _ _ _).mp ⟨this.1, this.2.1⟩),
      mapsTo_of_scale hne ((rows2_iff _ _ _).mp this.2.2)⟩

/-- **C41** Triangulation from two views recovers the point whenever the rays from the two cameras to it are not
parallel. -/
theorem C41_two_views_recovered (gesvd : List (Vec ℝ 4) → Option (Vec ℝ 4 × Mat ℝ 4 4)) (hg : SingularValueSolver gesvd)
    (hc : ∀ rows, ∃ r, gesvd rows = some r) (P1 P2 : Mat ℝ 3 4) (C1 C2 X : Vec ℝ 3) (x x' : Vec ℝ 2)
    (h1 : IsCentre P1 C1) (h2 : IsCentre P2 C2) (hrays : LinearIndependent ℝ ![X - C1, X - C2])
    (hX1 : MapsTo P1 X x) (hX2 : MapsTo P2 X x') : get3DPosition2 gesvd P1 P2 x x' = some X := by
  unfold get3DPosition2
  simp only
  obtain ⟨⟨s, vt⟩, hs⟩ := hc [x 0 • P1 2 - P1 0, x 1 • P1 2 - P1 1, x' 0 • P2 2 - P2 0, x' 1 • P2 2 - P2 1]
  have r1 := (rows2_iff P1 x (homogeneous X)).mpr hX1
  have r2 := (rows2_iff P2 x' (homogeneous X)).mpr hX2
  obtain ⟨hn, hne⟩ := svd_null gesvd hg _ (homogeneous X) (homogeneous_ne_zero X) (by
      simp only [List.mem_cons, List.not_mem_nil, or_false, forall_eq_or_imp, forall_eq]
      exact ⟨r1.1, r1.2, r2.1, r2.2⟩) 3 (fun j => Fin.le_last j) s vt hs
  simp only [List.mem_cons, List.not_mem_nil, or_false, forall_eq_or_imp, forall_eq] at hn
  obtain ⟨a, ha⟩ := two_views_unique P1 P2 C1 C2 X x x' h1 h2 hrays hX1 hX2 (vt 3) ((rows2_iff _ _ _).mp ⟨hn.1, hn.2.1⟩)
    ((rows2_iff _ _ _).mp hn.2.2)
  have ha0 : a ≠ 0 := by rintro rfl; exact hne (by rw [ha, zero_smul])
  rw [homogeneous3] at ha
  have a0 : vt 3 0 = a * X 0 := by rw [ha]; simp
  have a1 : vt 3 1 = a * X 1 := by rw [ha]; simp
  have a2 : vt 3 2 = a * X 2 := by rw [ha]; simp
  have a3 : vt 3 3 = a := by rw [ha]; simp
  rw [hs]
  simp only [Option.bind_eq_bind, Option.bind_some]
  rw [if_neg (by rw [a3]; exact ha0), a0, a1, a2, a3]
  congr 1
  funext i
  fin_cases i <;> simp <;> field_simp

lemma orient_eq (v : Vec ℝ 4) (P : List (Mat ℝ 3 4)) : orient v P = v ∨ orient v P = -v := by
  induction P with
  | nil => exact Or.inl rfl
  | cons a P ih =>
    unfold orient
    split
    · exact Or.inr rfl
    · exact ih

lemma viewSystem_iff (P : List (Mat ℝ 3 4)) (points : List (Vec ℝ 2)) (v : Vec ℝ 4) :
    (∀ r ∈ viewSystem P points, r ⬝ᵥ v = 0) ↔ ∀ q ∈ P.zip points, ∃ w : ℝ, q.1.mulVec v = w • homogeneous q.2 := by
  constructor
  · intro h q hq
    apply (rows3_iff _ _ _).mp
    intro k
    exact h _ (List.mem_flatMap.mpr ⟨q, hq, List.mem_map.mpr ⟨k, List.mem_finRange k, rfl⟩⟩)
  · intro h r hr
    obtain ⟨q, hq, hr⟩ := List.mem_flatMap.mp hr
    obtain ⟨k, _, rfl⟩ := List.mem_map.mp hr
    exact (rows3_iff _ _ _).mpr (h q hq) k

lemma orient_div (v : Vec ℝ 4) (P : List (Mat ℝ 3 4)) :
    (![orient v P 0 / orient v P 3, orient v P 1 / orient v P 3, orient v P 2 / orient v P 3] : Vec ℝ 3)
      = ![v 0 / v 3, v 1 / v 3, v 2 / v 3] := by
  rcases orient_eq v P with h | h <;> rw [h]
  simp [neg_div_neg_eq]

/-- **C41** Triangulation from several views: if some point is seen at all the given image points, the returned point is
seen there. -/
theorem C41_views (gesvd : List (Vec ℝ 4) → Option (Vec ℝ 4 × Mat ℝ 4 4)) (hg : SingularValueSolver gesvd)
    (P : List (Mat ℝ 3 4)) (points : List (Vec ℝ 2)) (X Y : Vec ℝ 3) (hX : ∀ q ∈ P.zip points, MapsTo q.1 X q.2)
    (h : get3DPosition gesvd P points = some Y) : ∀ q ∈ P.zip points, MapsTo q.1 Y q.2 := by
  unfold get3DPosition at h
  split at h
  · cases h
  split at h
  · cases h
  simp only [Option.bind_eq_bind, Option.bind_eq_some_iff] at h
  obtain ⟨⟨s, vt⟩, h1, h2⟩ := h
  split at h2
  · cases h2
  · rename_i hne
    have hY := Option.some.inj h2
    have := (svd_null gesvd hg _ (homogeneous X) (homogeneous_ne_zero X) ((viewSystem_iff _ _ _).mpr hX) 3
      (fun j => Fin.le_last j) s vt h1).1
    rw [viewSystem_iff] at this
    have hne' : vt 3 3 ≠ 0 := by
      rcases orient_eq (vt 3) P with h | h <;> rw [h] at hne
      · exact hne
      · simpa using hne
    rw [orient_div] at hY
    intro q hq
    rw [← hY]
    exact mapsTo_of_scale hne' (this q hq)

/-- **C41** Triangulation from several views recovers the point, whatever the number of views, as soon as the rays from two
of the cameras are not parallel. -/
theorem C41_views_recovered (gesvd : List (Vec ℝ 4) → Option (Vec ℝ 4 × Mat ℝ 4 4)) (hg : SingularValueSolver gesvd)
    (hc : ∀ rows, ∃ r, gesvd rows = some r) (P : List (Mat ℝ 3 4)) (points : List (Vec ℝ 2)) (X : Vec ℝ 3)
    (hlen : P.length = points.length) (hX : ∀ q ∈ P.zip points, MapsTo q.1 X q.2)
    (q1 q2 : Mat ℝ 3 4 × Vec ℝ 2) (hq1 : q1 ∈ P.zip points) (hq2 : q2 ∈ P.zip points) (C1 C2 : Vec ℝ 3)
    (h1 : IsCentre q1.1 C1) (h2 : IsCentre q2.1 C2) (hrays : LinearIndependent ℝ ![X - C1, X - C2]) :
    get3DPosition gesvd P points = some X := by
  obtain ⟨⟨s, vt⟩, hs⟩ := hc (viewSystem P points)
  obtain ⟨hn, hne⟩ := svd_null gesvd hg _ (homogeneous X) (homogeneous_ne_zero X) ((viewSystem_iff _ _ _).mpr hX) 3
      (fun j => Fin.le_last j) s vt hs
  rw [viewSystem_iff] at hn
  obtain ⟨a, ha⟩ := two_views_unique q1.1 q2.1 C1 C2 X q1.2 q2.2 h1 h2 hrays (hX _ hq1) (hX _ hq2) (vt 3) (hn _ hq1) (hn _ hq2)
  have ha0 : a ≠ 0 := by rintro rfl; exact hne (by rw [ha, zero_smul])
  have hq12 : q1 ≠ q2 := by
    rintro rfl
    have hz : homogeneous C1 = homogeneous C2 := by
      obtain ⟨m, hm⟩ := (h2 _).mp ((h1 (homogeneous C1)).mpr ⟨1, by simp⟩)
      have := congrFun hm 3
      simp [homogeneous3] at this
      rw [← this, one_smul] at hm
      exact hm
    have hCC : C1 = C2 := by
      rw [homogeneous3, homogeneous3] at hz
      funext i
      fin_cases i
      · simpa using congrFun hz 0
      · simpa using congrFun hz 1
      · simpa using congrFun hz 2
    rw [hCC] at hrays
    have := (LinearIndependent.pair_iff.mp hrays) 1 (-1) (by simp)
    simpa using this.1
  have hlen2 : 2 ≤ P.length := by
    by_contra hcon
    have hl : (P.zip points).length ≤ 1 := by rw [List.length_zip]; omega
    apply hq12
    match hz : P.zip points, hq1, hq2, hl with
    | [a], hq1, hq2, _ => rw [List.mem_singleton] at hq1 hq2; rw [hq1, hq2]
  rw [homogeneous3] at ha
  have a0 : vt 3 0 = a * X 0 := by rw [ha]; simp
  have a1 : vt 3 1 = a * X 1 := by rw [ha]; simp
  have a2 : vt 3 2 = a * X 2 := by rw [ha]; simp
  have a3 : vt 3 3 = a := by rw [ha]; simp
  have hone : orient (vt 3) P 3 ≠ 0 := by
    rcases orient_eq (vt 3) P with h | h <;> rw [h]
    · rw [a3]; exact ha0
    · simp [a3, ha0]
  unfold get3DPosition
  rw [if_neg (by simpa using hlen), if_neg (by omega), hs]
  simp only [Option.bind_eq_bind, Option.bind_some]
  rw [if_neg hone, orient_div, a0, a1, a2, a3]
  congr 1
  funext i
  fin_cases i <;> simp <;> field_simp

/-- **C41** Fewer than two views, and different numbers of cameras and image points, are rejected. -/
theorem C41_views_rejects (gesvd : List (Vec ℝ 4) → Option (Vec ℝ 4 × Mat ℝ 4 4)) (P : List (Mat ℝ 3 4))
    (points : List (Vec ℝ 2)) (h : P.length ≠ points.length ∨ P.length < 2) : get3DPosition gesvd P points = none := by
  unfold get3DPosition
  rcases h with h | h
  · rw [if_pos h]
  · split
    · rfl
    · rfl

/-! ## The hypotheses are met by concrete data -/

/-- Four correspondences under the homography `(x, y) ↦ (x / (x + 2), y / (x + 2))`, which is recovered. -/
example : ∃ gesvd : List (Vec ℝ 9) → Option (Vec ℝ 9 × Mat ℝ 9 9), ∃ (H : Mat ℝ 3 3) (w : ℝ),
    homographyDLT gesvd [![0, 0], ![1, 0], ![0, 1], ![1, 1]] [![0, 0], ![1/3, 0], ![0, 1/2], ![1/3, 1/3]] = some H ∧
    w ≠ 0 ∧ H = w • (!![1, 0, 0; 0, 1, 0; 1, 0, 2] : Mat ℝ 3 3) := by
  obtain ⟨gesvd, hg, hc⟩ := exists_singularValueSolver 9
  refine ⟨gesvd, C41_homography_recovered gesvd hg hc _ _ (by simp) _ ?_ ?_ ![![0, 0], ![1, 0], ![0, 1], ![1, 1]] ?_ ?_⟩
  · simp [Matrix.det_fin_three]
  · simp only [List.zip_cons_cons, List.zip_nil_right, List.mem_cons, List.not_mem_nil, or_false, forall_eq_or_imp, forall_eq]
    refine ⟨⟨2, ?_⟩, ⟨3, ?_⟩, ⟨2, ?_⟩, ⟨3, ?_⟩⟩ <;>
      (rw [mulVec_homogeneous2, homogeneous2]; funext i; fin_cases i <;> simp <;> norm_num)
  · intro i; fin_cases i <;> simp
  · intro i j k hij hik hjk
    unfold Collinear2
    fin_cases i <;> fin_cases j <;> fin_cases k <;> simp at hij hik hjk ⊢

/-- A quadrangle no three corners of which lie on a line: its homography is invertible. -/
example : ∃ gesvd : List (Vec ℝ 3) → Option (Vec ℝ 3 × Mat ℝ 3 3), ∃ H,
    squareHomography gesvd ![![0, 1], ![0, 0], ![3, 0], ![2, 2]] = some H ∧ H.det ≠ 0 := by
  obtain ⟨gesvd, hg, hc⟩ := exists_singularValueSolver 3
  obtain ⟨H, hH⟩ : ∃ H, squareHomography gesvd ![![0, 1], ![0, 0], ![3, 0], ![2, 2]] = some H := by
    obtain ⟨⟨s, vt⟩, hs⟩ := hc (squareSystem (centredCorners ![![0, 1], ![0, 0], ![3, 0], ![2, 2]]).1)
    unfold squareHomography
    simp only [hs, Option.bind_eq_bind, Option.bind_some]
    exact ⟨_, rfl⟩
  refine ⟨gesvd, H, hH, (C41_square_invertible gesvd hg _ ?_ H hH).1⟩
  intro i j k hij hik hjk
  unfold Collinear2
  fin_cases i <;> fin_cases j <;> fin_cases k <;> simp at hij hik hjk ⊢ <;> norm_num

/-- Six points not in a plane, seen by the camera `[I 0]`, determine it. -/
example : ∃ gesvd : List (Vec ℝ 12) → Option (Vec ℝ 12 × Mat ℝ 12 12),
    projectionDLT gesvd (![0, 0, 1] :: [![1, 0, 1], ![0, 1, 1], ![0, 0, 2], ![1, 1, 2], ![2, -1, 3]])
      [![0, 0], ![1, 0], ![0, 1], ![0, 0], ![1/2, 1/2], ![2/3, -1/3]]
      = some !![1, 0, 0, 0; 0, 1, 0, 0; 0, 0, 1, 0] := by
  obtain ⟨gesvd, hg, hc⟩ := exists_singularValueSolver 12
  refine ⟨gesvd, C41_projection_recovered gesvd hg hc _ _ _ (by simp) (by simp) ?_ ?_ _ ?_ ?_ ?_ ?_⟩
  · intro i
    fin_cases i
    · exact ⟨![0, 0, 1], by simp, ![1, 0, 1], by simp, by simp⟩
    · exact ⟨![0, 0, 1], by simp, ![0, 1, 1], by simp, by simp⟩
    · exact ⟨![0, 0, 1], by simp, ![0, 0, 2], by simp, by simp⟩
  · intro i
    fin_cases i
    · exact ⟨![0, 0], by simp, ![1, 0], by simp, by simp⟩
    · exact ⟨![0, 0], by simp, ![0, 1], by simp, by simp⟩
  · simp [viewLengthSq]
  · unfold depth; rw [mulVec_homogeneous3]; simp
  · simp only [List.zip_cons_cons, List.zip_nil_right, List.mem_cons, List.not_mem_nil, or_false, forall_eq_or_imp, forall_eq]
    refine ⟨⟨1, ?_⟩, ⟨1, ?_⟩, ⟨1, ?_⟩, ⟨2, ?_⟩, ⟨2, ?_⟩, ⟨3, ?_⟩⟩ <;>
      (rw [mulVec_homogeneous3, homogeneous2]; funext i; fin_cases i <;> simp <;> norm_num)
  · intro Q hQ
    simp only [List.zip_cons_cons, List.zip_nil_right, List.mem_cons, List.not_mem_nil, or_false, forall_eq_or_imp, forall_eq] at hQ
    obtain ⟨⟨a, ha⟩, ⟨b, hb⟩, ⟨c, hc'⟩, ⟨d, hd⟩, ⟨e, he⟩, ⟨f, hf⟩⟩ := hQ
    rw [mulVec_homogeneous3, homogeneous2] at ha hb hc' hd he hf
    have a0 := congrFun ha 0; have a1 := congrFun ha 1; have a2 := congrFun ha 2
    have b0 := congrFun hb 0; have b1 := congrFun hb 1; have b2 := congrFun hb 2
    have c0 := congrFun hc' 0; have c1 := congrFun hc' 1; have c2 := congrFun hc' 2
    have d0 := congrFun hd 0; have d1 := congrFun hd 1; have d2 := congrFun hd 2
    have e0 := congrFun he 0; have e1 := congrFun he 1; have e2 := congrFun he 2
    have f0 := congrFun hf 0; have f1 := congrFun hf 1; have f2 := congrFun hf 2
    simp at a0 a1 a2 b0 b1 b2 c0 c1 c2 d0 d1 d2 e0 e1 e2 f0 f1 f2
    refine ⟨Q 2 2, ?_⟩
    ext i j
    fin_cases i <;> fin_cases j <;> simp <;> linarith

/-- A point seen by the cameras `[I 0]` and `[I -e₁]` from two directions is recovered, from two views and from three. -/
example : ∃ gesvd : List (Vec ℝ 4) → Option (Vec ℝ 4 × Mat ℝ 4 4),
    get3DPosition2 gesvd !![1, 0, 0, 0; 0, 1, 0, 0; 0, 0, 1, 0] !![1, 0, 0, -1; 0, 1, 0, 0; 0, 0, 1, 0] ![1, 1/2] ![1/2, 1/2]
      = some ![2, 1, 2] ∧
    get3DPosition gesvd [!![1, 0, 0, 0; 0, 1, 0, 0; 0, 0, 1, 0], !![1, 0, 0, -1; 0, 1, 0, 0; 0, 0, 1, 0],
      !![1, 0, 0, -2; 0, 1, 0, 0; 0, 0, 1, 0]] [![1, 1/2], ![1/2, 1/2], ![0, 1/2]] = some ![2, 1, 2] := by
  obtain ⟨gesvd, hg, hc⟩ := exists_singularValueSolver 4
  have cen : ∀ t : ℝ, IsCentre !![1, 0, 0, -t; 0, 1, 0, 0; 0, 0, 1, 0] ![t, 0, 0] := by
    intro t v
    rw [homogeneous3]
    constructor
    · intro h
      have h0 := congrFun h 0
      have h1 := congrFun h 1
      have h2 := congrFun h 2
      simp [Matrix.mulVec, dotProduct, Fin.sum_univ_four] at h0 h1 h2
      refine ⟨v 3, ?_⟩
      funext i
      fin_cases i <;> simp <;> linarith
    · rintro ⟨m, rfl⟩
      funext i
      fin_cases i <;> simp [Matrix.mulVec, dotProduct, Fin.sum_univ_four, mul_comm]
  have c1 : IsCentre !![1, 0, 0, 0; 0, 1, 0, 0; 0, 0, 1, 0] ![0, 0, 0] := by simpa using cen 0
  have c2 := cen 1
  have hr : LinearIndependent ℝ ![(![2, 1, 2] : Vec ℝ 3) - ![0, 0, 0], ![2, 1, 2] - ![1, 0, 0]] := by
    rw [LinearIndependent.pair_iff]
    intro s t h
    have h0 := congrFun h 0
    have h1 := congrFun h 1
    simp at h0 h1
    constructor <;> linarith
  refine ⟨gesvd, C41_two_views_recovered gesvd hg hc _ _ _ _ _ _ _ c1 c2 hr ⟨2, ?_⟩ ⟨2, ?_⟩,
    C41_views_recovered gesvd hg hc _ _ _ (by simp) ?_ (!![1, 0, 0, 0; 0, 1, 0, 0; 0, 0, 1, 0], ![1, 1/2])
      (!![1, 0, 0, -1; 0, 1, 0, 0; 0, 0, 1, 0], ![1/2, 1/2]) (by simp) (by simp) _ _ c1 c2 hr⟩
  · rw [mulVec_homogeneous3, homogeneous2]; funext i; fin_cases i <;> simp
  · rw [mulVec_homogeneous3, homogeneous2]; funext i; fin_cases i <;> simp; norm_num
  · simp only [List.zip_cons_cons, List.zip_nil_right, List.mem_cons, List.not_mem_nil, or_false, forall_eq_or_imp, forall_eq]
    refine ⟨⟨2, ?_⟩, ⟨2, ?_⟩, ⟨2, ?_⟩⟩ <;>
      (rw [mulVec_homogeneous3, homogeneous2]; funext i; fin_cases i <;> simp <;> norm_num)

/-- The distance of a point to an epipolar line. -/
example : pointToPointDist ![1, 0] ![5, 3] !![0, 0, 0; 0, 0, 1; 0, -1, 0] = some 9 := by
  unfold pointToPointDist pointToPointDistImp
  simp [Matrix.mulVec, dotProduct, Fin.sum_univ_three]
  norm_num

end Ubitrack.Linear
