import Verif.Model.ObjectSpacePose
import Verif.Spec.ObjectSpacePose
import Verif.Props.AbsoluteOrientation

/-!
# C81: camera pose by orthogonal iteration
-/

namespace Ubitrack.ObjectSpacePose

open Spec AbsoluteOrientation Quat
open scoped Matrix

variable {n : ℕ}

/-! ### Sums -/

theorem accumulate_eq (points : Fin n → Vec ℝ 3) : accumulate points = ∑ i, points i := by
  unfold accumulate
  rw [← List.sum_eq_foldl, List.sum_ofFn]

theorem calculateCentroid_eq (points : Fin n → Vec ℝ 3) : calculateCentroid points = (n : ℝ)⁻¹ • ∑ i, points i := by
  funext k
  simp only [calculateCentroid, accumulate_eq, Pi.smul_apply, smul_eq_mul]
  ring

theorem sum_centred (hn : n ≠ 0) (points : Fin n → Vec ℝ 3) : ∑ i, (shiftToCenter points).1 i = 0 := by
  have h : (n : ℝ) ≠ 0 := Nat.cast_ne_zero.mpr hn
  simp only [shiftToCenter, calculateCentroid_eq]
  rw [Finset.sum_sub_distrib]
  simp [Finset.sum_const, ← Nat.cast_smul_eq_nsmul ℝ, smul_smul, mul_inv_cancel₀ h]

theorem mean_ofFn (points : Fin n → Vec ℝ 3) : mean (List.ofFn points) = (n : ℝ)⁻¹ • ∑ i, points i := by
  funext k
  simp only [mean, List.sum_ofFn, List.length_ofFn, Pi.smul_apply, smul_eq_mul]
  ring

theorem mean_centred (hn : n ≠ 0) (points : Fin n → Vec ℝ 3) (h : ∑ i, points i = 0) : mean (List.ofFn points) = 0 := by
  rw [mean_ofFn, h, smul_zero]

theorem zip_ofFn {α β : Type} (f : Fin n → α) (g : Fin n → β) : (List.ofFn f).zip (List.ofFn g) = List.ofFn fun i => (f i, g i) := by
  apply List.ext_getElem <;> simp

theorem alignError_ofFn (l r : Fin n → Vec ℝ 3) (f : Vec ℝ 3 → Vec ℝ 3) :
    alignError (List.ofFn l) (List.ofFn r) f = ∑ i, lenSq (l i - f (r i)) := by
  unfold alignError
  rw [zip_ofFn, List.map_ofFn, List.sum_ofFn]
  rfl

/-! ### Projection onto a line of sight -/

theorem lenSq_sight_pos (u : Vec ℝ 2) : 0 < lenSq (sight u) := by
  simp only [lenSq, sight]
  simp
  positivity

theorem los_mulVec (d y : Vec ℝ 3) : lineOfSightProjectionMatrix d *ᵥ y = (d ⬝ᵥ y / lenSq d) • d := by
  funext i
  simp only [lineOfSightProjectionMatrix, Matrix.mulVec, dotProduct, Fin.sum_univ_three, Matrix.of_apply, Pi.smul_apply, smul_eq_mul, lenSq]
  have e : d 0 * d 0 + d 1 * d 1 + d 2 * d 2 = d 0 ^ 2 + d 1 ^ 2 + d 2 ^ 2 := by ring
  rw [e]
  ring

theorem los_idem (d : Vec ℝ 3) (hd : 0 < lenSq d) (y : Vec ℝ 3) :
    lineOfSightProjectionMatrix d *ᵥ (lineOfSightProjectionMatrix d *ᵥ y) = lineOfSightProjectionMatrix d *ᵥ y := by
  rw [los_mulVec, los_mulVec, dotProduct_smul, ← lenSq_eq_dot, smul_eq_mul, div_mul_cancel₀ _ hd.ne']

theorem los_symm (d x y : Vec ℝ 3) : x ⬝ᵥ (lineOfSightProjectionMatrix d *ᵥ y) = (lineOfSightProjectionMatrix d *ᵥ x) ⬝ᵥ y := by
  rw [los_mulVec, los_mulVec, dotProduct_smul, smul_dotProduct, smul_eq_mul, smul_eq_mul, dotProduct_comm x d]
  ring

/-- The part of a point across a line of sight. -/
noncomputable def across (d y : Vec ℝ 3) : Vec ℝ 3 := y - lineOfSightProjectionMatrix d *ᵥ y

theorem across_eq (d y : Vec ℝ 3) : (1 - lineOfSightProjectionMatrix d) *ᵥ y = across d y := by
  rw [Matrix.sub_mulVec, Matrix.one_mulVec]
  rfl

theorem across_add (d x y : Vec ℝ 3) : across d (x + y) = across d x + across d y := by
  simp only [across, Matrix.mulVec_add]
  abel

theorem across_sub (d x y : Vec ℝ 3) : across d (x - y) = across d x - across d y := by
  simp only [across, Matrix.mulVec_sub]
  abel

theorem across_los (d : Vec ℝ 3) (hd : 0 < lenSq d) (y : Vec ℝ 3) : across d (lineOfSightProjectionMatrix d *ᵥ y) = 0 := by
  unfold across
  rw [los_idem d hd, sub_self]

theorem across_dot (d : Vec ℝ 3) (hd : 0 < lenSq d) (x y : Vec ℝ 3) : across d x ⬝ᵥ across d y = across d x ⬝ᵥ y := by
  have h : across d x ⬝ᵥ (lineOfSightProjectionMatrix d *ᵥ y) = 0 := by
    rw [los_symm, show lineOfSightProjectionMatrix d *ᵥ across d x = 0 by
      unfold across; rw [Matrix.mulVec_sub, los_idem d hd, sub_self], zero_dotProduct]
  conv_lhs => rw [show across d y = y - lineOfSightProjectionMatrix d *ᵥ y from rfl, dotProduct_sub, h, sub_zero]

theorem lenSq_add (x y : Vec ℝ 3) : lenSq (x + y) = lenSq x + lenSq y + 2 * (x ⬝ᵥ y) := by
  simp only [lenSq, dotProduct, Fin.sum_univ_three, Pi.add_apply]
  ring

theorem lenSq_across (d : Vec ℝ 3) (hd : 0 < lenSq d) (y : Vec ℝ 3) : lenSq (across d y) = lineDistSq d y := by
  unfold across lineDistSq
  rw [los_mulVec]
  rw [eq_div_iff hd.ne']
  have h : lenSq (y - (d ⬝ᵥ y / lenSq d) • d) = lenSq y - (d ⬝ᵥ y) ^ 2 / lenSq d := by
    have e : y - (d ⬝ᵥ y / lenSq d) • d = y + (-(d ⬝ᵥ y / lenSq d)) • d := by rw [neg_smul]; abel
    rw [e, lenSq_add, dotProduct_smul, dotProduct_comm y d]
    have e2 : lenSq ((-(d ⬝ᵥ y / lenSq d)) • d) = (d ⬝ᵥ y / lenSq d) ^ 2 * lenSq d := by
      simp only [lenSq, Pi.smul_apply, smul_eq_mul]; ring
    rw [e2, smul_eq_mul]
    field_simp
    ring
  rw [h, sub_mul, div_mul_cancel₀ _ hd.ne']
  simp only [lenSq, dotProduct, Fin.sum_univ_three, cross_apply]
  simp
  ring

theorem lenSq_across_le (d : Vec ℝ 3) (hd : 0 < lenSq d) (y : Vec ℝ 3) : lenSq (across d y) ≤ lenSq y := by
  rw [lenSq_across d hd, lineDistSq, div_le_iff₀ hd]
  have : lenSq (crossProduct d y) = lenSq y * lenSq d - (d ⬝ᵥ y) ^ 2 := by
    simp only [lenSq, dotProduct, Fin.sum_univ_three, cross_apply]
    simp
    ring
  rw [this]
  nlinarith [sq_nonneg (d ⬝ᵥ y)]

/-- **C81** The distance of the specification is the distance from the line: no point of the line is nearer, and one is as near. -/
theorem C81_distance (d : Vec ℝ 3) (hd : d ≠ 0) (y : Vec ℝ 3) :
    (∀ s : ℝ, lineDistSq d y ≤ lenSq (y - s • d)) ∧ ∃ s : ℝ, lineDistSq d y = lenSq (y - s • d) := by
  have hp : 0 < lenSq d := by
    rcases (lenSq_nonneg d).lt_or_eq with h | h
    · exact h
    · exact absurd (eq_zero_of_lenSq d h.symm) hd
  constructor
  · intro s
    have h : lineDistSq d y = lineDistSq d (y - s • d) := by
      unfold lineDistSq
      congr 2
      simp
    rw [h, ← lenSq_across d hp]
    exact lenSq_across_le d hp _
  · refine ⟨d ⬝ᵥ y / lenSq d, ?_⟩
    rw [← lenSq_across d hp, across, los_mulVec]

/-! ### Translation -/

/-- The matrices of the lines of sight. -/
noncomputable abbrev lines (images : Fin n → Vec ℝ 2) : Fin n → Mat ℝ 3 3 := fun i => lineOfSightProjectionMatrix (sight (images i))

/-- The matrix inverted for the translation. -/
noncomputable def factor (images : Fin n → Vec ℝ 2) : Mat ℝ 3 3 := 1 - divide (∑ i, lines images i) n

theorem tFactor_eq (images : Fin n → Vec ℝ 2) [Decidable ((factor images).det = 0)] :
    calculateTFactorMatrix (lines images) = if (factor images).det = 0 then none else some (divide (factor images)⁻¹ n) := by
  have e : (List.ofFn (lines images)).foldl (fun acc m => acc + m) 0 = ∑ i, lines images i := by
    rw [← List.sum_eq_foldl, List.sum_ofFn]
  unfold calculateTFactorMatrix
  dsimp only
  rw [e]
  by_cases h : (factor images).det = 0
  · rw [if_pos h]
    exact if_pos h
  · rw [if_neg h]
    exact if_neg h

theorem divide_eq (m : Mat ℝ 3 3) : divide m n = (n : ℝ)⁻¹ • m := by
  funext i j
  simp only [divide, Matrix.smul_apply, smul_eq_mul]
  ring

theorem factor_mulVec (hn : n ≠ 0) (images : Fin n → Vec ℝ 2) (x : Vec ℝ 3) :
    (n : ℝ) • (factor images *ᵥ x) = ∑ i, across (sight (images i)) x := by
  have h : (n : ℝ) ≠ 0 := Nat.cast_ne_zero.mpr hn
  unfold factor across
  rw [divide_eq, Matrix.sub_mulVec, Matrix.one_mulVec, Matrix.smul_mulVec, smul_sub, smul_smul, mul_inv_cancel₀ h, one_smul,
    Finset.sum_sub_distrib, Matrix.sum_mulVec]
  simp [Finset.sum_const, ← Nat.cast_smul_eq_nsmul ℝ]

theorem estimateTranslation_balance (hn : n ≠ 0) (images : Fin n → Vec ℝ 2) (hdet : (factor images).det ≠ 0) (R : Mat ℝ 3 3)
    (p : Fin n → Vec ℝ 3) (hp : ∑ i, p i = 0) :
    ∑ i, across (sight (images i)) (R *ᵥ p i + estimateTranslation (lines images) R p (divide (factor images)⁻¹ n)) = 0 := by
  set T := estimateTranslation (lines images) R p (divide (factor images)⁻¹ n) with hT
  have h1 : (n : ℝ) • (factor images *ᵥ T) = ∑ i, lines images i *ᵥ (R *ᵥ p i) := by
    rw [hT]
    unfold estimateTranslation
    dsimp only
    rw [accumulate_eq, divide_eq, Matrix.smul_mulVec, Matrix.mulVec_smul, Matrix.mulVec_mulVec, Matrix.mul_nonsing_inv _ (Ne.isUnit hdet),
      Matrix.one_mulVec, smul_smul, mul_inv_cancel₀ (Nat.cast_ne_zero.mpr hn), one_smul]
  simp only [across_add]
  rw [Finset.sum_add_distrib, ← factor_mulVec hn, h1]
  have h2 : ∑ i, R *ᵥ p i = 0 := by
    rw [← Matrix.mulVec_sum, hp, Matrix.mulVec_zero]
  simp only [across]
  rw [Finset.sum_sub_distrib, h2]
  simp

/-- The translation of a pass is the best one for its rotation, and what every other one costs more. -/
theorem translation_split (hn : n ≠ 0) (images : Fin n → Vec ℝ 2) (hdet : (factor images).det ≠ 0) (R : Mat ℝ 3 3)
    (p : Fin n → Vec ℝ 3) (hp : ∑ i, p i = 0) (t : Vec ℝ 3) :
    objectError images p R t = objectError images p R (estimateTranslation (lines images) R p (divide (factor images)⁻¹ n)) +
      ∑ i, lineDistSq (sight (images i)) (t - estimateTranslation (lines images) R p (divide (factor images)⁻¹ n)) := by
  have hb := estimateTranslation_balance hn images hdet R p hp
  set T := estimateTranslation (lines images) R p (divide (factor images)⁻¹ n)
  unfold objectError
  have e : ∀ i, lineDistSq (sight (images i)) (R *ᵥ p i + t) = lineDistSq (sight (images i)) (R *ᵥ p i + T) +
      lineDistSq (sight (images i)) (t - T) + 2 * (across (sight (images i)) (R *ᵥ p i + T) ⬝ᵥ (t - T)) := by
    intro i
    have hd := lenSq_sight_pos (images i)
    rw [← lenSq_across _ hd, ← lenSq_across _ hd, ← lenSq_across _ hd, ← across_dot _ hd, ← lenSq_add, ← across_add]
    congr 2
    abel
  simp only [e]
  rw [Finset.sum_add_distrib, Finset.sum_add_distrib, ← Finset.mul_sum]
  have : ∑ i, across (sight (images i)) (R *ᵥ p i + T) ⬝ᵥ (t - T) = 0 := by
    rw [← sum_dotProduct, hb, zero_dotProduct]
  rw [this]
  ring

theorem lineDistSq_nonneg (d y : Vec ℝ 3) : 0 ≤ lineDistSq d y := div_nonneg (lenSq_nonneg _) (lenSq_nonneg _)

theorem objectError_nonneg (images : Fin n → Vec ℝ 2) (p : Fin n → Vec ℝ 3) (R : Mat ℝ 3 3) (t : Vec ℝ 3) : 0 ≤ objectError images p R t :=
  Finset.sum_nonneg fun _ _ => lineDistSq_nonneg _ _

theorem objectSpaceError_eq (images : Fin n → Vec ℝ 2) (y : Fin n → Vec ℝ 3) :
    calculateObjectSpaceError (lines images) y = ∑ i, lineDistSq (sight (images i)) (y i) := by
  unfold calculateObjectSpaceError
  rw [← List.sum_eq_foldl, List.sum_ofFn]
  refine Finset.sum_congr rfl fun i _ => ?_
  dsimp only
  rw [across_eq, ← lenSq_across _ (lenSq_sight_pos _)]
  simp only [lenSq]
  ring

/-! ### One pass -/

variable {syev : Mat ℝ 4 4 → Option (Vec ℝ 4 × Mat ℝ 4 4)}

theorem rotation_spec (hs : SymmetricEigensolver syev) (hn : n ≠ 0) (l r : Fin n → Vec ℝ 3) (hl : ∑ i, l i = 0) (hr : ∑ i, r i = 0)
    (R : Mat ℝ 3 3) (h : estimateRotationMatrix syev (List.ofFn l) (List.ofFn r) = some R) :
    IsRotation R ∧ ∀ S, IsRotation S → ∑ i, lenSq (l i - R *ᵥ r i) ≤ ∑ i, lenSq (l i - S *ᵥ r i) := by
  unfold estimateRotationMatrix at h
  rw [Option.map_eq_some_iff] at h
  obtain ⟨q, hq, rfl⟩ := h
  obtain ⟨hu, -, hrot, hopt⟩ := C38_rotation_optimal hs (List.ofFn l) (List.ofFn r) (by simp) q hq
  refine ⟨hrot, fun S hS => ?_⟩
  have := hopt S hS
  rw [mean_centred hn l hl, mean_centred hn r hr] at this
  simp only [sub_zero, List.map_id'] at this
  rw [alignError_ofFn, alignError_ofFn] at this
  simpa only [(C03_quaternion_to_matrix q hu).1] using this

/-- A shift of all points to their centroid is the best shift. -/
theorem shift_best (hn : n ≠ 0) (y : Fin n → Vec ℝ 3) (t : Vec ℝ 3) :
    ∑ i, lenSq (y i - (n : ℝ)⁻¹ • ∑ j, y j) ≤ ∑ i, lenSq (y i - t) := by
  have hn' : (n : ℝ) ≠ 0 := Nat.cast_ne_zero.mpr hn
  set c := (n : ℝ)⁻¹ • ∑ j, y j with hc
  have h0 : ∑ i, (y i - c) = 0 := by
    rw [Finset.sum_sub_distrib]
    simp [Finset.sum_const, ← Nat.cast_smul_eq_nsmul ℝ, hc, smul_smul, mul_inv_cancel₀ hn']
  have e : ∀ i, lenSq (y i - t) = lenSq (y i - c) + lenSq (c - t) + 2 * ((y i - c) ⬝ᵥ (c - t)) := by
    intro i
    rw [← lenSq_add]
    congr 1
    abel
  simp only [e]
  rw [Finset.sum_add_distrib, Finset.sum_add_distrib, ← Finset.mul_sum, ← sum_dotProduct, h0, zero_dotProduct]
  have := Finset.sum_nonneg (s := Finset.univ) fun (i : Fin n) _ => lenSq_nonneg (c - t)
  linarith

/-- What one pass does: a rotation with its best translation; and starting from points moved by any rotation and translation, an error
that is not larger than theirs. -/
theorem pass_spec (hs : SymmetricEigensolver syev) (hn : n ≠ 0) (images : Fin n → Vec ℝ 2) (hdet : (factor images).det ≠ 0)
    (p q q' : Fin n → Vec ℝ 3) (hp : ∑ i, p i = 0) (R : Mat ℝ 3 3) (T : Vec ℝ 3) (e : ℝ)
    (h : pass syev (lines images) (divide (factor images)⁻¹ n) p q = some (R, T, q', e)) :
    IsRotation R ∧ (∀ i, q' i = R *ᵥ p i + T) ∧ e = objectError images p R T ∧ (∀ t, e ≤ objectError images p R t) ∧
      T = estimateTranslation (lines images) R p (divide (factor images)⁻¹ n) ∧
      ∀ S t, IsRotation S → (∀ i, q i = S *ᵥ p i + t) → e ≤ objectError images p S t := by
  unfold pass at h
  dsimp only at h
  split at h
  · simp at h
  rename_i R' hR
  simp only [Option.some.injEq, Prod.mk.injEq] at h
  obtain ⟨rfl, rfl, rfl, rfl⟩ := h
  obtain ⟨hrot, hopt⟩ := rotation_spec hs hn _ p (sum_centred hn _) hp _ hR
  have hbest : ∀ t, objectError images p R' (estimateTranslation (lines images) R' p (divide (factor images)⁻¹ n)) ≤ objectError images p R' t := by
    intro t
    rw [translation_split hn images hdet R' p hp t]
    have := Finset.sum_nonneg (s := Finset.univ) fun (i : Fin n) _ => lineDistSq_nonneg (sight (images i))
      (t - estimateTranslation (lines images) R' p (divide (factor images)⁻¹ n))
    linarith
  rw [objectSpaceError_eq]
  refine ⟨hrot, fun _ => rfl, rfl, hbest, rfl, fun S t hS hq => ?_⟩
  set c := calculateCentroid (fun i => lines images i *ᵥ q i) with hc
  refine (hbest c).trans ?_
  have h1 : objectError images p R' c ≤ ∑ i, lenSq (lines images i *ᵥ q i - c - R' *ᵥ p i) := by
    unfold objectError
    refine Finset.sum_le_sum fun i _ => ?_
    have hd := lenSq_sight_pos (images i)
    have e1 : across (sight (images i)) (R' *ᵥ p i + c) = across (sight (images i)) (R' *ᵥ p i + c - lines images i *ᵥ q i) := by
      rw [across_sub, across_los _ hd, sub_zero]
    rw [← lenSq_across _ hd, e1]
    refine (lenSq_across_le _ hd _).trans (le_of_eq ?_)
    simp only [lenSq, Pi.sub_apply, Pi.add_apply]
    ring
  refine h1.trans ((hopt S hS).trans ?_)
  have h2 : c = (n : ℝ)⁻¹ • ∑ j, (lines images j *ᵥ q j - S *ᵥ p j) := by
    rw [hc, calculateCentroid_eq, Finset.sum_sub_distrib, ← Matrix.mulVec_sum S Finset.univ p, hp, Matrix.mulVec_zero, sub_zero]
  have h3 := shift_best hn (fun j => lines images j *ᵥ q j - S *ᵥ p j) t
  rw [← h2] at h3
  refine le_trans (le_of_eq ?_) (h3.trans (le_of_eq ?_))
  · refine Finset.sum_congr rfl fun i _ => ?_
    change lenSq (lines images i *ᵥ q i - c - S *ᵥ p i) = _
    congr 1
    abel
  · unfold objectError
    refine Finset.sum_congr rfl fun i _ => ?_
    rw [← lenSq_across _ (lenSq_sight_pos _), ← hq i]
    unfold across
    rw [show lines images i *ᵥ q i - S *ᵥ p i - t = -(q i - lines images i *ᵥ q i) by rw [hq i]; abel]
    simp only [lenSq, Pi.neg_apply]
    ring

/-! ### The loop -/

theorem pose_rotation (R : Mat ℝ 3 3) (hR : IsRotation R) :
    UnitQ (ofMatrix R).normalize ∧ ∀ v, (ofMatrix R).normalize.rotate v = R *ᵥ v := by
  obtain ⟨q, hq, rfl⟩ := exists_unit_of_rotation R hR.1 hR.2
  obtain ⟨h1, -, h3⟩ := C04_every_rotation_matrix (toMatrix q) hR.1 hR.2
  rw [Quat.normalize_unit h1]
  exact ⟨h1, h3⟩

/-- The error of a pose. -/
noncomputable def poseError (images : Fin n → Vec ℝ 2) (points : Fin n → Vec ℝ 3) (p : Pose ℝ) : ℝ :=
  ∑ i, lineDistSq (sight (images i)) (p.apply (points i))

theorem objectError_shift (images : Fin n → Vec ℝ 2) (points : Fin n → Vec ℝ 3) (c : Vec ℝ 3) (R : Mat ℝ 3 3) (t : Vec ℝ 3) :
    objectError images points R (t - R *ᵥ c) = objectError images (fun i => points i - c) R t := by
  unfold objectError
  refine Finset.sum_congr rfl fun i _ => ?_
  rw [Matrix.mulVec_sub]
  congr 1
  abel

/-- What holds of the points and the error between passes. -/
def Moved (images : Fin n → Vec ℝ 2) (p q : Fin n → Vec ℝ 3) (e : ℝ) : Prop :=
  ∃ S t, IsRotation S ∧ (∀ i, q i = S *ᵥ p i + t) ∧ e = objectError images p S t

theorem pass_moved (hs : SymmetricEigensolver syev) (hn : n ≠ 0) (images : Fin n → Vec ℝ 2) (hdet : (factor images).det ≠ 0)
    (p q q' : Fin n → Vec ℝ 3) (hp : ∑ i, p i = 0) (R : Mat ℝ 3 3) (T : Vec ℝ 3) (e e' : ℝ)
    (h : pass syev (lines images) (divide (factor images)⁻¹ n) p q = some (R, T, q', e')) :
    Moved images p q' e' ∧ (Moved images p q e → e' ≤ e) := by
  obtain ⟨h1, h2, h3, -, -, h4⟩ := pass_spec hs hn images hdet p q q' hp R T e' h
  refine ⟨⟨R, T, h1, h2, h3⟩, ?_⟩
  rintro ⟨S, t, hS, hq, rfl⟩
  exact h4 S t hS hq

section
variable (images : Fin n → Vec ℝ 2) (p : Fin n → Vec ℝ 3) (center : Vec ℝ 3) (p0 : Pose ℝ)

theorem loop_le (hs : SymmetricEigensolver syev) (hn : n ≠ 0) (hdet : (factor images).det ≠ 0) (hp : ∑ i, p i = 0) (tol : ℝ) :
    ∀ (k it : ℕ) (e : ℝ) (q : Fin n → Vec ℝ 3), Moved images p q e →
      (loop syev (lines images) (divide (factor images)⁻¹ n) p center tol p0 k it e q).error ≤ e := by
  intro k
  induction k with
  | zero => intro it e q _; exact le_rfl
  | succ k ih =>
    intro it e q hq
    unfold loop
    split
    · exact le_rfl
    · rename_i R T q' e' hpass
      obtain ⟨h1, h2⟩ := pass_moved hs hn images hdet p q q' hp R T e e' hpass
      split_ifs
      · exact h2 hq
      · exact (ih _ _ _ h1).trans (h2 hq)

theorem loop_anti (hs : SymmetricEigensolver syev) (hn : n ≠ 0) (hdet : (factor images).det ≠ 0) (hp : ∑ i, p i = 0)
    (tol tol' : ℝ) (htol : tol' ≤ tol) :
    ∀ (k k' it : ℕ) (e : ℝ) (q : Fin n → Vec ℝ 3), k ≤ k' → (0 < k ∨ Moved images p q e) →
      (loop syev (lines images) (divide (factor images)⁻¹ n) p center tol' p0 k' it e q).error ≤
      (loop syev (lines images) (divide (factor images)⁻¹ n) p center tol p0 k it e q).error := by
  intro k
  induction k with
  | zero =>
    intro k' it e q _ h
    rcases h with h | h
    · exact absurd h (lt_irrefl 0)
    · exact loop_le images p center p0 hs hn hdet hp tol' k' it e q h
  | succ k ih =>
    intro k' it e q hk _
    obtain ⟨k', rfl⟩ : ∃ m, k' = m + 1 := ⟨k' - 1, by omega⟩
    unfold loop
    split
    · exact le_rfl
    · rename_i R T q' e' hpass
      obtain ⟨h1, -⟩ := pass_moved hs hn images hdet p q q' hp R T e e' hpass
      by_cases ht' : |e - e'| ≤ tol'
      · rw [if_pos ht', if_pos (ht'.trans htol)]
      · rw [if_neg ht']
        split_ifs with ht
        · exact loop_le images p center p0 hs hn hdet hp tol' k' _ _ _ h1
        · exact ih k' _ _ _ (by omega) (Or.inr h1)

theorem loop_converged (hs : SymmetricEigensolver syev) (hn : n ≠ 0) (hdet : (factor images).det ≠ 0) (hp : ∑ i, p i = 0) (tol : ℝ) :
    ∀ (k it : ℕ) (e : ℝ) (q : Fin n → Vec ℝ 3),
      let r := loop syev (lines images) (divide (factor images)⁻¹ n) p center tol p0 k it e q
      it ≤ r.iterations ∧ r.iterations ≤ it + k ∧ (r.converged = false → r.pose = p0) ∧ (r.converged = true → r.iterations < it + k ∧
        UnitQ r.pose.rotation ∧ ∃ R T, IsRotation R ∧ (∀ v, r.pose.rotation.rotate v = R *ᵥ v) ∧ r.pose.translation = T - R *ᵥ center ∧
          r.error = objectError images p R T ∧ ∀ t, r.error ≤ objectError images p R t) := by
  intro k
  induction k with
  | zero => intro it e q; exact ⟨le_rfl, le_rfl, fun _ => rfl, fun h => by simp [loop] at h⟩
  | succ k ih =>
    intro it e q
    unfold loop
    dsimp only
    split
    · exact ⟨le_rfl, by simp, fun _ => rfl, fun h => by simp at h⟩
    · rename_i R T q' e' hpass
      split_ifs
      · refine ⟨le_rfl, by simp, fun h => by simp at h, fun _ => ⟨by simp, ?_⟩⟩
        obtain ⟨h1, h2, h3, h4, -, -⟩ := pass_spec hs hn images hdet p q q' hp R T e' hpass
        obtain ⟨h5, h6⟩ := pose_rotation R h1
        exact ⟨h5, R, T, h1, h6, rfl, h3, h4⟩
      · obtain ⟨h1, h2, h3, h4⟩ := ih (it + 1) e' q'
        refine ⟨by omega, by omega, h3, fun h => ?_⟩
        obtain ⟨h5, h6⟩ := h4 h
        exact ⟨by omega, h6⟩

/-- Passes that do not end the loop each lower the error by more than the tolerance. -/
theorem loop_enough (hs : SymmetricEigensolver syev) (hn : n ≠ 0) (hdet : (factor images).det ≠ 0) (hp : ∑ i, p i = 0) (tol : ℝ) :
    ∀ (k it : ℕ) (e : ℝ) (q : Fin n → Vec ℝ 3), Moved images p q e → e < k * tol →
      (loop syev (lines images) (divide (factor images)⁻¹ n) p center tol p0 k it e q).iterations < it + k := by
  intro k
  induction k with
  | zero =>
    intro it e q hq he
    obtain ⟨S, t, -, -, rfl⟩ := hq
    have := objectError_nonneg images p S t
    simp at he
    linarith
  | succ k ih =>
    intro it e q hq he
    unfold loop
    split
    · simp
    · rename_i R T q' e' hpass
      obtain ⟨h1, h2⟩ := pass_moved hs hn images hdet p q q' hp R T e e' hpass
      split_ifs with hc
      · simp
      · have h3 := h2 hq
        rw [abs_of_nonneg (by linarith), not_le] at hc
        have := ih (it + 1) e' q' h1 (by push_cast at he; nlinarith)
        omega

end

/-! ### The function -/

theorem estimatePose_eq (maxValue : ℝ) (images : Fin n → Vec ℝ 2) (p0 : Pose ℝ) (points : Fin n → Vec ℝ 3) (max_iter : ℕ) (tol : ℝ)
    (hn : n ≠ 0) (hdet : (factor images).det ≠ 0) :
    estimatePose syev maxValue images p0 points max_iter tol = some (loop syev (lines images) (divide (factor images)⁻¹ n)
      (shiftToCenter points).1 (shiftToCenter points).2 tol p0 max_iter 0 maxValue fun i => sight (images i)) := by
  classical
  unfold estimatePose
  dsimp only
  rw [if_neg hn]
  change (match calculateTFactorMatrix (lines images) with
    | none => none
    | some TfactorMatrix => some (loop syev (lines images) TfactorMatrix
      (shiftToCenter points).1 (shiftToCenter points).2 tol p0 max_iter 0 maxValue fun i => sight (images i))) = _
  rw [tFactor_eq, if_neg hdet]

theorem factor_singular (hn : n ≠ 0) (images : Fin n → Vec ℝ 2) : (factor images).det = 0 ↔ ∀ i j, images i = images j := by
  have i0 : Fin n := ⟨0, Nat.pos_of_ne_zero hn⟩
  have hn' : (n : ℝ) ≠ 0 := Nat.cast_ne_zero.mpr hn
  rw [← Matrix.exists_mulVec_eq_zero_iff]
  constructor
  · rintro ⟨x, hx0, hx⟩ i j
    have h := factor_mulVec hn images x
    rw [hx, smul_zero] at h
    have h2 : ∑ i, lenSq (across (sight (images i)) x) = 0 := by
      have : ∀ i, lenSq (across (sight (images i)) x) = across (sight (images i)) x ⬝ᵥ x := by
        intro i
        rw [lenSq_eq_dot, across_dot _ (lenSq_sight_pos _)]
      simp only [this]
      rw [← sum_dotProduct, ← h, zero_dotProduct]
    rw [Finset.sum_eq_zero_iff_of_nonneg fun i _ => lenSq_nonneg _] at h2
    have h3 : ∀ i, x = (sight (images i) ⬝ᵥ x / lenSq (sight (images i))) • sight (images i) := by
      intro i
      have := eq_zero_of_lenSq _ (h2 i (Finset.mem_univ i))
      unfold across at this
      rw [los_mulVec] at this
      exact sub_eq_zero.mp this
    have h4 : ∀ i, x 2 ≠ 0 ∧ x 0 = x 2 * images i 0 ∧ x 1 = x 2 * images i 1 := by
      intro i
      have e0 := congrFun (h3 i) 0
      have e1 := congrFun (h3 i) 1
      have e2 := congrFun (h3 i) 2
      set c := sight (images i) ⬝ᵥ x / lenSq (sight (images i))
      simp [sight] at e0 e1 e2
      refine ⟨?_, by rw [e2]; exact e0, by rw [e2]; exact e1⟩
      intro h0
      apply hx0
      rw [← e2, h0] at e0 e1
      funext k
      fin_cases k
      · simpa using e0
      · simpa using e1
      · exact h0
    obtain ⟨a, b, c⟩ := h4 i
    obtain ⟨-, b', c'⟩ := h4 j
    funext k
    fin_cases k
    · exact mul_left_cancel₀ a (b.symm.trans b')
    · exact mul_left_cancel₀ a (c.symm.trans c')
  · intro h
    refine ⟨sight (images i0), ?_, ?_⟩
    · intro h0
      have := lenSq_sight_pos (images i0)
      rw [h0] at this
      simp [lenSq] at this
    · have h1 := factor_mulVec hn images (sight (images i0))
      have h2 : ∀ i, across (sight (images i)) (sight (images i0)) = 0 := by
        intro i
        rw [h i i0]
        unfold across
        rw [los_mulVec, ← lenSq_eq_dot, div_self (lenSq_sight_pos _).ne', one_smul, sub_self]
      simp only [h2, Finset.sum_const_zero] at h1
      exact (smul_eq_zero.mp h1).resolve_left hn'

/-- **C81** The computation is defined exactly if the images do not all coincide. -/
theorem C81_defined (maxValue : ℝ) (images : Fin n → Vec ℝ 2) (p0 : Pose ℝ) (points : Fin n → Vec ℝ 3) (max_iter : ℕ) (tol : ℝ) :
    estimatePose syev maxValue images p0 points max_iter tol ≠ none ↔ ∃ i j, images i ≠ images j := by
  classical
  by_cases hn : n = 0
  · subst hn
    simp [estimatePose]
  by_cases hdet : (factor images).det = 0
  · have h := (factor_singular hn images).mp hdet
    constructor
    · intro h'
      exfalso
      apply h'
      unfold estimatePose
      dsimp only
      rw [if_neg hn]
      change (match calculateTFactorMatrix (lines images) with
        | none => none
        | some TfactorMatrix => some (loop syev (lines images) TfactorMatrix
          (shiftToCenter points).1 (shiftToCenter points).2 tol p0 max_iter 0 maxValue fun i => sight (images i))) = _
      rw [tFactor_eq, if_pos hdet]
    · rintro ⟨i, j, hij⟩
      exact absurd (h i j) hij
  · rw [estimatePose_eq maxValue images p0 points max_iter tol hn hdet]
    refine ⟨fun _ => ?_, fun _ => by simp⟩
    by_contra hcon
    push Not at hcon
    exact hdet ((factor_singular hn images).mpr hcon)

theorem run_cases (maxValue : ℝ) (images : Fin n → Vec ℝ 2) (p0 : Pose ℝ) (points : Fin n → Vec ℝ 3) (max_iter : ℕ) (tol : ℝ) (r : Result)
    (h : estimatePose syev maxValue images p0 points max_iter tol = some r) : n ≠ 0 ∧ (factor images).det ≠ 0 := by
  have h1 : ∃ i j, images i ≠ images j := (C81_defined (syev := syev) maxValue images p0 points max_iter tol).mp (by rw [h]; simp)
  obtain ⟨i, j, hij⟩ := h1
  have hn : n ≠ 0 := fun h0 => by subst h0; exact i.elim0
  exact ⟨hn, fun h0 => hij ((factor_singular hn images).mp h0 i j)⟩

theorem poseError_eq (images : Fin n → Vec ℝ 2) (points : Fin n → Vec ℝ 3) (p : Pose ℝ) (R : Mat ℝ 3 3) (t : Vec ℝ 3)
    (hR : ∀ v, p.rotation.rotate v = R *ᵥ v) (ht : p.translation = t) : poseError images points p = objectError images points R t := by
  unfold poseError objectError
  refine Finset.sum_congr rfl fun i _ => ?_
  rw [Pose.apply, hR, ht]

/-- **C81** A pose that is reported as converged is a rigid motion, the error reported is the sum of the squared distances of the moved
points from the lines of sight of their images, no other translation has a smaller one with this rotation, and fewer passes than allowed
were needed. Otherwise the pose is left as it was. -/
theorem C81_result (hs : SymmetricEigensolver syev) (maxValue : ℝ) (images : Fin n → Vec ℝ 2) (p0 : Pose ℝ) (points : Fin n → Vec ℝ 3)
    (max_iter : ℕ) (tol : ℝ) (r : Result) (h : estimatePose syev maxValue images p0 points max_iter tol = some r) :
    (r.converged = true → UnitQ r.pose.rotation ∧ r.error = poseError images points r.pose ∧
      (∀ t, poseError images points r.pose ≤ poseError images points ⟨r.pose.rotation, t⟩) ∧ r.iterations < max_iter) ∧
    (r.converged = false → r.pose = p0) ∧ r.iterations ≤ max_iter := by
  obtain ⟨hn, hdet⟩ := run_cases maxValue images p0 points max_iter tol r h
  rw [estimatePose_eq maxValue images p0 points max_iter tol hn hdet, Option.some.injEq] at h
  obtain ⟨-, h2, h3, h4⟩ := loop_converged images (shiftToCenter points).1 (shiftToCenter points).2 p0 hs hn hdet (sum_centred hn points) tol
    max_iter 0 maxValue fun i => sight (images i)
  rw [h] at h2 h3 h4
  refine ⟨fun hc => ?_, h3, by omega⟩
  obtain ⟨h5, h6, R, T, h7, h8, h9, h10, h11⟩ := h4 hc
  have e : r.error = poseError images points r.pose := by
    rw [h10, poseError_eq images points r.pose R _ h8 h9, objectError_shift]
    rfl
  refine ⟨h6, e, fun t => ?_, by omega⟩
  rw [← e, poseError_eq images points ⟨r.pose.rotation, t⟩ R t h8 rfl]
  have := h11 (t + R *ᵥ (shiftToCenter points).2)
  have e2 := objectError_shift images points (shiftToCenter points).2 R (t + R *ᵥ (shiftToCenter points).2)
  rw [add_sub_cancel_right] at e2
  rw [e2]
  exact this

/-- **C81** More passes or a smaller tolerance never give a larger error. -/
theorem C81_decreasing (hs : SymmetricEigensolver syev) (maxValue : ℝ) (images : Fin n → Vec ℝ 2) (p0 : Pose ℝ) (points : Fin n → Vec ℝ 3)
    (max_iter max_iter' : ℕ) (tol tol' : ℝ) (hpos : 0 < max_iter) (hm : max_iter ≤ max_iter') (ht : tol' ≤ tol) (r r' : Result)
    (h : estimatePose syev maxValue images p0 points max_iter tol = some r)
    (h' : estimatePose syev maxValue images p0 points max_iter' tol' = some r') : r'.error ≤ r.error := by
  obtain ⟨hn, hdet⟩ := run_cases maxValue images p0 points max_iter tol r h
  rw [estimatePose_eq _ images p0 points _ _ hn hdet, Option.some.injEq] at h h'
  rw [← h, ← h']
  exact loop_anti images _ _ p0 hs hn hdet (sum_centred hn points) tol tol' ht max_iter max_iter' 0 maxValue _ hm (Or.inl hpos)

theorem rotation_lenSq (R : Mat ℝ 3 3) (hR : IsRotation R) (v : Vec ℝ 3) : lenSq (R *ᵥ v) = lenSq v := by
  rw [lenSq_eq_dot, lenSq_eq_dot, Matrix.dotProduct_mulVec, Matrix.vecMul_mulVec, hR.1, Matrix.vecMul_one]

/-- **C81** Enough passes: for a positive tolerance the loop ends by itself within `1 + s / tol` passes, where `s` is the sum of the
squared distances of the points from their centroid. Then it has converged, or no rotation was found. -/
theorem C81_enough (hs : SymmetricEigensolver syev) (maxValue : ℝ) (images : Fin n → Vec ℝ 2) (p0 : Pose ℝ) (points : Fin n → Vec ℝ 3)
    (max_iter : ℕ) (tol : ℝ) (htol : 0 < tol)
    (hm : 1 + (∑ i, lenSq (points i - (n : ℝ)⁻¹ • ∑ j, points j)) / tol < max_iter) (r : Result)
    (h : estimatePose syev maxValue images p0 points max_iter tol = some r) : r.iterations < max_iter := by
  obtain ⟨hn, hdet⟩ := run_cases maxValue images p0 points max_iter tol r h
  rw [estimatePose_eq _ images p0 points _ _ hn hdet, Option.some.injEq] at h
  rw [← h]
  have hs0 : 0 ≤ ∑ i, lenSq (points i - (n : ℝ)⁻¹ • ∑ j, points j) := Finset.sum_nonneg fun _ _ => lenSq_nonneg _
  obtain ⟨k, rfl⟩ : ∃ k, max_iter = k + 1 := by
    rcases max_iter with _ | k
    · exfalso
      have := div_nonneg hs0 htol.le
      simp at hm
      linarith
    · exact ⟨k, rfl⟩
  unfold loop
  split
  · simp
  · rename_i R T q' e' hpass
    split_ifs
    · simp
    · obtain ⟨h1, -⟩ := pass_moved hs hn images hdet _ _ q' (sum_centred hn points) R T e' e' hpass
      have hb := pass_spec hs hn images hdet _ _ q' (sum_centred hn points) R T e' hpass
      have he : e' ≤ ∑ i, lenSq (points i - (n : ℝ)⁻¹ • ∑ j, points j) := by
        refine (hb.2.2.2.1 0).trans ?_
        unfold objectError
        refine Finset.sum_le_sum fun i _ => ?_
        rw [← lenSq_across _ (lenSq_sight_pos _)]
        refine (lenSq_across_le _ (lenSq_sight_pos _) _).trans (le_of_eq ?_)
        rw [add_zero, rotation_lenSq R hb.1]
        simp only [shiftToCenter, calculateCentroid_eq]
      have := loop_enough images (shiftToCenter points).1 (shiftToCenter points).2 p0 hs hn hdet (sum_centred hn points) tol k (0 + 1) e'
        q' h1 (by
          push_cast at hm
          have : (∑ i, lenSq (points i - (n : ℝ)⁻¹ • ∑ j, points j)) / tol < k := by linarith
          rw [div_lt_iff₀ htol] at this
          linarith)
      omega

/-- **C81** Error zero: every point is on the line of sight of its image, so unless it is in the plane of the camera its image is the one
given. -/
theorem C81_zero (hs : SymmetricEigensolver syev) (maxValue : ℝ) (images : Fin n → Vec ℝ 2) (p0 : Pose ℝ) (points : Fin n → Vec ℝ 3)
    (max_iter : ℕ) (tol : ℝ) (r : Result) (h : estimatePose syev maxValue images p0 points max_iter tol = some r)
    (hc : r.converged = true) (h0 : r.error = 0) (i : Fin n) (hz : r.pose.apply (points i) 2 ≠ 0) :
    r.pose.apply (points i) 0 / r.pose.apply (points i) 2 = images i 0 ∧ r.pose.apply (points i) 1 / r.pose.apply (points i) 2 = images i 1 := by
  obtain ⟨-, he, -⟩ := (C81_result hs maxValue images p0 points max_iter tol r h).1 hc
  rw [h0] at he
  unfold poseError at he
  have h1 := (Finset.sum_eq_zero_iff_of_nonneg fun i _ => lineDistSq_nonneg _ _).mp he.symm i (Finset.mem_univ i)
  unfold lineDistSq at h1
  rw [div_eq_zero_iff, or_iff_left (lenSq_sight_pos _).ne'] at h1
  have h2 := eq_zero_of_lenSq _ h1
  have e0 := congrFun h2 0
  have e1 := congrFun h2 1
  simp [cross_apply, sight] at e0 e1
  rw [div_eq_iff hz, div_eq_iff hz]
  constructor <;> linarith

/-! ### Points at the same depth -/

theorem rotation_found (hs : SymmetricEigensolver syev) (hc : SymmetricConvergent syev) (hn : n ≠ 0) (l r : Fin n → Vec ℝ 3)
    (hl : ∑ i, l i = 0) (hr : ∑ i, r i = 0) (R : Mat ℝ 3 3) (h : ∑ i, l i ⬝ᵥ (R *ᵥ r i) ≠ 0) :
    ∃ S, estimateRotationMatrix syev (List.ofFn l) (List.ofFn r) = some S := by
  rw [← Option.ne_none_iff_exists']
  intro h0
  apply h
  unfold estimateRotationMatrix at h0
  rw [Option.map_eq_none_iff] at h0
  unfold estimateRotation at h0
  dsimp only at h0
  rw [centroid_eq, show (List.ofFn l).length = (List.ofFn r).length by simp, centroid_eq, mean_centred hn l hl, mean_centred hn r hr,
    estimateRotationAt_none hs hc, crossSum_eq, zip_ofFn, List.map_ofFn, List.sum_ofFn] at h0
  have h1 : ∀ a b, ∑ i, r i a * l i b = 0 := by
    intro a b
    have := congrFun (congrFun h0 a) b
    rw [Matrix.sum_apply] at this
    simpa using this
  have h2 : ∀ i, l i ⬝ᵥ (R *ᵥ r i) = ∑ b, ∑ a, R b a * (r i a * l i b) := by
    intro i
    simp only [dotProduct, Matrix.mulVec, Finset.mul_sum]
    refine Finset.sum_congr rfl fun b _ => Finset.sum_congr rfl fun a _ => ?_
    ring
  simp only [h2]
  rw [Finset.sum_comm]
  refine Finset.sum_eq_zero fun b _ => ?_
  rw [Finset.sum_comm]
  refine Finset.sum_eq_zero fun a _ => ?_
  rw [← Finset.mul_sum, h1, mul_zero]

theorem lenSq_smul (k : ℝ) (v : Vec ℝ 3) : lenSq (k • v) = k ^ 2 * lenSq v := by
  simp only [lenSq, Pi.smul_apply, smul_eq_mul]
  ring

theorem lenSq_sub (x y : Vec ℝ 3) : lenSq (x - y) = lenSq x + lenSq y - 2 * (x ⬝ᵥ y) := by
  simp only [lenSq, dotProduct, Fin.sum_univ_three, Pi.sub_apply]
  ring

/-- A pass over points at the same depth `s`, starting from multiples of the directions of sight. -/
theorem pass_frontal (hs : SymmetricEigensolver syev) (hc : SymmetricConvergent syev) (hn : n ≠ 0) (images : Fin n → Vec ℝ 2)
    (hdet : (factor images).det ≠ 0) (p : Fin n → Vec ℝ 3) (hp : ∑ i, p i = 0) (R0 : Mat ℝ 3 3) (hR0 : IsRotation R0) (t1 : Vec ℝ 3)
    (s k : ℝ) (hs0 : 0 < s) (hk : 0 < k) (hfront : ∀ i, R0 *ᵥ p i + t1 = s • sight (images i)) :
    ∃ R, IsRotation R ∧ (∀ i, R *ᵥ p i = R0 *ᵥ p i) ∧
      pass syev (lines images) (divide (factor images)⁻¹ n) p (fun i => k • sight (images i)) = some (R, t1, fun i => s • sight (images i), 0) := by
  have hn' : (n : ℝ) ≠ 0 := Nat.cast_ne_zero.mpr hn
  have hsight : ∀ i, sight (images i) = s⁻¹ • (R0 *ᵥ p i + t1) := by
    intro i
    rw [hfront, smul_smul, inv_mul_cancel₀ hs0.ne', one_smul]
  have hlos : ∀ i, lines images i *ᵥ (k • sight (images i)) = k • sight (images i) := by
    intro i
    rw [los_mulVec, dotProduct_smul, ← lenSq_eq_dot, smul_eq_mul, mul_div_assoc, div_self (lenSq_sight_pos _).ne', mul_one]
  have hsumR : ∑ i, R0 *ᵥ p i = 0 := by rw [← Matrix.mulVec_sum, hp, Matrix.mulVec_zero]
  have hleft : (shiftToCenter fun i => lines images i *ᵥ (k • sight (images i))).1 = fun i => (k / s) • (R0 *ᵥ p i) := by
    funext i
    simp only [shiftToCenter, hlos, calculateCentroid_eq]
    simp only [hsight, smul_smul]
    rw [← Finset.smul_sum, Finset.sum_add_distrib, hsumR, zero_add]
    simp only [Finset.sum_const, Finset.card_univ, Fintype.card_fin, ← Nat.cast_smul_eq_nsmul ℝ, smul_smul]
    rw [smul_add, show (n : ℝ)⁻¹ * (k * s⁻¹ * n) = k * s⁻¹ by field_simp, add_sub_cancel_right, div_eq_mul_inv]
  have hμ : 0 < k / s := div_pos hk hs0
  have hspread : 0 < ∑ i, lenSq (p i) := by
    rcases (Finset.sum_nonneg (s := Finset.univ) fun (i : Fin n) _ => lenSq_nonneg (p i)).lt_or_eq with h | h
    · exact h
    · exfalso
      apply hdet
      rw [factor_singular hn]
      intro i j
      have h1 := (Finset.sum_eq_zero_iff_of_nonneg fun i _ => lenSq_nonneg (p i)).mp h.symm
      have h2 : sight (images i) = sight (images j) := by
        rw [hsight, hsight, eq_zero_of_lenSq _ (h1 i (Finset.mem_univ i)), eq_zero_of_lenSq _ (h1 j (Finset.mem_univ j))]
      funext c
      fin_cases c
      · exact congrFun h2 0
      · exact congrFun h2 1
  have hcorr : ∀ i, ((k / s) • (R0 *ᵥ p i)) ⬝ᵥ (R0 *ᵥ p i) = k / s * lenSq (p i) := by
    intro i
    rw [smul_dotProduct, ← lenSq_eq_dot, rotation_lenSq R0 hR0, smul_eq_mul]
  have hl0 : ∑ i, (k / s) • (R0 *ᵥ p i) = 0 := by rw [← Finset.smul_sum, hsumR, smul_zero]
  obtain ⟨R, hR⟩ := rotation_found hs hc hn (fun i => (k / s) • (R0 *ᵥ p i)) p hl0 hp R0 (by
    simp only [hcorr]
    rw [← Finset.mul_sum]
    exact (mul_pos hμ hspread).ne')
  obtain ⟨hrot, hopt⟩ := rotation_spec hs hn _ p hl0 hp R hR
  have hsame : ∀ i, R *ᵥ p i = R0 *ᵥ p i := by
    have h1 := hopt R0 hR0
    simp only [lenSq_sub, rotation_lenSq R hrot, rotation_lenSq R0 hR0, Finset.sum_sub_distrib, smul_dotProduct, smul_eq_mul,
      ← Finset.mul_sum] at h1
    have h2 : ∑ i, (R0 *ᵥ p i) ⬝ᵥ (R0 *ᵥ p i) ≤ ∑ i, (R0 *ᵥ p i) ⬝ᵥ (R *ᵥ p i) := by nlinarith
    have h3 : ∑ i, lenSq (R *ᵥ p i - R0 *ᵥ p i) ≤ 0 := by
      simp only [lenSq_sub, rotation_lenSq R hrot, rotation_lenSq R0 hR0, Finset.sum_sub_distrib, Finset.sum_add_distrib, ← Finset.mul_sum]
      simp only [← lenSq_eq_dot, rotation_lenSq R0 hR0] at h2
      have h4 : ∑ i, (R *ᵥ p i) ⬝ᵥ (R0 *ᵥ p i) = ∑ i, (R0 *ᵥ p i) ⬝ᵥ (R *ᵥ p i) :=
        Finset.sum_congr rfl fun i _ => dotProduct_comm _ _
      linarith
    intro i
    have h5 := (Finset.sum_eq_zero_iff_of_nonneg fun i _ => lenSq_nonneg (R *ᵥ p i - R0 *ᵥ p i)).mp
      (le_antisymm h3 (Finset.sum_nonneg fun i _ => lenSq_nonneg _)) i (Finset.mem_univ i)
    exact sub_eq_zero.mp (eq_zero_of_lenSq _ h5)
  have hzero : objectError images p R t1 = 0 := by
    unfold objectError
    refine Finset.sum_eq_zero fun i _ => ?_
    rw [hsame, hfront]
    simp [lineDistSq, lenSq]
  have hT : estimateTranslation (lines images) R p (divide (factor images)⁻¹ n) = t1 := by
    have h1 := translation_split hn images hdet R p hp t1
    rw [hzero] at h1
    have h2 := objectError_nonneg images p R (estimateTranslation (lines images) R p (divide (factor images)⁻¹ n))
    have h3 := Finset.sum_nonneg (s := Finset.univ) fun (i : Fin n) _ => lineDistSq_nonneg (sight (images i))
      (t1 - estimateTranslation (lines images) R p (divide (factor images)⁻¹ n))
    have h4 := (Finset.sum_eq_zero_iff_of_nonneg fun i _ => lineDistSq_nonneg _ _).mp (le_antisymm (by linarith) h3)
    have h5 : factor images *ᵥ (t1 - estimateTranslation (lines images) R p (divide (factor images)⁻¹ n)) = 0 := by
      have h6 := factor_mulVec hn images (t1 - estimateTranslation (lines images) R p (divide (factor images)⁻¹ n))
      rw [Finset.sum_eq_zero] at h6
      · exact (smul_eq_zero.mp h6).resolve_left hn'
      · intro i hi
        apply eq_zero_of_lenSq
        rw [lenSq_across _ (lenSq_sight_pos _)]
        exact h4 i hi
    have h7 := Matrix.eq_zero_of_mulVec_eq_zero hdet h5
    exact (sub_eq_zero.mp h7).symm
  refine ⟨R, hrot, hsame, ?_⟩
  unfold pass
  dsimp only
  rw [hleft, hR]
  simp only [hT, objectSpaceError_eq, hsame, hfront]
  have : ∑ i, lineDistSq (sight (images i)) (s • sight (images i)) = 0 :=
    Finset.sum_eq_zero fun i _ => by simp [lineDistSq, lenSq]
  rw [this]

/-- **C81** Exact images of points that are all at the same depth in front of the camera: two passes find a pose that moves every point
to where it is, with error zero. -/
theorem C81_frontal (hs : SymmetricEigensolver syev) (hc : SymmetricConvergent syev) (maxValue : ℝ) (images : Fin n → Vec ℝ 2) (p0 : Pose ℝ)
    (points : Fin n → Vec ℝ 3) (max_iter : ℕ) (hm : 2 ≤ max_iter) (tol : ℝ) (htol : 0 ≤ tol) (hdiff : ∃ i j, images i ≠ images j)
    (R0 : Mat ℝ 3 3) (hR0 : IsRotation R0) (t0 : Vec ℝ 3) (s : ℝ) (hs0 : 0 < s)
    (hfront : ∀ i, R0 *ᵥ points i + t0 = s • sight (images i)) :
    ∃ r, estimatePose syev maxValue images p0 points max_iter tol = some r ∧ r.converged = true ∧ r.error = 0 ∧
      ∀ i, r.pose.apply (points i) = R0 *ᵥ points i + t0 := by
  obtain ⟨r, hr⟩ := Option.ne_none_iff_exists'.mp
    ((C81_defined (syev := syev) maxValue images p0 points max_iter tol).mpr hdiff)
  obtain ⟨hn, hdet⟩ := run_cases maxValue images p0 points max_iter tol r hr
  refine ⟨r, hr, ?_⟩
  rw [estimatePose_eq maxValue images p0 points max_iter tol hn hdet, Option.some.injEq] at hr
  have hfr : ∀ i, R0 *ᵥ (shiftToCenter points).1 i + (R0 *ᵥ (shiftToCenter points).2 + t0) = s • sight (images i) := by
    intro i
    rw [← hfront i]
    simp only [shiftToCenter, Matrix.mulVec_sub]
    abel
  have hpass := fun (k : ℝ) (hk : 0 < k) => pass_frontal hs hc hn images hdet (shiftToCenter points).1 (sum_centred hn points) R0 hR0
    (R0 *ᵥ (shiftToCenter points).2 + t0) s k hs0 hk hfr
  have happly : ∀ R, IsRotation R → (∀ i, R *ᵥ (shiftToCenter points).1 i = R0 *ᵥ (shiftToCenter points).1 i) → ∀ i,
      (⟨(ofMatrix R).normalize, R0 *ᵥ (shiftToCenter points).2 + t0 - R *ᵥ (shiftToCenter points).2⟩ : Pose ℝ).apply (points i) =
        R0 *ᵥ points i + t0 := by
    intro R hR hsame i
    have h1 := hsame i
    simp only [shiftToCenter, Matrix.mulVec_sub] at h1
    rw [Pose.apply, (pose_rotation R hR).2]
    have h2 : R *ᵥ points i = R0 *ᵥ points i - R0 *ᵥ calculateCentroid points + R *ᵥ calculateCentroid points := by rw [← h1]; abel
    rw [h2]
    simp only [shiftToCenter]
    abel
  obtain ⟨m, rfl⟩ : ∃ m, max_iter = m + 2 := ⟨max_iter - 2, by omega⟩
  obtain ⟨R1, hR1, hsame1, hp1⟩ := hpass 1 one_pos
  simp only [one_smul] at hp1
  rw [loop, hp1] at hr
  dsimp only at hr
  split_ifs at hr with h1
  · rw [← hr]
    exact ⟨rfl, rfl, happly R1 hR1 hsame1⟩
  · obtain ⟨R2, hR2, hsame2, hp2⟩ := hpass s hs0
    rw [loop, hp2] at hr
    dsimp only at hr
    rw [sub_zero, abs_zero, if_pos htol] at hr
    rw [← hr]
    exact ⟨rfl, rfl, happly R2 hR2 hsame2⟩

/-! ### Cases -/

/-- Four corners of a square seen from two in front of it, and the images. -/
noncomputable def corners : Fin 4 → Vec ℝ 3 := ![![1, 1, 0], ![-1, 1, 0], ![-1, -1, 0], ![1, -1, 0]]

noncomputable def cornerImages : Fin 4 → Vec ℝ 2 := ![![1 / 2, 1 / 2], ![-1 / 2, 1 / 2], ![-1 / 2, -1 / 2], ![1 / 2, -1 / 2]]

theorem corner_front (i : Fin 4) : (1 : Mat ℝ 3 3) *ᵥ corners i + ![0, 0, 2] = (2 : ℝ) • sight (cornerImages i) := by
  rw [Matrix.one_mulVec]
  funext k
  fin_cases i <;> fin_cases k <;> simp [corners, cornerImages, sight] <;> norm_num

theorem corner_images_differ : ∃ i j, cornerImages i ≠ cornerImages j := by
  refine ⟨0, 1, fun h => ?_⟩
  have := congrFun h 0
  simp [cornerImages] at this
  norm_num at this

example : ∃ (syev : Mat ℝ 4 4 → Option (Vec ℝ 4 × Mat ℝ 4 4)) (r : Result), SymmetricEigensolver syev ∧
    estimatePose syev (10 ^ 308) cornerImages ⟨⟨0, 0, 0, 1⟩, 0⟩ corners 100 (1 / 1000) = some r ∧ r.converged = true ∧ r.error = 0 ∧
      r.pose.apply (corners 0) = ![1, 1, 2] ∧ r.iterations < 100 := by
  obtain ⟨syev, hs, hc⟩ := exists_symmetricEigensolver 4
  obtain ⟨r, h1, h2, h3, h4⟩ := C81_frontal hs hc (10 ^ 308) cornerImages ⟨⟨0, 0, 0, 1⟩, 0⟩ corners 100 (by norm_num) (1 / 1000) (by norm_num)
    corner_images_differ 1 ⟨by simp, by simp⟩ ![0, 0, 2] 2 two_pos corner_front
  refine ⟨syev, r, hs, h1, h2, h3, ?_, ((C81_result hs _ _ _ _ _ _ r h1).1 h2).2.2.2⟩
  rw [h4, Matrix.one_mulVec]
  funext k
  fin_cases k <;> simp [corners]

/-- Other images of the corners: the hypotheses of the theorem on the number of passes, for a tolerance of one. -/
example (syev : Mat ℝ 4 4 → Option (Vec ℝ 4 × Mat ℝ 4 4)) (hs : SymmetricEigensolver syev) :
    ∃ r, estimatePose syev (10 ^ 308) ![![1, 0], ![0, 1], ![0, 0], ![2, 3]] ⟨⟨0, 0, 0, 1⟩, 0⟩ corners 10 1 = some r ∧ r.iterations < 10 := by
  obtain ⟨r, hr⟩ := Option.ne_none_iff_exists'.mp ((C81_defined (syev := syev) (10 ^ 308) ![![1, 0], ![0, 1], ![0, 0], ![2, 3]]
    ⟨⟨0, 0, 0, 1⟩, 0⟩ corners 10 1).mpr ⟨0, 1, fun h => by have := congrFun h 0; simp at this⟩)
  refine ⟨r, hr, C81_enough hs _ _ _ _ 10 1 one_pos ?_ r hr⟩
  have h0 : ∑ j, corners j = 0 := by
    funext k
    rw [Finset.sum_apply, Fin.sum_univ_four]
    fin_cases k <;> simp [corners]
  rw [h0]
  simp only [smul_zero, sub_zero, Fin.sum_univ_four, lenSq, corners]
  simp
  norm_num

end Ubitrack.ObjectSpacePose
