import Verif.Model.Average
import Verif.Spec.Rotation
import Verif.Spec.ErrorPose
import Verif.Props.RotationReal
import Verif.Props.Kalman
import Verif.Props.ErrorPose
import Mathlib.Algebra.Order.BigOperators.Group.List
import Mathlib.Analysis.Matrix.PosDef

/-!
# C26: averages; C27: correlation
-/

namespace Ubitrack.Average

open Spec Stochastic
open scoped Matrix

variable {n : ℕ}

/-- Specification: the arithmetic mean of a list of numbers. -/
noncomputable def mean (l : List ℝ) : ℝ := l.sum / l.length

theorem foldl_push (data : List (Vec ℝ n)) (a : Acc n) :
    data.foldl Acc.push a = ⟨a.counter + data.length, a.mean + data.sum⟩ := by
  induction data generalizing a with
  | nil => simp
  | cons x xs ih =>
    rw [List.foldl_cons, ih]
    simp only [Acc.push, List.length_cons, List.sum_cons, Acc.mk.injEq]
    exact ⟨by omega, by rw [add_assoc]⟩

theorem list_sum_apply (data : List (Vec ℝ n)) (i : Fin n) : data.sum i = (data.map (fun v => v i)).sum := by
  induction data with
  | nil => rfl
  | cons x xs ih => simp [ih]

/-- **C26** The average of vectors (and, with `n = 1`, of scalars) is the arithmetic mean in every coordinate. -/
theorem C26_vector_mean (data : List (Vec ℝ n)) (i : Fin n) : vectorAverage data i = mean (data.map (fun v => v i)) := by
  unfold vectorAverage mean
  rw [foldl_push]
  simp [Acc.quotient, Acc.init, list_sum_apply]

/-! ### Rotations -/

/-- The quaternion with non-negative real part that represents the same rotation. -/
noncomputable def align (q : Quat ℝ) : Quat ℝ := open Classical in if q.w ≥ 0 then q else q.neg

theorem align_same (q : Quat ℝ) : SameRotation (align q) q := by
  unfold align
  split_ifs
  · exact Or.inl rfl
  · exact Or.inr ⟨rfl, rfl, rfl, rfl⟩

theorem align_w (q : Quat ℝ) : 0 ≤ (align q).w := by
  unfold align
  split_ifs with h
  · exact h
  · rw [ge_iff_le, not_le] at h; simp [Quat.neg]; linarith

theorem align_neg (q : Quat ℝ) (h : q.w ≠ 0) : align q.neg = align q := by
  unfold align
  rcases lt_or_gt_of_ne h with hw | hw
  · rw [if_pos (by simp [Quat.neg]; linarith), if_neg (by linarith)]
  · rw [if_neg (by simp [Quat.neg]; linarith), if_pos (by linarith)]
    ext <;> simp [Quat.neg]

theorem foldl_pushQuat (data : List (Quat ℝ)) (a : Acc 4) :
    data.foldl pushQuat a = ⟨a.counter + data.length, a.mean + (data.map (fun q => (align q).toVector)).sum⟩ := by
  induction data generalizing a with
  | nil => simp
  | cons x xs ih =>
    rw [List.foldl_cons, ih]
    have : (if x.w ≥ 0 then x.toVector else (-1 : ℝ) • x.toVector) = (align x).toVector := by
      unfold align
      split_ifs
      · rfl
      · ext i; fin_cases i <;> simp [Quat.toVector, Quat.neg]
    simp only [pushQuat, List.length_cons, List.map_cons, List.sum_cons, Acc.mk.injEq]
    refine ⟨by omega, ?_⟩
    rw [← this, add_assoc]

/-- The unnormalised average. -/
noncomputable def rawMean (data : List (Quat ℝ)) : Quat ℝ :=
  ⟨mean (data.map fun q => (align q).x), mean (data.map fun q => (align q).y), mean (data.map fun q => (align q).z),
    mean (data.map fun q => (align q).w)⟩

/-- **C26** The average of rotations is the normalised arithmetic mean of the quaternions, each taken with non-negative real
part. -/
theorem C26_quat_mean (data : List (Quat ℝ)) : quatAverage data = (rawMean data).normalize := by
  unfold quatAverage
  rw [foldl_pushQuat]
  simp only [Acc.quotient, Acc.init, zero_add, rawMean, mean, list_sum_apply, List.map_map, List.length_map]
  rfl

theorem rawMean_w_pos (data : List (Quat ℝ)) (h : ∃ q ∈ data, q.w ≠ 0) : 0 < (rawMean data).w := by
  obtain ⟨q, hq, hw⟩ := h
  have hpos : 0 < (align q).w := by
    refine lt_of_le_of_ne (align_w q) (Ne.symm ?_)
    rcases align_same q with e | ⟨-, -, -, e⟩
    · rw [e]; exact hw
    · rw [e]; exact neg_ne_zero.mpr hw
  have hlen : 0 < data.length := List.length_pos_of_mem hq
  refine div_pos ?_ (by rw [List.length_map]; exact_mod_cast hlen)
  have : (align q).w ≤ (data.map fun q => (align q).w).sum :=
    List.single_le_sum (fun x hx => by
      obtain ⟨p, -, rfl⟩ := List.mem_map.mp hx
      exact align_w p) _ (List.mem_map.mpr ⟨q, hq, rfl⟩)
  linarith

/-- **C26** The average of rotations, at least one of which has a non-zero real part, is a unit quaternion. -/
theorem C26_quat_unit (data : List (Quat ℝ)) (h : ∃ q ∈ data, q.w ≠ 0) : UnitQ (quatAverage data) := by
  rw [C26_quat_mean]
  apply Quat.unit_normalize
  have := rawMean_w_pos data h
  unfold Quat.normSq
  nlinarith [mul_self_nonneg (rawMean data).x, mul_self_nonneg (rawMean data).y, mul_self_nonneg (rawMean data).z, mul_pos this this]

theorem mean_perm {l l' : List ℝ} (h : l.Perm l') : mean l = mean l' := by
  unfold mean; rw [h.sum_eq, h.length_eq]

/-- **C26** All averages are independent of the order of the data. -/
theorem C26_order (data data' : List (Vec ℝ n)) (h : data.Perm data') (qs qs' : List (Quat ℝ)) (hq : qs.Perm qs') :
    vectorAverage data = vectorAverage data' ∧ quatAverage qs = quatAverage qs' := by
  constructor
  · ext i
    rw [C26_vector_mean, C26_vector_mean, mean_perm (h.map _)]
  · rw [C26_quat_mean, C26_quat_mean]
    unfold rawMean
    rw [mean_perm (hq.map _), mean_perm (hq.map (fun q => (align q).y)), mean_perm (hq.map (fun q => (align q).z)),
      mean_perm (hq.map (fun q => (align q).w))]

/-- **C26** The average of rotations does not change when any of the quaternions with non-zero real part are negated. -/
theorem C26_quat_sign (qs qs' : List (Quat ℝ)) (h : List.Forall₂ (fun p q => p = q ∨ (p = q.neg ∧ q.w ≠ 0)) qs qs') :
    quatAverage qs = quatAverage qs' := by
  have key : qs.map align = qs'.map align := by
    induction h with
    | nil => rfl
    | cons h1 _ ih =>
      rw [List.map_cons, List.map_cons, ih]
      rcases h1 with rfl | ⟨rfl, hw⟩
      · rfl
      · rw [align_neg _ hw]
  have e : ∀ l : List (Quat ℝ), rawMean l = ⟨mean ((l.map align).map Quat.x), mean ((l.map align).map Quat.y),
      mean ((l.map align).map Quat.z), mean ((l.map align).map Quat.w)⟩ := by
    intro l; unfold rawMean; simp only [List.map_map]; rfl
  rw [C26_quat_mean, C26_quat_mean, e, e, key]

/-- **C26** The average of equal rotations (with non-zero real part) is that rotation. -/
theorem C26_quat_const (q : Quat ℝ) (hq : UnitQ q) (k : ℕ) :
    SameRotation (quatAverage (List.replicate (k + 1) q)) q := by
  have hm : ∀ c : ℝ, mean (List.replicate (k + 1) c) = c := by
    intro c
    unfold mean
    rw [List.sum_replicate, List.length_replicate, nsmul_eq_mul]
    field_simp
  have : quatAverage (List.replicate (k + 1) q) = align q := by
    rw [C26_quat_mean]
    have hr : rawMean (List.replicate (k + 1) q) = align q := by
      unfold rawMean
      simp only [List.map_replicate, hm]
    rw [hr]
    apply Quat.normalize_unit
    rcases align_same q with e | ⟨ex, ey, ez, ew⟩
    · rw [e]; exact hq
    · unfold UnitQ at hq ⊢; rw [ex, ey, ez, ew]; linarith
  rw [this]
  exact align_same q

/-- **C26 (refuted for zero real part)** For a rotation by 180° (zero real part) the sign matters: the average of the same two
rotations is a quarter turn in one or the other direction. If all real parts are zero, the average may not even be a
unit quaternion. -/
theorem C26_quat_halfturn_refuted :
    (∃ p q : Quat ℝ, UnitQ p ∧ UnitQ q ∧ ¬ SameRotation (quatAverage [p, q]) (quatAverage [p.neg, q])) ∧
    (∃ p : Quat ℝ, UnitQ p ∧ ¬ UnitQ (quatAverage [p, p.neg])) := by
  have hs : (0 : ℝ) < Real.sqrt (1 / 2) := Real.sqrt_pos.mpr (by norm_num)
  constructor
  · refine ⟨⟨1, 0, 0, 0⟩, ⟨0, 0, 0, 1⟩, by simp [UnitQ], by simp [UnitQ], ?_⟩
    have e1 : quatAverage [⟨1, 0, 0, 0⟩, ⟨0, 0, 0, 1⟩] = ⟨1 / 2 / Real.sqrt (1 / 2), 0, 0, 1 / 2 / Real.sqrt (1 / 2)⟩ := by
      rw [C26_quat_mean]
      have : rawMean [⟨1, 0, 0, 0⟩, ⟨0, 0, 0, 1⟩] = ⟨1 / 2, 0, 0, 1 / 2⟩ := by
        simp [rawMean, mean, align]
      rw [this]
      have ha : Quat.abs (⟨1 / 2, 0, 0, 1 / 2⟩ : Quat ℝ) = Real.sqrt (1 / 2) := by
        unfold Quat.abs Quat.normSq; norm_num
      unfold Quat.normalize
      rw [ha]; simp
    have e2 : quatAverage [(⟨1, 0, 0, 0⟩ : Quat ℝ).neg, ⟨0, 0, 0, 1⟩] = ⟨-(1 / 2) / Real.sqrt (1 / 2), 0, 0, 1 / 2 / Real.sqrt (1 / 2)⟩ := by
      rw [C26_quat_mean]
      have : rawMean [(⟨1, 0, 0, 0⟩ : Quat ℝ).neg, ⟨0, 0, 0, 1⟩] = ⟨-(1 / 2), 0, 0, 1 / 2⟩ := by
        simp [rawMean, mean, align, Quat.neg]
        norm_num
      rw [this]
      have ha : Quat.abs (⟨-(1 / 2), 0, 0, 1 / 2⟩ : Quat ℝ) = Real.sqrt (1 / 2) := by
        unfold Quat.abs Quat.normSq; norm_num
      unfold Quat.normalize
      rw [ha]; simp
    rw [e1, e2]
    have hp : 0 < 1 / 2 / Real.sqrt (1 / 2) := by positivity
    rintro (h | ⟨-, -, -, h⟩)
    · have := congrArg Quat.x h
      simp only [neg_div] at this
      linarith
    · simp only at h
      linarith
  · refine ⟨⟨1, 0, 0, 0⟩, by simp [UnitQ], ?_⟩
    rw [C26_quat_mean]
    have : rawMean [⟨1, 0, 0, 0⟩, (⟨1, 0, 0, 0⟩ : Quat ℝ).neg] = ⟨0, 0, 0, 0⟩ := by
      simp [rawMean, mean, align, Quat.neg]
    rw [this]
    simp [Quat.normalize, UnitQ]

/-! ### Poses -/

theorem hemisphere_eq (p : Pose ℝ) : hemisphere p = (Pose.mk (align p.rotation) p.translation).toVector := by
  unfold hemisphere align
  have h6 : p.toVector 6 = p.rotation.w := rfl
  dsimp only
  rw [h6]
  split_ifs with h1 h2
  · linarith
  · ext i; fin_cases i <;> simp [Pose.toVector, Quat.toVector, Quat.neg]
  · rfl
  · exact absurd (lt_of_not_ge (by assumption)) h1

theorem hemisphere_comp (j : Fin 7) : (fun v : Vec ℝ 7 => v j) ∘ hemisphere =
    fun p => (Pose.mk (align p.rotation) p.translation).toVector j := by
  funext p; simp [hemisphere_eq]

theorem foldl_pushPose (data : List (Pose ℝ)) (a : Acc 7) :
    data.foldl pushPose a = ⟨a.counter + data.length, a.mean + (data.map hemisphere).sum⟩ := by
  induction data generalizing a with
  | nil => simp
  | cons x xs ih =>
    rw [List.foldl_cons, ih]
    simp only [pushPose, List.length_cons, List.map_cons, List.sum_cons, Acc.mk.injEq]
    exact ⟨by omega, by rw [add_assoc]⟩

/-- **C26** The average of poses has the mean of the translations and the average of the rotations; therefore it is
independent of the order and of the signs of the quaternions as well. -/
theorem C26_pose (data : List (Pose ℝ)) :
    (poseAverage data).translation = vectorAverage (data.map Pose.translation) ∧
    (poseAverage data).rotation = quatAverage (data.map Pose.rotation) := by
  constructor
  · ext i
    rw [C26_vector_mean]
    unfold poseAverage
    rw [foldl_pushPose]
    fin_cases i <;>
    · simp only [Acc.poseAverage, Pose.fromVector, Acc.quotient, Acc.init, zero_add, list_sum_apply, mean, List.map_map, List.length_map, hemisphere_comp]
      rfl
  · rw [C26_quat_mean]
    unfold poseAverage
    rw [foldl_pushPose]
    simp only [Acc.poseAverage, Pose.fromVector, Acc.quotient, Acc.init, zero_add, list_sum_apply, mean, rawMean, List.map_map, List.length_map, hemisphere_comp]
    rfl

/-! ### Covariances -/

/-- Specification: the population covariance of two measured quantities, each given by its deviation from the mean. -/
noncomputable def covariance {β : Type} (data : List β) (f g : β → ℝ) : ℝ :=
  mean (data.map fun x => (f x - mean (data.map f)) * (g x - mean (data.map g)))

theorem covariance_eq {β : Type} (data : List β) (hne : data ≠ []) (f g : β → ℝ) :
    covariance data f g = (data.map fun x => f x * g x).sum / data.length - mean (data.map f) * mean (data.map g) := by
  have hlen : (data.length : ℝ) ≠ 0 := by
    exact_mod_cast (List.length_pos_iff.mpr hne).ne'
  have key : ∀ a b : ℝ, (data.map fun x => (f x - a) * (g x - b)).sum =
      (data.map fun x => f x * g x).sum - b * (data.map f).sum - a * (data.map g).sum + data.length * (a * b) := by
    intro a b
    clear hne hlen
    induction data with
    | nil => simp
    | cons x xs ih => simp only [List.map_cons, List.sum_cons, ih, List.length_cons]; push_cast; ring
  unfold covariance
  conv_lhs => unfold mean
  rw [key]
  simp only [mean, List.length_map]
  field_simp
  ring

theorem foldl_pushCov (data : List (Vec ℝ n)) (a : AccCov n) :
    data.foldl AccCov.push a = ⟨⟨a.acc.counter + data.length, a.acc.mean + data.sum⟩,
      a.covariance + (data.map fun v => Matrix.of fun i j => v i * v j).sum⟩ := by
  induction data generalizing a with
  | nil => simp
  | cons x xs ih =>
    rw [List.foldl_cons, ih]
    simp only [AccCov.push, Acc.push, List.length_cons, List.map_cons, List.sum_cons, AccCov.mk.injEq, Acc.mk.injEq]
    exact ⟨⟨by omega, by rw [add_assoc]⟩, by rw [add_assoc]⟩

theorem matrix_list_sum_apply {k l : ℕ} (data : List (Mat ℝ k l)) (i : Fin k) (j : Fin l) :
    data.sum i j = (data.map fun m => m i j).sum := by
  induction data with
  | nil => rfl
  | cons x xs ih => simp [ih]

/-- **C26** The average of vectors with covariance has the mean and the exact population covariance. -/
theorem C26_covariance (data : List (Vec ℝ n)) (hne : data ≠ []) :
    (errorVectorAverage data).value = vectorAverage data ∧
    ∀ i j, (errorVectorAverage data).covariance i j = covariance data (fun v => v i) (fun v => v j) := by
  constructor
  · ext i
    unfold errorVectorAverage vectorAverage
    rw [foldl_pushCov, foldl_push]
    rfl
  · intro i j
    rw [covariance_eq data hne]
    unfold errorVectorAverage
    rw [foldl_pushCov]
    simp only [AccCov.init, Acc.init, zero_add, Acc.quotient, Matrix.sub_apply, Matrix.of_apply, list_sum_apply,
      matrix_list_sum_apply, mean, List.length_map, List.map_map]
    rfl

theorem covariance_psd {β : Type} (data : List β) (f : Fin n → β → ℝ) :
    (Matrix.of fun i j => covariance data (f i) (f j) : Mat ℝ n n).PosSemidef := by
  have : (Matrix.of fun i j => covariance data (f i) (f j) : Mat ℝ n n) =
      ((data.length : ℝ)⁻¹) • (data.map fun x => Matrix.vecMulVec (fun i => f i x - mean (data.map (f i)))
        (star fun i => f i x - mean (data.map (f i)))).sum := by
    ext i j
    rw [Matrix.smul_apply, matrix_list_sum_apply, List.map_map]
    simp only [Matrix.of_apply, covariance]
    conv_lhs => rw [mean]
    rw [List.length_map, smul_eq_mul, div_eq_inv_mul]
    rfl
  rw [this]
  refine Matrix.PosSemidef.smul ?_ (inv_nonneg.mpr (Nat.cast_nonneg _))
  generalize hl : (data.map fun x => Matrix.vecMulVec (fun i => f i x - mean (data.map (f i)))
        (star fun i => f i x - mean (data.map (f i)))) = l
  have hall : ∀ M ∈ l, M.PosSemidef := by
    intro M hM
    rw [← hl, List.mem_map] at hM
    obtain ⟨x, -, rfl⟩ := hM
    exact Matrix.posSemidef_vecMulVec_self_star _
  clear hl this
  induction l with
  | nil => simpa using Matrix.PosSemidef.zero
  | cons M Ms ih =>
    rw [List.sum_cons]
    exact (hall M (by simp)).add (ih (fun N hN => hall N (by simp [hN])))

/-- **C26** The covariance is symmetric and positive semi-definite. -/
theorem C26_covariance_psd (data : List (Vec ℝ n)) (hne : data ≠ []) : (errorVectorAverage data).covariance.PosSemidef := by
  have : (errorVectorAverage data).covariance = Matrix.of fun i j => covariance data (fun v => v i) (fun v => v j) := by
    ext i j; exact (C26_covariance data hne).2 i j
  rw [this]
  exact covariance_psd data fun i v => v i

theorem foldl_pushErrorPose (data : List (Pose ℝ)) (a : AccCov 7) :
    data.foldl pushErrorPose a = ⟨⟨a.acc.counter + data.length, a.acc.mean + (data.map hemisphere).sum⟩,
      a.covariance + (data.map fun p => Matrix.of fun i j => hemisphere p i * hemisphere p j).sum⟩ := by
  induction data generalizing a with
  | nil => simp
  | cons x xs ih =>
    rw [List.foldl_cons, ih]
    simp only [pushErrorPose, List.length_cons, List.map_cons, List.sum_cons, AccCov.mk.injEq, Acc.mk.injEq]
    exact ⟨⟨by omega, by rw [add_assoc]⟩, by rw [add_assoc]⟩

/-- The pose with its quaternion taken with non-negative real part. -/
noncomputable def alignPose (p : Pose ℝ) : Pose ℝ := ⟨align p.rotation, p.translation⟩

theorem conversion_mulVec (r : Quat ℝ) (p : Pose ℝ) (x : Vec ℝ 4) :
    (replacesRange (ErrorPose.errorConversion r x).2 3 3 : Mat ℝ 7 7).mulVec p.toVector =
      (Pose.mk (r.conj.mul p.rotation) p.translation).toVector := by
  ext i
  fin_cases i <;>
    simp [Matrix.mulVec, dotProduct, Fin.sum_univ_succ, replacesRange, readsRange, ErrorPose.errorConversion,
      Pose.toVector, Quat.toVector, Quat.mul, Quat.conj] <;> ring

theorem congr_moment {k : ℕ} (J : Mat ℝ k k) (data : List (Vec ℝ k)) (c : ℝ) (m : Vec ℝ k) (i j : Fin k) :
    (J * (Matrix.of (fun i j => (data.map fun v => Matrix.of fun i j => v i * v j : List (Mat ℝ k k)).sum i j / c) -
      Matrix.of fun i j => m i * m j) * Jᵀ) i j =
    (data.map fun v => J.mulVec v i * J.mulVec v j).sum / c - J.mulVec m i * J.mulVec m j := by
  have h1 : ∀ v : Vec ℝ k, (J * (Matrix.of fun i j => v i * v j) * Jᵀ : Mat ℝ k k) i j = J.mulVec v i * J.mulVec v j := by
    intro v
    have : (Matrix.of fun i j => v i * v j : Mat ℝ k k) = Matrix.vecMulVec v v := rfl
    rw [this, Matrix.mul_vecMulVec, Matrix.vecMulVec_mul, Matrix.vecMul_transpose]
    rfl
  rw [Matrix.mul_sub, Matrix.sub_mul, Matrix.sub_apply, h1]
  congr 1
  have h2 : (Matrix.of (fun i j => (data.map fun v => Matrix.of fun i j => v i * v j : List (Mat ℝ k k)).sum i j / c) : Mat ℝ k k) =
      c⁻¹ • (data.map fun v => Matrix.of fun i j => v i * v j : List (Mat ℝ k k)).sum := by
    ext a b; simp [div_eq_inv_mul]
  rw [h2, Matrix.mul_smul, Matrix.smul_mul, Matrix.smul_apply, smul_eq_mul, div_eq_inv_mul]
  congr 1
  clear h2
  induction data with
  | nil => simp
  | cons v vs ih =>
    rw [List.map_cons, List.sum_cons, Matrix.mul_add, Matrix.add_mul, Matrix.add_apply, h1, ih, List.map_cons, List.sum_cons]

theorem errorPoseAverage_pose (data : List (Pose ℝ)) : (errorPoseAverage data).toPose = poseAverage data := by
  unfold errorPoseAverage poseAverage
  rw [foldl_pushErrorPose, foldl_pushPose]
  rfl

theorem mean_errorOf (data : List (Pose ℝ)) (h : ∃ p ∈ data, p.rotation.w ≠ 0) (i : Fin 6) :
    mean (data.map fun p => errorOf (poseAverage data) (alignPose p) i) = 0 := by
  obtain ⟨ht, hr⟩ := C26_pose data
  have hne : (data.length : ℝ) ≠ 0 := by
    obtain ⟨p, hp, -⟩ := h
    exact_mod_cast (List.length_pos_of_mem hp).ne'
  -- translation
  have hT : ∀ k : Fin 3, mean (data.map fun p => p.translation k - (poseAverage data).translation k) = 0 := by
    intro k
    rw [ht, C26_vector_mean]
    generalize hc : mean (List.map (fun v => v k) (data.map Pose.translation)) = c
    have key : (data.map fun p => p.translation k - c).sum = (data.map fun p => p.translation k).sum - data.length * c := by
      clear hc hne h ht hr
      induction data with
      | nil => simp
      | cons x xs ih => simp only [List.map_cons, List.sum_cons, ih, List.length_cons]; push_cast; ring
    have e : c * data.length = (data.map fun p => p.translation k).sum := by
      rw [← hc]; unfold mean
      rw [List.length_map, List.length_map, div_mul_cancel₀ _ hne, List.map_map]; rfl
    unfold mean
    rw [key, ← e]; ring
  -- rotation
  have hq' : ∃ q ∈ data.map Pose.rotation, q.w ≠ 0 := by
    obtain ⟨p, hp, hw⟩ := h
    exact ⟨_, List.mem_map_of_mem hp, hw⟩
  have hpos := rawMean_w_pos _ hq'
  set R := rawMean (data.map Pose.rotation) with hR
  have hlin : ∀ a b c d : ℝ, mean (data.map fun p => a * (align p.rotation).x + b * (align p.rotation).y + c * (align p.rotation).z +
      d * (align p.rotation).w) = a * R.x + b * R.y + c * R.z + d * R.w := by
    intro a b c d
    rw [hR]
    simp only [rawMean, mean, List.map_map, List.length_map]
    have key : (data.map fun p => a * (align p.rotation).x + b * (align p.rotation).y + c * (align p.rotation).z +
      d * (align p.rotation).w).sum = a * (data.map fun p => (align p.rotation).x).sum + b * (data.map fun p => (align p.rotation).y).sum +
        c * (data.map fun p => (align p.rotation).z).sum + d * (data.map fun p => (align p.rotation).w).sum := by
      clear hne h ht hr hT hq' hpos hR R
      induction data with
      | nil => simp
      | cons x xs ih => simp only [List.map_cons, List.sum_cons, ih]; ring
    rw [key]
    simp only [Function.comp_def]
    field_simp
  have hQ : ∃ s : ℝ, (poseAverage data).rotation = ⟨s * R.x, s * R.y, s * R.z, s * R.w⟩ := by
    rw [hr, C26_quat_mean, ← hR]
    exact ⟨(R.abs)⁻¹, by ext <;> simp [Quat.normalize, div_eq_inv_mul]⟩
  obtain ⟨s, hs⟩ := hQ
  fin_cases i
  · exact hT 0
  · exact hT 1
  · exact hT 2
  · refine Eq.trans (congrArg mean (List.map_congr_left fun p _ => ?_)) ((hlin (s * R.w) (s * R.z) (-(s * R.y)) (-(s * R.x))).trans (by ring))
    simp [errorOf, hs, alignPose, Quat.conj, Quat.mul]; ring
  · refine Eq.trans (congrArg mean (List.map_congr_left fun p _ => ?_)) ((hlin (-(s * R.z)) (s * R.w) (s * R.x) (-(s * R.y))).trans (by ring))
    simp [errorOf, hs, alignPose, Quat.conj, Quat.mul]; ring
  · refine Eq.trans (congrArg mean (List.map_congr_left fun p _ => ?_)) ((hlin (s * R.y) (-(s * R.x)) (s * R.w) (-(s * R.z))).trans (by ring))
    simp [errorOf, hs, alignPose, Quat.conj, Quat.mul]; ring

/-- **C26** The average of poses with covariance: the pose is the average pose, and the covariance is the exact
population covariance of the errors (in the documented convention, `Spec.errorOf`) of the data with respect to it; the mean
of these errors is zero. -/
theorem C26_errorPose (data : List (Pose ℝ)) (h : ∃ p ∈ data, p.rotation.w ≠ 0) :
    (errorPoseAverage data).toPose = poseAverage data ∧
    (∀ i, mean (data.map fun p => errorOf (poseAverage data) (alignPose p) i) = 0) ∧
    ∀ i j, (errorPoseAverage data).covariance i j =
      covariance data (fun p => errorOf (poseAverage data) (alignPose p) i) (fun p => errorOf (poseAverage data) (alignPose p) j) := by
  refine ⟨errorPoseAverage_pose data, mean_errorOf data h, fun i j => ?_⟩
  have hm := mean_errorOf data h
  have hU : UnitQ (poseAverage data).rotation := by
    rw [(C26_pose data).2]
    apply C26_quat_unit
    obtain ⟨p, hp, hw⟩ := h
    exact ⟨_, List.mem_map_of_mem hp, hw⟩
  have hne : data ≠ [] := by
    obtain ⟨p, hp, -⟩ := h
    exact List.ne_nil_of_mem hp
  have hpa : (data.foldl pushErrorPose AccCov.init).acc.poseAverage = poseAverage data := errorPoseAverage_pose data
  set P := poseAverage data with hP
  -- the transformed data
  let F : Fin 6 → Pose ℝ → ℝ := fun i p =>
    (Pose.mk (P.rotation.conj.mul (align p.rotation)) p.translation).toVector (Fin.castLE (by omega) i)
  let c : Fin 6 → ℝ := fun i => (Pose.mk (P.rotation.conj.mul P.rotation) P.translation).toVector (Fin.castLE (by omega) i)
  have hF : ∀ i p, errorOf P (alignPose p) i = F i p - c i := by
    intro i p
    unfold UnitQ at hU
    fin_cases i <;> simp [errorOf, F, c, alignPose, Pose.toVector, Quat.toVector, Quat.mul, Quat.conj] <;> ring
  have hlen : (data.length : ℝ) ≠ 0 := by exact_mod_cast (List.length_pos_iff.mpr hne).ne'
  have hmF : ∀ i, mean (data.map (F i)) = c i := by
    intro i
    have h0 := hm i
    simp only [hF] at h0
    have key : ∀ l : List (Pose ℝ), (l.map fun p => F i p - c i).sum = (l.map (F i)).sum - l.length * c i := by
      intro l
      induction l with
      | nil => simp
      | cons x xs ih => simp only [List.map_cons, List.sum_cons, ih, List.length_cons]; push_cast; ring
    unfold mean at h0 ⊢
    rw [key, List.length_map] at h0
    rw [List.length_map]
    field_simp at h0 ⊢
    linarith
  have hcov : covariance data (fun p => errorOf P (alignPose p) i) (fun p => errorOf P (alignPose p) j) = covariance data (F i) (F j) := by
    unfold covariance
    rw [hm i, hm j, hmF i, hmF j]
    simp only [sub_zero, hF]
  rw [hcov, covariance_eq data hne, hmF, hmF]
  unfold errorPoseAverage
  simp only [hpa]
  rw [foldl_pushErrorPose]
  simp only [AccCov.init, Acc.init, zero_add, ErrorPose.fromAdditive, Matrix.submatrix_apply]
  have hsym : (Matrix.of (fun i j => (data.map fun p => Matrix.of fun i j => hemisphere p i * hemisphere p j : List (Mat ℝ 7 7)).sum i j / (data.length : ℝ)) -
      Matrix.of fun i j => P.toVector i * P.toVector j : Mat ℝ 7 7).IsSymm := by
    ext a b
    simp only [Matrix.transpose_apply, Matrix.sub_apply, Matrix.of_apply, matrix_list_sum_apply, List.map_map, Function.comp_def]
    simp only [mul_comm]
  rw [(C28_range _ _ 3 3 (by omega) hsym).2]
  have hq : (Quat.fromVector ![P.inv.toVector 3, P.inv.toVector 4, P.inv.toVector 5, P.inv.toVector 6]).conj = P.rotation := by
    ext <;> simp [Quat.fromVector, Quat.conj, Pose.toVector, Quat.toVector, Pose.inv]
  rw [hq]
  have hl : (data.map fun p => Matrix.of fun i j => hemisphere p i * hemisphere p j : List (Mat ℝ 7 7)) =
      (data.map hemisphere).map fun v => Matrix.of fun i j => v i * v j := by rw [List.map_map]; rfl
  rw [hl, congr_moment]
  simp only [List.map_map, Function.comp_def, hemisphere_eq, conversion_mulVec]
  rfl

/-- **C26** The covariance of the average pose is symmetric and positive semi-definite. -/
theorem C26_errorPose_psd (data : List (Pose ℝ)) (h : ∃ p ∈ data, p.rotation.w ≠ 0) :
    (errorPoseAverage data).covariance.PosSemidef := by
  have : (errorPoseAverage data).covariance = Matrix.of fun i j => covariance data
      (fun p => errorOf (poseAverage data) (alignPose p) i) (fun p => errorOf (poseAverage data) (alignPose p) j) := by
    ext i j; exact (C26_errorPose data h).2.2 i j
  rw [this]
  exact covariance_psd data fun i p => errorOf (poseAverage data) (alignPose p) i

/-- Non-vacuity: two poses with rotations of different hemispheres. -/
example : ∃ data : List (Pose ℝ), (∃ p ∈ data, p.rotation.w ≠ 0) ∧ data.length = 2 ∧
    (∀ p ∈ data, UnitQ p.rotation) ∧ ∃ p ∈ data, p.rotation.w < 0 :=
  ⟨[⟨⟨0, 0, 3 / 5, 4 / 5⟩, ![1, 2, 3]⟩, ⟨⟨0, 0, 3 / 5, -4 / 5⟩, ![4, 5, 6]⟩],
    ⟨_, List.mem_cons_self, by norm_num⟩, rfl, by simp [UnitQ]; norm_num,
    ⟨⟨⟨0, 0, 3 / 5, -4 / 5⟩, ![4, 5, 6]⟩, by simp, by norm_num⟩⟩

/-! ### Correlation -/

theorem foldl_sums (l : List (ℝ × ℝ)) (a b : ℝ) :
    l.foldl (fun s x => (s.1 + x.1, s.2 + x.2)) (a, b) = (a + (l.map Prod.fst).sum, b + (l.map Prod.snd).sum) := by
  induction l generalizing a b with
  | nil => simp
  | cons x xs ih => rw [List.foldl_cons, ih]; simp [add_assoc]

theorem foldl_moments (l : List (ℝ × ℝ)) (m1 m2 a b c : ℝ) :
    l.foldl (fun s x =>
      let diff1 := x.1 - m1
      let diff2 := x.2 - m2
      (s.1 + diff1 * diff2, s.2.1 + diff1 * diff1, s.2.2 + diff2 * diff2)) (a, b, c) =
    (a + (l.map fun x => (x.1 - m1) * (x.2 - m2)).sum, b + (l.map fun x => (x.1 - m1) * (x.1 - m1)).sum,
      c + (l.map fun x => (x.2 - m2) * (x.2 - m2)).sum) := by
  induction l generalizing a b c with
  | nil => simp
  | cons x xs ih => rw [List.foldl_cons, ih]; simp [add_assoc]

/-- Specification: Pearson's correlation coefficient of a list of pairs. -/
noncomputable def pearson (l : List (ℝ × ℝ)) : ℝ :=
  covariance l Prod.fst Prod.snd / Real.sqrt (covariance l Prod.fst Prod.fst * covariance l Prod.snd Prod.snd)

/-- **C27** The correlation of two sequences is Pearson's coefficient of the common prefix. -/
theorem C27_pearson (l1 l2 : List ℝ) (h1 : l1 ≠ []) (h2 : l2 ≠ []) : correlation l1 l2 = some (pearson (l1.zip l2)) := by
  have e1 := (List.length_pos_iff.mpr h1).ne'
  have e2 := (List.length_pos_iff.mpr h2).ne'
  have hz : (l1.take (min l1.length l2.length)).zip l2 = l1.zip l2 := by
    rw [List.zip_eq_zip_take_min (l₁ := l1), List.zip_eq_zip_take_min]
    simp [List.take_take]
  have hlz : (l1.zip l2).length = min l1.length l2.length := List.length_zip
  have hn : ((l1.zip l2).length : ℝ) ≠ 0 := by
    rw [hlz]; exact_mod_cast (by omega)
  unfold correlation
  rw [if_neg (by omega), if_neg (by omega)]
  dsimp only
  rw [hz, ← hlz]
  set l := l1.zip l2
  rw [foldl_sums, foldl_moments]
  simp only [zero_add, Option.some.injEq]
  unfold pearson covariance
  simp only [mean, List.length_map]
  rw [div_mul_div_comm, Real.sqrt_div' _ (by positivity), Real.sqrt_mul_self (by positivity)]
  generalize (List.map (fun x : ℝ × ℝ => (x.1 - (List.map Prod.fst l).sum / ↑l.length) * (x.2 - (List.map Prod.snd l).sum / ↑l.length)) l).sum = A
  generalize Real.sqrt _ = B
  rw [div_div_div_cancel_right₀ hn]

/-- The sequence is not constant. -/
def NonConstant (l : List ℝ) : Prop := ∃ x ∈ l, ∃ y ∈ l, x ≠ y

theorem variance_pos {β : Type} (l : List β) (f : β → ℝ) (h : NonConstant (l.map f)) : 0 < covariance l f f := by
  obtain ⟨x, hx, y, hy, hxy⟩ := h
  obtain ⟨u, hu, rfl⟩ := List.mem_map.mp hx
  obtain ⟨v, hv, rfl⟩ := List.mem_map.mp hy
  have hlen : (0 : ℝ) < l.length := by exact_mod_cast List.length_pos_of_mem hu
  unfold covariance
  generalize mean (l.map f) = m
  unfold mean
  rw [List.length_map]
  refine div_pos ?_ hlen
  have hall : ∀ z ∈ l.map (fun x => (f x - m) * (f x - m)), 0 ≤ z := by
    intro z hz
    obtain ⟨w, -, rfl⟩ := List.mem_map.mp hz
    exact mul_self_nonneg _
  have h1 := List.single_le_sum hall _ (List.mem_map_of_mem hu)
  have h2 := List.single_le_sum hall _ (List.mem_map_of_mem hv)
  by_contra hc
  have e1 : (f u - m) * (f u - m) = 0 := le_antisymm (by linarith) (mul_self_nonneg _)
  have e2 : (f v - m) * (f v - m) = 0 := le_antisymm (by linarith) (mul_self_nonneg _)
  exact hxy (by linarith [mul_self_eq_zero.mp e1, mul_self_eq_zero.mp e2])

theorem covariance_comm {β : Type} (l : List β) (f g : β → ℝ) : covariance l f g = covariance l g f := by
  unfold covariance; simp only [mul_comm]

theorem pearson_bound (l : List (ℝ × ℝ)) : |pearson l| ≤ 1 := by
  have hpsd := covariance_psd (n := 2) l ![Prod.fst, Prod.snd]
  have hdet := hpsd.det_nonneg
  rw [Matrix.det_fin_two] at hdet
  simp only [Matrix.of_apply, Matrix.cons_val_zero, Matrix.cons_val_one] at hdet
  rw [covariance_comm l Prod.snd Prod.fst] at hdet
  unfold pearson
  rw [abs_div, abs_of_nonneg (Real.sqrt_nonneg _)]
  refine div_le_one_of_le₀ ?_ (Real.sqrt_nonneg _)
  apply Real.le_sqrt_of_sq_le
  rw [sq_abs]
  linarith

/-- **C27** The correlation coefficient of two sequences is in `[-1, 1]` (unless one is constant, where it is 0/0). -/
theorem C27_bounded (l1 l2 : List ℝ) (r : ℝ) (h1 : NonConstant l1) (h2 : NonConstant l2) (h : correlation l1 l2 = some r) :
    -1 ≤ r ∧ r ≤ 1 := by
  have e1 : l1 ≠ [] := by obtain ⟨x, hx, -⟩ := h1; exact List.ne_nil_of_mem hx
  have e2 : l2 ≠ [] := by obtain ⟨x, hx, -⟩ := h2; exact List.ne_nil_of_mem hx
  rw [C27_pearson l1 l2 e1 e2, Option.some.injEq] at h
  rw [← h]
  exact abs_le.mp (pearson_bound _)

/-- **C27** The correlation coefficient is symmetric. -/
theorem C27_symmetric (l1 l2 : List ℝ) : correlation l1 l2 = correlation l2 l1 := by
  by_cases e1 : l1 = []
  · subst e1
    unfold correlation
    by_cases e2 : l2 = []
    · subst e2; rfl
    · have := (List.length_pos_iff.mpr e2).ne'
      simp [this]
  by_cases e2 : l2 = []
  · subst e2
    unfold correlation
    simp [e1]
  rw [C27_pearson l1 l2 e1 e2, C27_pearson l2 l1 e2 e1]
  congr 1
  have hs : l2.zip l1 = (l1.zip l2).map Prod.swap := by rw [List.zip_swap]
  unfold pearson covariance
  rw [hs]
  simp only [List.map_map, mean, List.length_map, Function.comp_def, Prod.fst_swap, Prod.snd_swap]
  rw [mul_comm (_ / _) (_ / _)]
  simp only [mul_comm]

/-- **C27** Two empty sequences correlate with coefficient 1; if only one is empty, an assertion is violated. -/
theorem C27_empty : correlation [] [] = some 1 ∧ (∀ l : List ℝ, l ≠ [] → correlation l [] = none ∧ correlation [] l = none) := by
  refine ⟨by simp [correlation], fun l h => ?_⟩
  simp [correlation, h]

theorem zip_self (l : List ℝ) : l.zip l = l.map fun x => (x, x) := by
  induction l with
  | nil => rfl
  | cons x xs ih => simp [ih]

/-- **C27** A sequence that is not constant correlates with itself with coefficient 1. -/
theorem C27_self (l : List ℝ) (h : NonConstant l) : correlation l l = some 1 := by
  have e : l ≠ [] := by obtain ⟨x, hx, -⟩ := h; exact List.ne_nil_of_mem hx
  rw [C27_pearson l l e e]
  congr 1
  have hv := variance_pos l id (by simpa using h)
  unfold pearson
  have : ∀ f g : ℝ × ℝ → ℝ, covariance (l.zip l) f g = covariance l (fun x => f (x, x)) (fun x => g (x, x)) := by
    intro f g
    unfold covariance
    rw [zip_self]
    simp only [List.map_map, mean, List.length_map, Function.comp_def]
  rw [this, this, this]
  have e : covariance l id id = covariance l (fun x => x) (fun x => x) := rfl
  rw [← e, Real.sqrt_mul_self hv.le, div_self hv.ne']

/-- **C27** The coefficient is invariant under positive affine rescaling of the sequences. -/
theorem C27_affine (l1 l2 : List ℝ) (a b : ℝ) (ha : 0 < a) :
    correlation (l1.map fun x => a * x + b) l2 = correlation l1 l2 := by
  by_cases e1 : l1 = []
  · subst e1; rfl
  by_cases e2 : l2 = []
  · subst e2; simp [correlation, e1]
  rw [C27_pearson l1 l2 e1 e2, C27_pearson _ l2 (by simpa using e1) e2]
  congr 1
  have hz : (l1.map fun x => a * x + b).zip l2 = (l1.zip l2).map fun p => (a * p.1 + b, p.2) := by
    have := List.zip_map_left (f := fun x => a * x + b) (l₁ := l1) (l₂ := l2)
    rw [this]; rfl
  rw [hz]
  set l := l1.zip l2
  have hl : l ≠ [] := by
    intro h
    have := congrArg List.length h
    have hlz : l.length = min l1.length l2.length := List.length_zip
    have h1 := List.length_pos_iff.mpr e1
    have h2 := List.length_pos_iff.mpr e2
    simp only [List.length_nil] at this
    omega
  have hlen : (l.length : ℝ) ≠ 0 := by exact_mod_cast (List.length_pos_iff.mpr hl).ne'
  have hc : ∀ f g : ℝ × ℝ → ℝ, covariance (l.map fun p => (a * p.1 + b, p.2)) f g =
      covariance l (fun p => f (a * p.1 + b, p.2)) (fun p => g (a * p.1 + b, p.2)) := by
    intro f g
    unfold covariance
    simp only [List.map_map, mean, List.length_map, Function.comp_def]
  have hmean : mean (l.map fun p => a * p.1 + b) = a * mean (l.map Prod.fst) + b := by
    have key : ∀ l : List (ℝ × ℝ), (l.map fun p => a * p.1 + b).sum = a * (l.map Prod.fst).sum + l.length * b := by
      intro l
      induction l with
      | nil => simp
      | cons x xs ih => simp only [List.map_cons, List.sum_cons, ih, List.length_cons]; push_cast; ring
    unfold mean
    rw [key, List.length_map, List.length_map]
    field_simp
  have hsmul : ∀ (c : ℝ) (f : ℝ × ℝ → ℝ), mean (l.map fun p => c * f p) = c * mean (l.map f) := by
    intro c f
    unfold mean
    rw [List.sum_map_mul_left, List.length_map, List.length_map, mul_div_assoc]
  have c12 : covariance l (fun p => a * p.1 + b) Prod.snd = a * covariance l Prod.fst Prod.snd := by
    unfold covariance
    rw [hmean]
    refine Eq.trans ?_ (hsmul _ _)
    congr 1
    apply List.map_congr_left
    intro p _
    ring
  have c11 : covariance l (fun p => a * p.1 + b) (fun p => a * p.1 + b) = a ^ 2 * covariance l Prod.fst Prod.fst := by
    unfold covariance
    rw [hmean]
    refine Eq.trans ?_ (hsmul _ _)
    congr 1
    apply List.map_congr_left
    intro p _
    ring
  unfold pearson
  rw [hc, hc, hc]
  have c12' : covariance l (fun p => (a * p.1 + b, p.2).1) (fun p => (a * p.1 + b, p.2).2) = a * covariance l Prod.fst Prod.snd := c12
  have c11' : covariance l (fun p => (a * p.1 + b, p.2).1) (fun p => (a * p.1 + b, p.2).1) = a ^ 2 * covariance l Prod.fst Prod.fst := c11
  have c22 : covariance l (fun p => (a * p.1 + b, p.2).2) (fun p => (a * p.1 + b, p.2).2) = covariance l Prod.snd Prod.snd := rfl
  rw [c12', c11', c22, mul_assoc, Real.sqrt_mul (by positivity), Real.sqrt_sq ha.le]
  rw [mul_div_mul_left _ _ ha.ne']

/-- Non-vacuity: non-constant sequences of different lengths. -/
example : NonConstant [1, 2, 3] ∧ NonConstant [3, 5] ∧ ∃ r, correlation [1, 2, 3] [3, 5] = some r :=
  ⟨⟨1, by simp, 2, by simp, by norm_num⟩, ⟨3, by simp, 5, by simp, by norm_num⟩, _, C27_pearson _ _ (by simp) (by simp)⟩

end Ubitrack.Average
