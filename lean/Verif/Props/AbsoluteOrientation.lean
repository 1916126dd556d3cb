import Verif.Proofs.AbsoluteOrientation
import Verif.Props.RotationMatrix

/-!
# C38: absolute orientation
-/

namespace Ubitrack
open Ubitrack.Spec Ubitrack.Quat Ubitrack.AbsoluteOrientation
open scoped Matrix

namespace Spec

/-- Cross-covariance of two corresponding point lists. -/
noncomputable def crossCovariance (left right : List (Vec ℝ 3)) (i j : Fin 3) : ℝ :=
  ((left.zip right).map fun p => (p.1 - mean left) i * (p.2 - mean right) j).sum

end Spec

namespace AbsoluteOrientation

variable {syev : Mat ℝ 4 4 → Option (Vec ℝ 4 × Mat ℝ 4 4)}

theorem eq_zero_of_lenSq (v : Vec ℝ 3) (hv : lenSq v = 0) : v = 0 := by
  unfold lenSq at hv
  ext i; fin_cases i <;> simp <;> nlinarith [sq_nonneg (v 0), sq_nonneg (v 1), sq_nonneg (v 2)]

theorem lenSq_nonneg (v : Vec ℝ 3) : 0 ≤ lenSq v := by unfold lenSq; positivity

theorem lenSq_eq_dot (v : Vec ℝ 3) : lenSq v = v ⬝ᵥ v := by
  simp only [lenSq, dotProduct, Fin.sum_univ_three]; ring

/-- Two rotation matrices that agree on two independent vectors are equal. -/
theorem rotation_ext {A B : Mat ℝ 3 3} (hA : IsRotation A) (hB : IsRotation B) (u v : Vec ℝ 3)
    (huv : crossProduct u v ≠ 0) (hu : A *ᵥ u = B *ᵥ u) (hv : A *ᵥ v = B *ᵥ v) : A = B := by
  have cross : ∀ S : Mat ℝ 3 3, IsRotation S →
      S *ᵥ crossProduct u v = crossProduct (S *ᵥ u) (S *ᵥ v) := by
    intro S hS
    obtain ⟨q, hq, rfl⟩ := exists_unit_of_rotation S hS.1 hS.2
    have hM := (C03_quaternion_to_matrix q hq).1
    rw [hM, hM, hM, (C01_rotation_rigid q hq).2.1]
  have hw : A *ᵥ crossProduct u v = B *ᵥ crossProduct u v := by
    rw [cross A hA, cross B hB, hu, hv]
  obtain ⟨w, hwdef⟩ : ∃ w, w = crossProduct u v := ⟨_, rfl⟩
  rw [← hwdef] at hw huv
  let C : Mat ℝ 3 3 := Matrix.of fun i j => ![u i, v i, w i] j
  have hC : A * C = B * C := by
    ext i j
    have e1 := congrFun hu i
    have e2 := congrFun hv i
    have e3 := congrFun hw i
    simp only [Matrix.mulVec, dotProduct, Fin.sum_univ_three] at e1 e2 e3
    fin_cases j <;> simpa [C, Matrix.mul_apply, Fin.sum_univ_three]
  have hdet : C.det = lenSq w := by
    have w0 := congrFun hwdef 0
    have w1 := congrFun hwdef 1
    have w2 := congrFun hwdef 2
    simp [crossProduct] at w0 w1 w2
    simp [C, Matrix.det_fin_three, lenSq]
    rw [w0, w1, w2]; ring
  have hne : C.det ≠ 0 := by
    rw [hdet]; intro h; exact huv (eq_zero_of_lenSq w h)
  have hinv : C * C⁻¹ = 1 := Matrix.mul_nonsing_inv _ (Ne.isUnit hne)
  calc A = A * C * C⁻¹ := by rw [Matrix.mul_assoc, hinv, Matrix.mul_one]
    _ = B * C * C⁻¹ := by rw [hC]
    _ = B := by rw [Matrix.mul_assoc, hinv, Matrix.mul_one]

/-- What a successful rotation estimate is: a unit quaternion of the largest correlation. -/
theorem estimateRotationAt_spec (hs : SymmetricEigensolver syev) {left right : List (Vec ℝ 3)}
    {a b : Vec ℝ 3} {q : Quat ℝ} (h : estimateRotationAt syev left right a b = some q) :
    UnitQ q ∧ ∀ R, IsRotation R →
      ((left.zip right).map fun p => corr R (p.1 - a) (p.2 - b)).sum ≤
      ((left.zip right).map fun p => corr (toMatrix q) (p.1 - a) (p.2 - b)).sum := by
  unfold estimateRotationAt at h
  split at h
  · simp at h
  · rename_i W V hV
    split at h
    · simp at h
    · simp only [Option.some.injEq] at h
      obtain ⟨hW, hVV, hE⟩ := hs _ (horn_symm _) _ _ hV
      have hq4 : vec4 q = fun i => V i 3 := by
        rw [← h]; ext i; fin_cases i <;> simp [vec4]
      have hu : UnitQ q := by
        rw [← vec4_unit, hq4]
        have := congrFun (congrFun hVV 3) 3
        simpa [Matrix.mul_apply, dotProduct] using this
      refine ⟨hu, fun R hR => ?_⟩
      obtain ⟨q', hq', rfl⟩ := exists_unit_of_rotation R hR.1 hR.2
      have h1 := quad_le_top hW hVV hE (vec4 q') (vec4_unit.mpr hq')
      rw [horn_quad q' hq'] at h1
      rw [← horn_quad q hu, hq4, h1.2.1]
      exact h1.1

theorem apply_eq_toMatrix {p : Pose ℝ} (hp : UnitQ p.rotation) (v : Vec ℝ 3) :
    p.apply v = toMatrix p.rotation *ᵥ v + p.translation := by
  rw [(C03_quaternion_to_matrix _ hp).1 v]; rfl

theorem estimatePose_some {left right : List (Vec ℝ 3)} (hlen : left.length = right.length)
    {p : Pose ℝ} (h : estimatePose syev left right = some p) :
    estimateRotationAt syev left right (mean left) (mean right) = some p.rotation ∧
      p.translation = mean left - p.rotation.rotate (mean right) := by
  simp only [estimatePose, estimatePoseAt, centroid_eq left] at h
  rw [hlen, centroid_eq right] at h
  split at h
  · simp at h
  · rename_i q hq
    simp only [Option.some.injEq] at h
    subst h
    exact ⟨hq, rfl⟩

/-- Failure happens only for a zero largest eigenvalue. -/
theorem estimateRotationAt_none (hs : SymmetricEigensolver syev) (hc : SymmetricConvergent syev)
    {left right : List (Vec ℝ 3)} {a b : Vec ℝ 3} :
    estimateRotationAt syev left right a b = none ↔ crossSum left right a b = 0 := by
  obtain ⟨⟨W, V⟩, hV⟩ := hc _ (horn_symm (crossSum left right a b))
  obtain ⟨hW, hVV, hE⟩ := hs _ (horn_symm _) _ _ hV
  simp only [estimateRotationAt, hV]
  constructor
  · intro h
    split at h
    · rename_i hW3
      have hle : ∀ q : Quat ℝ, UnitQ q → vec4 q ⬝ᵥ (hornMatrix (crossSum left right a b) *ᵥ vec4 q) ≤ 0 :=
        fun q hq => ((quad_le_top hW hVV hE (vec4 q) (vec4_unit.mpr hq)).1).trans hW3
      obtain ⟨M, hM⟩ : ∃ M, M = crossSum left right a b := ⟨_, rfl⟩
      rw [← hM] at hle ⊢
      have u (x y z w : ℝ) (h : x ^ 2 + y ^ 2 + z ^ 2 + w ^ 2 = 1) := hle ⟨x, y, z, w⟩ h
      have e0 := u 0 0 0 1 (by norm_num)
      have e1 := u 1 0 0 0 (by norm_num)
      have e2 := u 0 1 0 0 (by norm_num)
      have e3 := u 0 0 1 0 (by norm_num)
      have w1 := u (3/5) 0 0 (4/5) (by norm_num)
      have w1' := u (3/5) 0 0 (-(4/5)) (by norm_num)
      have w2 := u 0 (3/5) 0 (4/5) (by norm_num)
      have w2' := u 0 (3/5) 0 (-(4/5)) (by norm_num)
      have w3 := u 0 0 (3/5) (4/5) (by norm_num)
      have w3' := u 0 0 (3/5) (-(4/5)) (by norm_num)
      have x1 := u (3/5) (4/5) 0 0 (by norm_num)
      have x1' := u (3/5) (-(4/5)) 0 0 (by norm_num)
      have x2 := u (3/5) 0 (4/5) 0 (by norm_num)
      have x2' := u (3/5) 0 (-(4/5)) 0 (by norm_num)
      have x3 := u 0 (3/5) (4/5) 0 (by norm_num)
      have x3' := u 0 (3/5) (-(4/5)) 0 (by norm_num)
      simp [vec4, hornMatrix, Matrix.mulVec, dotProduct, Fin.sum_univ_four] at e0 e1 e2 e3 w1 w1' w2 w2' w3 w3' x1 x1' x2 x2' x3 x3'
      ext i j
      fin_cases i <;> fin_cases j <;> simp <;> linarith
    · simp at h
  · intro h
    have h3 := (quad_le_top hW hVV hE (![1, 0, 0, 0]) (by simp [dotProduct, Fin.sum_univ_four])).2.1
    rw [h, horn_zero, Matrix.zero_mulVec, dotProduct_zero] at h3
    rw [if_pos h3.symm.le]

end AbsoluteOrientation

variable {syev : Mat ℝ 4 4 → Option (Vec ℝ 4 × Mat ℝ 4 4)}

/-- **C38** The returned pose is a rigid motion, and no rigid motion, given by any rotation matrix
and any translation, has a smaller sum of squared distances. -/
theorem C38_pose_optimal (hs : SymmetricEigensolver syev) (left right : List (Vec ℝ 3))
    (hlen : left.length = right.length) (hne : left ≠ []) (p : Pose ℝ)
    (h : estimatePose syev left right = some p) :
    UnitQ p.rotation ∧ ∀ (R : Mat ℝ 3 3) (t : Vec ℝ 3), IsRotation R →
      alignError left right p.apply ≤ alignError left right fun b => R *ᵥ b + t := by
  obtain ⟨hr, ht⟩ := estimatePose_some hlen h
  obtain ⟨hu, hopt⟩ := estimateRotationAt_spec hs hr
  refine ⟨hu, fun R t hR => ?_⟩
  have hM := C03_quaternion_to_matrix _ hu
  have ha : p.apply = fun b => toMatrix p.rotation *ᵥ b + p.translation := by
    ext1 v; exact apply_eq_toMatrix hu v
  rw [ha, alignError_split left right hlen hne hM.2.1, alignError_split left right hlen hne hR.1]
  have hz : lenSq (mean left - toMatrix p.rotation *ᵥ mean right - p.translation) = 0 := by
    rw [hM.1, ht]; simp [lenSq]
  rw [hz, mul_zero]
  have h1 := hopt R hR
  have h2 : 0 ≤ (left.length : ℝ) * lenSq (mean left - R *ᵥ mean right - t) := by
    unfold lenSq; positivity
  linarith

/-- **C38** The rotation estimate is a unit quaternion, its matrix form a rotation matrix, and it
is the best rotation of the centred points. -/
theorem C38_rotation_optimal (hs : SymmetricEigensolver syev) (left right : List (Vec ℝ 3))
    (hlen : left.length = right.length) (q : Quat ℝ)
    (h : estimateRotation syev left right = some q) :
    UnitQ q ∧ estimateRotationMatrix syev left right = some (toMatrix q) ∧
      IsRotation (toMatrix q) ∧
      ∀ R, IsRotation R →
        alignError (left.map (· - mean left)) (right.map (· - mean right)) q.rotate ≤
        alignError (left.map (· - mean left)) (right.map (· - mean right)) fun b => R *ᵥ b := by
  have hr := h
  simp only [estimateRotation, centroid_eq left] at hr
  rw [hlen, centroid_eq right] at hr
  obtain ⟨hu, hopt⟩ := estimateRotationAt_spec hs hr
  have hM := C03_quaternion_to_matrix _ hu
  refine ⟨hu, by simp [estimateRotationMatrix, h], ⟨hM.2.1, hM.2.2.2⟩, fun R hR => ?_⟩
  have key : ∀ (S : Mat ℝ 3 3), Sᵀ * S = 1 →
      alignError (left.map (· - mean left)) (right.map (· - mean right)) (fun b => S *ᵥ b) =
      ((left.zip right).map fun p => lenSq (p.1 - mean left) + lenSq (p.2 - mean right)).sum
      - 2 * ((left.zip right).map fun p => corr S (p.1 - mean left) (p.2 - mean right)).sum := by
    intro S hS
    rw [alignError, List.zip_map, List.map_map]
    induction left.zip right with
    | nil => simp
    | cons x xs ih =>
      simp only [List.map_cons, List.sum_cons, ih, Function.comp_apply, Prod.map]
      have := pair_split hS 0 0 0 (x.1 - mean left) (x.2 - mean right)
      simp [lenSq, Matrix.mulVec_zero] at this
      simp only [lenSq, Pi.sub_apply, corr] at this ⊢
      linarith
  have hq : q.rotate = fun b => toMatrix q *ᵥ b := by ext1 v; exact (hM.1 v).symm
  rw [hq, key _ hM.2.1, key _ hR.1]
  have := hopt R hR
  linarith

/-- **C38** Given a convergent eigensolver, the estimate fails exactly when the two point sets are
uncorrelated (for instance when all points of one side coincide), when no rotation is
distinguished. -/
theorem C38_fails_iff (hs : SymmetricEigensolver syev) (hc : SymmetricConvergent syev)
    (left right : List (Vec ℝ 3)) (hlen : left.length = right.length) :
    estimatePose syev left right = none ↔ ∀ i j, crossCovariance left right i j = 0 := by
  have h1 : estimatePose syev left right = none ↔
      crossSum left right (mean left) (mean right) = 0 := by
    rw [← estimateRotationAt_none hs hc]
    simp only [estimatePose, estimatePoseAt, centroid_eq left]
    rw [hlen, centroid_eq right]
    split <;> simp_all
  rw [h1, crossSum_eq]
  have h2 : ∀ (L : List (Vec ℝ 3 × Vec ℝ 3)) (i j : Fin 3), (L.map fun p =>
      (Matrix.of fun i j => (p.2 - mean right) i * (p.1 - mean left) j : Mat ℝ 3 3)).sum i j =
      (L.map fun p => (p.1 - mean left) j * (p.2 - mean right) i).sum := by
    intro L i j
    induction L with
    | nil => simp
    | cons x xs ih =>
      simp only [List.map_cons, List.sum_cons, Matrix.add_apply, ih, Matrix.of_apply]; ring
  constructor
  · intro h i j
    have := congrFun (congrFun h j) i
    rw [h2] at this; exact this
  · intro h
    ext i j
    rw [h2]; exact h j i

/-- **C38** Noise-free data: if the left points are the images of the right points under a rigid
motion, and not all right points coincide, the estimate succeeds and maps every right point to
its left point. -/
theorem C38_exact (hs : SymmetricEigensolver syev) (hc : SymmetricConvergent syev)
    (right : List (Vec ℝ 3)) (R : Mat ℝ 3 3) (t : Vec ℝ 3) (hR : IsRotation R)
    (hd : ∃ b ∈ right, ∃ c ∈ right, b ≠ c) :
    ∃ p, estimatePose syev (right.map fun b => R *ᵥ b + t) right = some p ∧
      ∀ b ∈ right, p.apply b = R *ᵥ b + t := by
  obtain ⟨left, hleft⟩ : ∃ left, left = right.map fun b => R *ᵥ b + t := ⟨_, rfl⟩
  rw [← hleft]
  have hlen : left.length = right.length := by simp [hleft]
  have hne : left ≠ [] := by
    obtain ⟨b, hb, _⟩ := hd
    rw [hleft]; intro h; simp at h; simp [h] at hb
  have hzip : ∀ (f : Vec ℝ 3 × Vec ℝ 3 → ℝ), ((left.zip right).map f) =
      right.map fun b => f (R *ᵥ b + t, b) := by
    intro f
    rw [hleft]
    clear hd hlen hne hleft
    induction right with
    | nil => rfl
    | cons x xs ih => simp [ih]
  have hzero : alignError left right (fun b => R *ᵥ b + t) = 0 := by
    rw [alignError, hzip]; simp [lenSq]
  -- the estimate succeeds
  have hsome : ∃ p, estimatePose syev left right = some p := by
    by_contra hn
    have hnone : estimatePose syev left right = none := by
      cases he : estimatePose syev left right with
      | none => rfl
      | some p => exact absurd ⟨p, he⟩ hn
    have hcov := (C38_fails_iff hs hc left right hlen).mp hnone
    have hcorr : ((left.zip right).map fun p => corr R (p.1 - mean left) (p.2 - mean right)).sum = 0 := by
      have : ∀ L : List (Vec ℝ 3 × Vec ℝ 3),
          (L.map fun p => corr R (p.1 - mean left) (p.2 - mean right)).sum =
          ∑ i, ∑ j, R i j * (L.map fun p => (p.1 - mean left) i * (p.2 - mean right) j).sum := by
        intro L
        induction L with
        | nil => simp
        | cons x xs ih =>
          simp only [List.map_cons, List.sum_cons, ih]
          simp only [corr, dotProduct, Matrix.mulVec, Fin.sum_univ_three]
          ring
      rw [this]
      apply Finset.sum_eq_zero; intro i _
      apply Finset.sum_eq_zero; intro j _
      have := hcov i j
      rw [crossCovariance] at this
      rw [this, mul_zero]
    have hsplit := alignError_split left right hlen hne hR.1 t
    rw [hzero, hcorr] at hsplit
    have hall : ∀ y ∈ right, lenSq (y - mean right) = 0 := by
      have n1 : 0 ≤ (left.map fun x => lenSq (x - mean left)).sum := by
        apply List.sum_nonneg
        intro x hx; obtain ⟨y, _, rfl⟩ := List.mem_map.mp hx; unfold lenSq; positivity
      have n2 : 0 ≤ (right.map fun x => lenSq (x - mean right)).sum := by
        apply List.sum_nonneg
        intro x hx; obtain ⟨y, _, rfl⟩ := List.mem_map.mp hx; unfold lenSq; positivity
      have n3 : 0 ≤ (left.length : ℝ) * lenSq (mean left - R *ᵥ mean right - t) := by
        unfold lenSq; positivity
      have hz : (right.map fun x => lenSq (x - mean right)).sum = 0 := by linarith
      intro y hy
      exact List.all_zero_of_le_zero_le_of_sum_eq_zero
        (l := right.map fun x => lenSq (x - mean right))
        (by intro x hx; obtain ⟨y, _, rfl⟩ := List.mem_map.mp hx; unfold lenSq; positivity) hz
        (List.mem_map.mpr ⟨y, hy, rfl⟩)
    obtain ⟨b, hb, c, hcm, hbc⟩ := hd
    apply hbc
    have z1 := hall b hb
    have z2 := hall c hcm
    rw [sub_eq_zero.mp (eq_zero_of_lenSq _ z1), sub_eq_zero.mp (eq_zero_of_lenSq _ z2)]
  obtain ⟨p, hp⟩ := hsome
  refine ⟨p, hp, fun b hb => ?_⟩
  have hle := (C38_pose_optimal hs left right hlen hne p hp).2 R t hR
  rw [hzero, alignError, hzip] at hle
  have nn : ∀ x ∈ (right.map fun b => lenSq (R *ᵥ b + t - p.apply b)), 0 ≤ x := by
    intro x hx; obtain ⟨y, _, rfl⟩ := List.mem_map.mp hx; unfold lenSq; positivity
  have hz := le_antisymm hle (List.sum_nonneg nn)
  have h1 := List.all_zero_of_le_zero_le_of_sum_eq_zero nn hz (List.mem_map.mpr ⟨b, hb, rfl⟩)
  exact (sub_eq_zero.mp (eq_zero_of_lenSq _ h1)).symm

/-- **C38** Noise-free data with three points not on a line: the estimate is the true motion. -/
theorem C38_unique (hs : SymmetricEigensolver syev) (hc : SymmetricConvergent syev)
    (right : List (Vec ℝ 3)) (R : Mat ℝ 3 3) (t : Vec ℝ 3) (hR : IsRotation R)
    (hd : NotCollinear right) :
    ∃ p, estimatePose syev (right.map fun b => R *ᵥ b + t) right = some p ∧
      UnitQ p.rotation ∧ toMatrix p.rotation = R ∧ p.translation = t ∧
      ∀ v, p.apply v = R *ᵥ v + t := by
  obtain ⟨a, ha, b, hb, c, hcm, hx⟩ := hd
  have hab : a ≠ b := by
    rintro rfl; apply hx; rw [sub_self, map_zero, LinearMap.zero_apply]
  obtain ⟨p, hp, hmap⟩ := C38_exact hs hc right R t hR ⟨a, ha, b, hb, hab⟩
  have hne : right.map (fun b => R *ᵥ b + t) ≠ [] := by
    intro h; simp at h; simp [h] at ha
  have hu := (C38_pose_optimal hs _ _ (by simp) hne p hp).1
  have hM := C03_quaternion_to_matrix _ hu
  have ea := hmap a ha
  have eb := hmap b hb
  have ec := hmap c hcm
  rw [apply_eq_toMatrix hu] at ea eb ec
  have hrot : toMatrix p.rotation = R := by
    refine rotation_ext ⟨hM.2.1, hM.2.2.2⟩ hR (b - a) (c - a) hx ?_ ?_
    · rw [Matrix.mulVec_sub, Matrix.mulVec_sub]
      calc _ = (toMatrix p.rotation *ᵥ b + p.translation) -
            (toMatrix p.rotation *ᵥ a + p.translation) := by abel
        _ = _ := by rw [ea, eb]; abel
    · rw [Matrix.mulVec_sub, Matrix.mulVec_sub]
      calc _ = (toMatrix p.rotation *ᵥ c + p.translation) -
            (toMatrix p.rotation *ᵥ a + p.translation) := by abel
        _ = _ := by rw [ea, ec]; abel
  have htr : p.translation = t := by
    rw [hrot] at ea; exact add_left_cancel ea
  refine ⟨p, hp, hu, hrot, htr, fun v => ?_⟩
  rw [apply_eq_toMatrix hu, hrot, htr]

/-- **C38** The old entry point maps the left points to the right points: its result is the best
motion in that direction whenever the estimation succeeds. -/
theorem C38_old_entry_point (hs : SymmetricEigensolver syev) (hc : SymmetricConvergent syev)
    (left right : List (Vec ℝ 3)) (hlen : left.length = right.length) (hne : left ≠ [])
    (hcov : ∃ i j, crossCovariance right left i j ≠ 0) :
    UnitQ (calculateAbsoluteOrientation syev left right).rotation ∧
    ∀ (R : Mat ℝ 3 3) (t : Vec ℝ 3), IsRotation R →
      alignError right left (calculateAbsoluteOrientation syev left right).apply ≤
        alignError right left fun b => R *ᵥ b + t := by
  cases he : estimatePose syev right left with
  | none =>
    obtain ⟨i, j, hij⟩ := hcov
    exact absurd ((C38_fails_iff hs hc right left hlen.symm).mp he i j) hij
  | some p =>
    have hne' : right ≠ [] := by
      rintro rfl; simp at hlen; exact hne hlen
    simp only [calculateAbsoluteOrientation, he, Option.getD_some]
    exact C38_pose_optimal hs right left hlen.symm hne' p he

namespace AbsoluteOrientation

theorem spread_eq (l : List (Vec ℝ 3)) (c : Vec ℝ 3) :
    spread l c = (l.map fun x => lenSq (x - c)).sum := by
  have : ∀ (l : List (Vec ℝ 3)) (a : ℝ),
      l.foldl (fun acc p =>
        let r := p - c
        acc + (r 0 * r 0 + r 1 * r 1 + r 2 * r 2)) a =
      a + (l.map fun x => lenSq (x - c)).sum := by
    intro l
    induction l with
    | nil => simp
    | cons x xs ih =>
      intro a
      rw [List.foldl_cons, ih, List.map_cons, List.sum_cons]
      simp only [lenSq]; ring
  rw [spread, this, zero_add]

theorem mean_similarity (l : List (Vec ℝ 3)) (hl : l ≠ []) (S : Mat ℝ 3 3) (t : Vec ℝ 3) :
    mean (l.map fun b => S *ᵥ b + t) = S *ᵥ mean l + t := by
  have h1 : ∀ l : List (Vec ℝ 3),
      (l.map fun b => S *ᵥ b + t).sum = S *ᵥ l.sum + (l.length : ℝ) • t := by
    intro l
    induction l with
    | nil => simp
    | cons x xs ih =>
      rw [List.map_cons, List.sum_cons, ih, List.sum_cons, Matrix.mulVec_add, List.length_cons]
      push_cast
      rw [add_smul, one_smul]; abel
  have hn : (l.length : ℝ) ≠ 0 := by simpa using hl
  ext i
  simp only [mean, List.length_map, h1]
  have : (S *ᵥ fun i => l.sum i / (l.length : ℝ)) i = (S *ᵥ l.sum) i / l.length := by
    simp only [Matrix.mulVec, dotProduct, Fin.sum_univ_three]; ring
  simp only [Pi.add_apply, Pi.smul_apply, smul_eq_mul]
  rw [show (mean l) = fun i => l.sum i / (l.length : ℝ) from rfl, this]
  field_simp

end AbsoluteOrientation

/-- **C38** The estimated scale of points that were rotated, scaled by `s` and moved is `s`. -/
theorem C38_scale (right : List (Vec ℝ 3)) (R : Mat ℝ 3 3) (t : Vec ℝ 3) (s : ℝ) (hs : 0 ≤ s)
    (hR : Rᵀ * R = 1) (hd : ∃ b ∈ right, ∃ c ∈ right, b ≠ c) :
    estimateScale (right.map fun b => s • (R *ᵥ b) + t) right = s := by
  obtain ⟨b, hb, c, hc, hbc⟩ := hd
  have hne : right ≠ [] := by rintro rfl; simp at hb
  have hm := mean_similarity right hne (s • R) t
  simp only [Matrix.smul_mulVec] at hm
  have hnn : ∀ x ∈ right.map fun x => lenSq (x - mean right), 0 ≤ x := by
    intro x hx; obtain ⟨y, _, rfl⟩ := List.mem_map.mp hx; exact lenSq_nonneg _
  have hpos : 0 < (right.map fun x => lenSq (x - mean right)).sum := by
    rcases (List.sum_nonneg hnn).lt_or_eq with h | h
    · exact h
    · exfalso
      have z := fun (y : Vec ℝ 3) (hy : y ∈ right) =>
        List.all_zero_of_le_zero_le_of_sum_eq_zero hnn h.symm (List.mem_map.mpr ⟨y, hy, rfl⟩)
      apply hbc
      rw [sub_eq_zero.mp (eq_zero_of_lenSq _ (z b hb)), sub_eq_zero.mp (eq_zero_of_lenSq _ (z c hc))]
  have hleft : spread (right.map fun b => s • (R *ᵥ b) + t) (s • (R *ᵥ mean right) + t) =
      s ^ 2 * (right.map fun x => lenSq (x - mean right)).sum := by
    rw [spread_eq, List.map_map, ← List.sum_map_mul_left]
    congr 1
    apply List.map_congr_left
    intro x _
    have e : s • (R *ᵥ x) + t - (s • (R *ᵥ mean right) + t) = s • (R *ᵥ (x - mean right)) := by
      rw [Matrix.mulVec_sub, smul_sub]; abel
    have := rotation_length hR (x - mean right)
    simp only [Function.comp_apply, e]
    rw [← this]
    simp only [lenSq, Pi.smul_apply, smul_eq_mul]; ring
  have hc1 := centroid_eq (right.map fun b => s • (R *ᵥ b) + t)
  rw [List.length_map, hm] at hc1
  simp only [estimateScale, List.length_map, hc1, centroid_eq, hleft]
  rw [spread_eq, mul_div_assoc, div_self hpos.ne', mul_one, Real.sqrt_sq hs]

/-- **C38** The residual is a third of the mean distance between corresponding points; it is zero
exactly when the pose maps every right point to its left point. -/
theorem C38_residual (left right : List (Vec ℝ 3)) (hne : left ≠ []) (pose : Pose ℝ) :
    AbsoluteOrientation.residual left right pose =
      ((left.zip right).map fun p => Real.sqrt (lenSq (p.1 - pose.apply p.2))).sum /
        (3 * left.length) ∧
    (AbsoluteOrientation.residual left right pose = 0 ↔ ∀ p ∈ left.zip right, pose.apply p.2 = p.1) := by
  have hfold : ∀ (l : List ℝ) (a : ℝ), l.foldl (fun a e => a + e) a = a + l.sum := by
    intro l
    induction l with
    | nil => simp
    | cons x xs ih => intro a; rw [List.foldl_cons, ih, List.sum_cons, add_assoc]
  have h3 : ∀ v : Vec ℝ 3, Quat.norm3 v = Real.sqrt (lenSq v) := by
    intro v; rw [Quat.norm3, lenSq]; ring_nf
  have h1 : AbsoluteOrientation.residual left right pose =
      ((left.zip right).map fun p => Real.sqrt (lenSq (p.1 - pose.apply p.2))).sum /
        (3 * left.length) := by
    simp only [AbsoluteOrientation.residual, hfold, zero_add, h3]
  refine ⟨h1, ?_⟩
  have hn : (3 * left.length : ℝ) ≠ 0 := by
    have : (left.length : ℝ) ≠ 0 := by simpa using hne
    positivity
  have hnn : ∀ x ∈ (left.zip right).map fun p => Real.sqrt (lenSq (p.1 - pose.apply p.2)), 0 ≤ x := by
    intro x hx; obtain ⟨y, _, rfl⟩ := List.mem_map.mp hx; exact Real.sqrt_nonneg _
  rw [h1, div_eq_zero_iff]
  constructor
  · rintro (h | h)
    · intro p hp
      have := List.all_zero_of_le_zero_le_of_sum_eq_zero hnn h (List.mem_map.mpr ⟨p, hp, rfl⟩)
      rw [Real.sqrt_eq_zero (lenSq_nonneg _)] at this
      exact (sub_eq_zero.mp (eq_zero_of_lenSq _ this)).symm
    · exact absurd h hn
  · intro h
    left
    apply List.sum_eq_zero
    intro x hx
    obtain ⟨p, hp, rfl⟩ := List.mem_map.mp hx
    simp [h p hp, lenSq]

/-! ## The hypotheses are satisfiable -/

/-- A convergent symmetric eigensolver exists for every size (spectral theorem). -/
theorem exists_symmetricEigensolver (n : ℕ) :
    ∃ syev : Mat ℝ n n → Option (Vec ℝ n × Mat ℝ n n),
      SymmetricEigensolver syev ∧ SymmetricConvergent syev := by
  have key : ∀ N : Mat ℝ n n, ∃ r : Vec ℝ n × Mat ℝ n n, N.IsSymm →
      Monotone r.1 ∧ r.2ᵀ * r.2 = 1 ∧ ∀ k, N *ᵥ (fun i => r.2 i k) = r.1 k • fun i => r.2 i k := by
    intro N
    by_cases hN : N.IsSymm
    · have hH : N.IsHermitian := by
        rw [Matrix.IsHermitian, Matrix.conjTranspose_eq_transpose_of_trivial]; exact hN
      obtain ⟨σ, hσ⟩ : ∃ σ : Equiv.Perm (Fin n), σ = Tuple.sort hH.eigenvalues := ⟨_, rfl⟩
      let U : Mat ℝ n n := (hH.eigenvectorUnitary : Matrix (Fin n) (Fin n) ℝ)
      have hU : Uᵀ * U = 1 := by
        have := (Matrix.mem_unitaryGroup_iff').mp hH.eigenvectorUnitary.2
        rwa [Matrix.star_eq_conjTranspose, Matrix.conjTranspose_eq_transpose_of_trivial] at this
      refine ⟨(hH.eigenvalues ∘ σ, U.submatrix id σ), fun _ => ⟨?_, ?_, fun k => ?_⟩⟩
      · rw [hσ]; exact Tuple.monotone_sort hH.eigenvalues
      · ext i j
        have := congrFun (congrFun hU (σ i)) (σ j)
        simp only [Matrix.mul_apply, Matrix.transpose_apply, Matrix.submatrix_apply, id_eq,
          Matrix.one_apply, EmbeddingLike.apply_eq_iff_eq] at this ⊢
        exact this
      · have := hH.mulVec_eigenvectorBasis (σ k)
        simpa [U, Matrix.IsHermitian.eigenvectorUnitary_apply] using this
    · exact ⟨(0, 0), fun h => absurd h hN⟩
  choose f hf using key
  refine ⟨fun N => some (f N), ?_, fun N _ => ⟨_, rfl⟩⟩
  intro N hN W V h
  simp only [Option.some.injEq] at h
  have := hf N hN
  rw [h] at this
  exact this

/-- Concrete non-collinear points. -/
example : NotCollinear [![0, 0, 0], ![1, 0, 0], ![0, 1, 0]] := by
  refine ⟨![0, 0, 0], by simp, ![1, 0, 0], by simp, ![0, 1, 0], by simp, ?_⟩
  intro h
  have := congrFun h 2
  simp [crossProduct] at this

/-- A concrete data set that satisfies the hypotheses of `C38_exact`, `C38_unique` and
`C38_scale`, and hence those of `C38_pose_optimal` and `C38_rotation_optimal`. -/
example : IsRotation (!![0, -1, 0; 1, 0, 0; 0, 0, 1] : Mat ℝ 3 3) := by
  constructor
  · ext i j; fin_cases i <;> fin_cases j <;> simp [Matrix.mul_apply, Fin.sum_univ_three]
  · simp [Matrix.det_fin_three]

end Ubitrack
