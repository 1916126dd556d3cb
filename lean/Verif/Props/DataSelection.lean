import Verif.Model.DataSelection
import Verif.Spec.DataSelection
import Verif.Props.KMeans
import Verif.Props.HandEye
import Verif.Props.RotationCast

/-!
# C69: selection of poses for the hand-eye calibration
-/

namespace Ubitrack.DataSelection
open Spec KMeans HandEye RotationCast
open scoped Matrix

/-! ## Conversions -/

lemma vec3_eta (r : Vec ℝ 3) : ![r 0, r 1, r 2] = r := by
  funext i
  fin_cases i <;> rfl

/-- Every unit quaternion has an axis; its rotation vector is the angle times the axis. -/
lemma quatToVector_form (q : Quat ℝ) (hq : UnitQ q) : ∃ n : Vec ℝ 3, n ⬝ᵥ n = 1 ∧
    ((q.w ^ 2 = 1 ∧ quatToVector q = some 0) ∨ (quatToVector q = some ((2 * Real.arccos q.w) • n) ∧ -1 ≤ q.w ∧ q.w ≤ 1 ∧
      q = ⟨n 0 * Real.sin (Real.arccos q.w), n 1 * Real.sin (Real.arccos q.w), n 2 * Real.sin (Real.arccos q.w), q.w⟩)) := by
  by_cases h : q.w ^ 2 = 1
  · refine ⟨![1, 0, 0], by simp, Or.inl ⟨h, ?_⟩⟩
    have hu := hq
    unfold UnitQ at hu
    have hx : q.x = 0 := by nlinarith [sq_nonneg q.x, sq_nonneg q.y, sq_nonneg q.z]
    have hz3 : (![0, 0, 0] : Vec ℝ 3) = 0 := by funext i; fin_cases i <;> rfl
    rw [quatToVector, quatToAxisAngle, if_pos (by nlinarith)]
    simp [hx, hz3]
  · obtain ⟨s, hs, hs0, hss, hpos⟩ := sqrt_imag q hq h
    have hw1 : -1 < q.w := by nlinarith
    have hw2 : q.w < 1 := by nlinarith
    have e2 : Real.sin (Real.arccos q.w) = s := by rw [Real.sin_arccos, hs, pow_two]
    have hn : (![q.x / s, q.y / s, q.z / s] : Vec ℝ 3) ⬝ᵥ ![q.x / s, q.y / s, q.z / s] = 1 := by
      rw [norm_sq]
      simp only [Matrix.cons_val]
      field_simp
      linear_combination -hss
    refine ⟨![q.x / s, q.y / s, q.z / s], hn, Or.inr ⟨?_, hw1.le, hw2.le, ?_⟩⟩
    · have := C63_axis_angle_to_vector ![q.x / s, q.y / s, q.z / s] hn (2 * Real.arccos q.w)
      rw [quatToVector, quatToAxisAngle, if_neg (not_le.mpr hpos), ← hs, ← this]
      rfl
    · rw [e2]
      simp only [Matrix.cons_val, div_mul_cancel₀ _ hs0.ne']

lemma length_smul (n : Vec ℝ 3) (hn : n ⬝ᵥ n = 1) (t : ℝ) (ht : 0 ≤ t) :
    Real.sqrt ((t • n) 0 * (t • n) 0 + (t • n) 1 * (t • n) 1 + (t • n) 2 * (t • n) 2) = t := by
  rw [norm_sq] at hn
  rw [show (t • n) 0 * (t • n) 0 + (t • n) 1 * (t • n) 1 + (t • n) 2 * (t • n) 2 = t ^ 2 by
    simp only [Pi.smul_apply, smul_eq_mul]; linear_combination t ^ 2 * hn]
  exact Real.sqrt_sq ht

lemma vectorToQuat_smul (n : Vec ℝ 3) (hn : n ⬝ᵥ n = 1) (t : ℝ) (ht : 0 ≤ t) :
    vectorToQuat (t • n) = if t < 1e-10 then ⟨0, 0, 0, 1⟩ else
      ⟨n 0 * Real.sin (t / 2), n 1 * Real.sin (t / 2), n 2 * Real.sin (t / 2), Real.cos (t / 2)⟩ := by
  have hl := length_smul n hn t ht
  simp only [vectorToQuat]
  rw [hl]
  split_ifs with h
  · rfl
  · have h0 : t ≠ 0 := by
      intro h0
      rw [h0] at h
      norm_num at h
    simp [axisAngleToQuat, h0]

/-- The rotation vector and the translation in one vector. -/
def six (r t : Vec ℝ 3) : Vec ℝ 6 := ![r 0, r 1, r 2, t 0, t 1, t 2]

lemma sixToPose_six (r t : Vec ℝ 3) : sixToPose (six r t) = ⟨vectorToQuat r, t⟩ := by
  simp only [sixToPose, six, Matrix.cons_val, vec3_eta]

lemma poseToSix_eq (P : Pose ℝ) (r : Vec ℝ 3) (h : quatToVector P.rotation = some r) : poseToSix P = some (six r P.translation) := by
  rw [poseToSix, h]
  rfl

lemma align_six (n t : Vec ℝ 3) (hn : n ⬝ᵥ n = 1) (a : ℝ) (ha : 0 ≤ a) :
    align (six (a • n) t) = if Real.pi < a then six ((2 * Real.pi - a) • n) t else six (a • n) t := by
  have hl := length_smul n hn a ha
  simp only [align, six, Matrix.cons_val, gt_iff_lt]
  rw [hl]
  split_ifs with h
  · have h0 : a ≠ 0 := by
      have := Real.pi_pos
      intro h0
      linarith
    have e : ∀ i, (a • n) i * ((2 * Real.pi - a) / a) = ((2 * Real.pi - a) • n) i := by
      intro i
      simp only [Pi.smul_apply, smul_eq_mul]
      field_simp
    rw [e, e, e]
  · rfl

lemma cos_bound {t : ℝ} (h0 : 0 ≤ t) (h : t < 1e-10) : 1 - 1e-20 ≤ Real.cos (t / 2) ^ 2 := by
  have h1 := Real.one_sub_sq_div_two_le_cos (x := t / 2)
  have h2 : t ^ 2 ≤ 1e-20 := by
    have : t * t ≤ 1e-10 * 1e-10 := by nlinarith
    calc t ^ 2 = t * t := sq t
      _ ≤ 1e-10 * 1e-10 := this
      _ = 1e-20 := by norm_num
  have h3 : (0 : ℝ) ≤ 1 - (t / 2) ^ 2 / 2 := by nlinarith
  nlinarith [mul_self_nonneg ((t / 2) ^ 2 / 2)]

/-- **C69** The conversion of a pose to six numbers and back restores the pose. -/
theorem C69_round_trip (P : Pose ℝ) (hP : UnitQ P.rotation) : ∃ v, poseToSix P = some v ∧ AlmostSame (sixToPose v) P := by
  obtain ⟨n, hn, h⟩ := quatToVector_form P.rotation hP
  rcases h with ⟨hw, h⟩ | ⟨h, hw1, hw2, hq⟩
  · refine ⟨_, poseToSix_eq P _ h, ?_⟩
    rw [sixToPose_six]
    refine ⟨rfl, Or.inr ⟨?_, by rw [hw]; norm_num⟩⟩
    have := vectorToQuat_smul n hn 0 le_rfl
    rw [zero_smul, if_pos (by norm_num)] at this
    exact this
  · refine ⟨_, poseToSix_eq P _ h, ?_⟩
    rw [sixToPose_six]
    have ht : 0 ≤ 2 * Real.arccos P.rotation.w := by linarith [Real.arccos_nonneg P.rotation.w]
    have hh : 2 * Real.arccos P.rotation.w / 2 = Real.arccos P.rotation.w := by ring
    rw [vectorToQuat_smul n hn _ ht]
    split_ifs with hs
    · refine ⟨rfl, Or.inr ⟨rfl, ?_⟩⟩
      have := cos_bound ht hs
      rwa [hh, Real.cos_arccos hw1 hw2] at this
    · refine ⟨rfl, Or.inl (Or.inl ?_)⟩
      simp only
      rw [hh, Real.cos_arccos hw1 hw2, ← hq]

/-- The aligned vector of a relative pose: the pose itself if the scalar part of its quaternion is not negative, the inverse rotation otherwise. -/
lemma aligned (P : Pose ℝ) (hP : UnitQ P.rotation) : ∃ v, poseToSix P = some v ∧ (∀ i : Fin 6, i < 3 → |align v i| ≤ Real.pi) ∧
    (0 ≤ P.rotation.w → AlmostSame (sixToPose (align v)) P) ∧
    (P.rotation.w < 0 → AlmostSame (sixToPose (align v)) ⟨P.rotation.conj, P.translation⟩) := by
  obtain ⟨n, hn, h⟩ := quatToVector_form P.rotation hP
  have hcoord : ∀ i, |n i| ≤ 1 := by
    intro i
    have := hn
    rw [norm_sq] at this
    rw [abs_le]
    fin_cases i <;> constructor <;> simp only [Fin.zero_eta, Fin.mk_one, Fin.reduceFinMk] <;>
      nlinarith [mul_self_nonneg (n 0), mul_self_nonneg (n 1), mul_self_nonneg (n 2)]
  have hbound : ∀ a : ℝ, 0 ≤ a → a ≤ Real.pi → ∀ t : Vec ℝ 3, ∀ i : Fin 6, i < 3 → |six (a • n) t i| ≤ Real.pi := by
    intro a ha0 ha t i hi
    have key : ∀ j : Fin 3, |(a • n) j| ≤ Real.pi := by
      intro j
      rw [Pi.smul_apply, smul_eq_mul, abs_mul, abs_of_nonneg ha0]
      nlinarith [hcoord j, abs_nonneg (n j)]
    fin_cases i
    · exact key 0
    · exact key 1
    · exact key 2
    all_goals simp at hi
    all_goals exact absurd hi (by decide)
  have hpi := Real.pi_pos
  rcases h with ⟨hw, h⟩ | ⟨h, hw1, hw2, hq⟩
  · have ha := align_six n P.translation hn 0 le_rfl
    rw [if_neg (not_lt.mpr hpi.le), zero_smul] at ha
    refine ⟨_, poseToSix_eq P _ h, ?_, ?_⟩
    · rw [ha]
      have := hbound 0 le_rfl hpi.le P.translation
      rwa [zero_smul] at this
    · rw [ha, sixToPose_six]
      have := vectorToQuat_smul n hn 0 le_rfl
      rw [zero_smul, if_pos (by norm_num)] at this
      rw [this]
      exact ⟨fun _ => ⟨rfl, Or.inr ⟨rfl, by rw [hw]; norm_num⟩⟩, fun _ => ⟨rfl, Or.inr ⟨rfl, by simp only [Quat.conj]; rw [hw]; norm_num⟩⟩⟩
  · have ht : 0 ≤ 2 * Real.arccos P.rotation.w := by linarith [Real.arccos_nonneg P.rotation.w]
    have hh : 2 * Real.arccos P.rotation.w / 2 = Real.arccos P.rotation.w := by ring
    have ha := align_six n P.translation hn _ ht
    refine ⟨_, poseToSix_eq P _ h, ?_, ?_, ?_⟩
    · rw [ha]
      split_ifs with hl
      · exact hbound _ (by linarith [Real.arccos_le_pi P.rotation.w]) (by linarith) _
      · exact hbound _ ht (not_lt.mp hl) _
    · intro hw
      have : Real.arccos P.rotation.w ≤ Real.pi / 2 := Real.arccos_le_pi_div_two.mpr hw
      rw [ha, if_neg (by linarith), sixToPose_six, vectorToQuat_smul n hn _ ht]
      split_ifs with hs
      · refine ⟨rfl, Or.inr ⟨rfl, ?_⟩⟩
        have := cos_bound ht hs
        rwa [hh, Real.cos_arccos hw1 hw2] at this
      · refine ⟨rfl, Or.inl (Or.inl ?_)⟩
        simp only
        rw [hh, Real.cos_arccos hw1 hw2, ← hq]
    · intro hw
      have : Real.pi / 2 < Real.arccos P.rotation.w := by
        by_contra hc
        have := Real.arccos_le_pi_div_two.mp (not_lt.mp hc)
        linarith
      have hh2 : (2 * Real.pi - 2 * Real.arccos P.rotation.w) / 2 = Real.pi - Real.arccos P.rotation.w := by ring
      have ht2 : 0 ≤ 2 * Real.pi - 2 * Real.arccos P.rotation.w := by linarith [Real.arccos_le_pi P.rotation.w]
      rw [ha, if_pos (by linarith), sixToPose_six, vectorToQuat_smul n hn _ ht2]
      split_ifs with hs
      · refine ⟨rfl, Or.inr ⟨rfl, ?_⟩⟩
        have := cos_bound ht2 hs
        rw [hh2, Real.cos_pi_sub, Real.cos_arccos hw1 hw2, neg_sq] at this
        exact this
      · refine ⟨rfl, Or.inl (Or.inr ?_)⟩
        have hx := congrArg Quat.x hq
        have hy := congrArg Quat.y hq
        have hz := congrArg Quat.z hq
        simp only at hx hy hz
        rw [hh2, Real.cos_pi_sub, Real.sin_pi_sub, Real.cos_arccos hw1 hw2, ← hx, ← hy, ← hz]
        simp [Quat.conj]

/-! ## The pairs of times -/

lemma allPairs_map {α β γ : Type*} (f : β → β → γ) (φ : α → β) (l : List α) : allPairs f (l.map φ) = allPairs (fun a b => f (φ a) (φ b)) l := by
  induction l with
  | nil => rfl
  | cons a l ih => simp [allPairs, ih, Function.comp_def]

lemma allPairs_comp {α β γ : Type*} (F : β → γ) (op : α → α → β) (l : List α) : allPairs (fun a b => F (op a b)) l = (allPairs op l).map F := by
  induction l with
  | nil => rfl
  | cons a l ih => simp [allPairs, ih, Function.comp_def]

/-- The pairs of times in the order of the code. -/
def times (n : ℕ) : List (Fin n × Fin n) := allPairs (fun k i => (i, k)) (List.finRange n)

lemma allPairs_ofFn {n : ℕ} (op : Pose ℝ → Pose ℝ → Pose ℝ) (e : Fin n → Pose ℝ) :
    allPairs op (List.ofFn e) = (times n).map fun p => op (e p.2) (e p.1) := by
  rw [times, ← allPairs_comp, List.ofFn_eq_map, allPairs_map]

lemma times_lt {n : ℕ} : ∀ p ∈ times n, p.1 < p.2 := by
  have key : ∀ l : List (Fin n), l.Pairwise (· < ·) → ∀ p ∈ allPairs (fun k i => (i, k)) l, p.1 < p.2 := by
    intro l
    induction l with
    | nil => simp [allPairs]
    | cons a l ih =>
      intro h p hp
      rw [List.pairwise_cons] at h
      simp only [allPairs, List.mem_append, List.mem_map] at hp
      rcases hp with ⟨k, hk, rfl⟩ | hp
      · exact h.1 k hk
      · exact ih h.2 p hp
  exact key _ (List.pairwise_lt_finRange n)

lemma mapM_some {α β : Type*} (l : List α) (f : α → Option β) (g : α → β) (h : ∀ a ∈ l, f a = some (g a)) : l.mapM f = some (l.map g) := by
  induction l with
  | nil => rfl
  | cons a l ih =>
    rw [List.mapM_cons, h a (by simp), ih (fun b hb => h b (by simp [hb]))]
    rfl

/-- The six numbers of a pose with a unit quaternion. -/
noncomputable def toSix (P : Pose ℝ) : Vec ℝ 6 := (poseToSix P).getD 0

lemma toSix_spec (P : Pose ℝ) (hP : UnitQ P.rotation) : poseToSix P = some (toSix P) := by
  obtain ⟨v, hv, -⟩ := C69_round_trip P hP
  rw [toSix, hv]
  rfl

lemma unit_eyeMotion {n : ℕ} {eye : Fin n → Pose ℝ} (h : ∀ i, UnitQ (eye i).rotation) (i k : Fin n) : UnitQ (eyeMotion eye i k).rotation :=
  Quat.isUnit_mul (Quat.isUnit_conj (h i)) (h k)

lemma unit_handMotion {n : ℕ} {hand : Fin n → Pose ℝ} (h : ∀ i, UnitQ (hand i).rotation) (i k : Fin n) : UnitQ (handMotion hand i k).rotation :=
  Quat.isUnit_mul (h i) (Quat.isUnit_conj (h k))

lemma relativeSix_ofFn {n : ℕ} (eye hand : Fin n → Pose ℝ) (he : ∀ i, UnitQ (eye i).rotation) (hh : ∀ i, UnitQ (hand i).rotation) :
    relativeSix (List.ofFn eye) (List.ofFn hand) =
      some ((times n).map fun p => align (toSix (eyeMotion eye p.1 p.2)), (times n).map fun p => toSix (handMotion hand p.1 p.2)) := by
  rw [relativeSix, allPairs_ofFn, allPairs_ofFn, mapM_some _ _ toSix, mapM_some _ _ toSix]
  · simp [relForward, relBackward, eyeMotion, handMotion, Function.comp_def]
  · intro a ha
    obtain ⟨p, -, rfl⟩ := List.mem_map.mp ha
    exact toSix_spec _ (unit_handMotion hh p.1 p.2)
  · intro a ha
    obtain ⟨p, -, rfl⟩ := List.mem_map.mp ha
    exact toSix_spec _ (unit_eyeMotion he p.1 p.2)

/-! ## The nearest pair of a cluster -/

/-- What the inner loop knows after some of the labelled pairs. -/
def LoopState (i : ℕ) (codebook : Centroid 6) (seen : List (ℕ × Vec ℝ 6 × Vec ℝ 6)) (s : ℝ × Option (Vec ℝ 6 × Vec ℝ 6)) : Prop :=
  (∀ p, s.2 = some p → (i, p) ∈ seen ∧ ∃ c, codebook = some c ∧ s.1 = rotationDistance c p.1) ∧
  (s.2 = none → s.1 = 10000) ∧ (∀ c, codebook = some c → ∀ q, (i, q) ∈ seen → s.1 ≤ rotationDistance c q.1)

lemma loopState_fold (i : ℕ) (codebook : Centroid 6) (l : List (ℕ × Vec ℝ 6 × Vec ℝ 6)) : ∀ seen s, LoopState i codebook seen s →
    LoopState i codebook (seen ++ l) (l.foldl (nearestStep i codebook) s) := by
  induction l with
  | nil =>
    intro seen s h
    simpa using h
  | cons x l ih =>
    intro seen s h
    rw [List.foldl_cons]
    rw [show seen ++ x :: l = (seen ++ [x]) ++ l by simp]
    apply ih
    obtain ⟨h1, h2, h3⟩ := h
    obtain ⟨k, q⟩ := x
    simp only [nearestStep]
    by_cases hk : i = k
    · subst hk
      rw [if_pos rfl]
      rcases codebook with _ | c
      · exact ⟨fun p hp => by obtain ⟨-, c, hc, -⟩ := h1 p hp; simp at hc, h2, fun c hc => by simp at hc⟩
      · simp only
        split_ifs with hd
        · refine ⟨fun p hp => ?_, fun hn => by simp at hn, fun c' hc' q' hq' => ?_⟩
          · simp only [Option.some.injEq] at hp
            subst hp
            exact ⟨by simp, c, rfl, rfl⟩
          · simp only [Option.some.injEq] at hc'
            subst hc'
            simp only [List.mem_append, List.mem_singleton, Prod.mk.injEq, true_and] at hq'
            rcases hq' with hq' | rfl
            · exact hd.le.trans (h3 c rfl q' hq')
            · exact le_rfl
        · refine ⟨fun p hp => ?_, h2, fun c' hc' q' hq' => ?_⟩
          · obtain ⟨hm, hc⟩ := h1 p hp
            exact ⟨by simp [hm], hc⟩
          · simp only [Option.some.injEq] at hc'
            subst hc'
            simp only [List.mem_append, List.mem_singleton, Prod.mk.injEq, true_and] at hq'
            rcases hq' with hq' | rfl
            · exact h3 c rfl q' hq'
            · exact not_lt.mp hd
    · rw [if_neg hk]
      refine ⟨fun p hp => ?_, h2, fun c' hc' q' hq' => ?_⟩
      · obtain ⟨hm, hc⟩ := h1 p hp
        exact ⟨by simp [hm], hc⟩
      · simp only [List.mem_append, List.mem_singleton, Prod.mk.injEq] at hq'
        rcases hq' with hq' | ⟨h, -⟩
        · exact h3 c' hc' q' hq'
        · exact absurd h hk

lemma loopState_end (i : ℕ) (codebook : Centroid 6) (l : List (ℕ × Vec ℝ 6 × Vec ℝ 6)) :
    LoopState i codebook l (l.foldl (nearestStep i codebook) (10000, none)) := by
  have := loopState_fold i codebook l [] (10000, none) ⟨fun p hp => by simp at hp, fun _ => rfl, fun c _ q hq => by simp at hq⟩
  simpa using this

/-- **C69** The pair chosen for a cluster is one of its members, and no other member is nearer to the mean of the cluster. -/
theorem C69_nearest (i : ℕ) (codebook : Centroid 6) (labelled : List (ℕ × Vec ℝ 6 × Vec ℝ 6)) (p : Vec ℝ 6 × Vec ℝ 6)
    (h : nearest i codebook labelled = some p) :
    (i, p) ∈ labelled ∧ ∃ c, codebook = some c ∧ ∀ q, (i, q) ∈ labelled → rotationDistance c p.1 ≤ rotationDistance c q.1 := by
  obtain ⟨h1, -, h3⟩ := loopState_end i codebook labelled
  obtain ⟨hm, c, hc, hd⟩ := h1 p h
  exact ⟨hm, c, hc, fun q hq => by rw [← hd]; exact h3 c hc q hq⟩

/-- **C69** A cluster that has a mean and a member within the start value of the minimum gets a pair. -/
theorem C69_chosen (i : ℕ) (c : Vec ℝ 6) (labelled : List (ℕ × Vec ℝ 6 × Vec ℝ 6)) (q : Vec ℝ 6 × Vec ℝ 6) (hq : (i, q) ∈ labelled)
    (hd : rotationDistance c q.1 < 10000) : ∃ p, nearest i (some c) labelled = some p := by
  obtain ⟨-, h2, h3⟩ := loopState_end i (some c) labelled
  rcases h : nearest i (some c) labelled with _ | p
  · have := h3 c rfl q hq
    rw [h2 h] at this
    linarith
  · exact ⟨p, rfl⟩

/-! ## The selection -/

variable {n : ℕ} (eye hand : Fin n → Pose ℝ) (he : ∀ i, UnitQ (eye i).rotation) (hh : ∀ i, UnitQ (hand i).rotation) (hn : 3 ≤ n)

/-- The aligned relative poses of the eye. -/
noncomputable def sixEye : List (Vec ℝ 6) := (times n).map fun p => align (toSix (eyeMotion eye p.1 p.2))

include he hh hn in
lemma selectPoses_eq (nSelect first : ℕ) (draws : ℕ → ℝ → ℝ) :
    selectPoses (List.ofFn eye) (List.ofFn hand) nSelect first draws =
      some ((List.range (min (n - 1) nSelect)).map fun i =>
        (nearest i ((clusters (sixEye eye) (min (n - 1) nSelect) first draws).1[i]?.getD none)
          ((clusters (sixEye eye) (min (n - 1) nSelect) first draws).2.zip
            ((times n).map fun p => (align (toSix (eyeMotion eye p.1 p.2)), toSix (handMotion hand p.1 p.2))))).map
          fun p => (sixToPose p.1, sixToPose p.2)) := by
  rw [selectPoses, if_neg (by simp; omega), relativeSix_ofFn eye hand he hh, List.length_ofFn]
  simp only [Option.map_some, List.zip_map']
  rfl

/-- What the selection makes of a relative pose of the eye. -/
def EyeResult (a A : Pose ℝ) : Prop :=
  (0 ≤ A.rotation.w → AlmostSame a A) ∧ (A.rotation.w < 0 → AlmostSame a ⟨A.rotation.conj, A.translation⟩)

include he hh hn in
lemma selected (nSelect first : ℕ) (draws : ℕ → ℝ → ℝ) : ∃ out, selectPoses (List.ofFn eye) (List.ofFn hand) nSelect first draws = some out ∧
    out.length = min (n - 1) nSelect ∧ ∀ a b, some (a, b) ∈ out → ∃ i k : Fin n, i < k ∧ EyeResult a (eyeMotion eye i k) ∧
      AlmostSame b (handMotion hand i k) := by
  refine ⟨_, selectPoses_eq eye hand he hh hn nSelect first draws, by simp, ?_⟩
  intro a b hab
  obtain ⟨i, -, hi⟩ := List.mem_map.mp hab
  obtain ⟨p, hp, hpe⟩ := Option.map_eq_some_iff.mp hi
  have hm := (C69_nearest _ _ _ _ hp).1
  have hm := List.of_mem_zip hm |>.2
  obtain ⟨t, ht, rfl⟩ := List.mem_map.mp hm
  simp only [Prod.mk.injEq] at hpe
  obtain ⟨rfl, rfl⟩ := hpe
  refine ⟨t.1, t.2, times_lt t ht, ?_, ?_⟩
  · obtain ⟨v, hv, -, h1, h2⟩ := aligned _ (unit_eyeMotion he t.1 t.2)
    rw [toSix_spec _ (unit_eyeMotion he t.1 t.2)] at hv
    obtain rfl := Option.some.inj hv
    exact ⟨h1, h2⟩
  · obtain ⟨v, hv, h⟩ := C69_round_trip _ (unit_handMotion hh t.1 t.2)
    rw [toSix_spec _ (unit_handMotion hh t.1 t.2)] at hv
    obtain rfl := Option.some.inj hv
    exact h

include he hh hn in
/-- **C69** The selection returns the requested number of pairs, or one less than the number of poses. Every pair that is assigned consists of the motions
of the eye and of the hand between the same two times, if the motion of the eye is represented by a quaternion whose scalar part is not negative.
Missing: negative scalar parts (refuted below). -/
theorem C69_selected_partial (nSelect first : ℕ) (draws : ℕ → ℝ → ℝ) :
    ∃ out, selectPoses (List.ofFn eye) (List.ofFn hand) nSelect first draws = some out ∧ out.length = min (n - 1) nSelect ∧
      ∀ a b, some (a, b) ∈ out → ∃ i k : Fin n, i < k ∧ (0 ≤ (eyeMotion eye i k).rotation.w → AlmostSame a (eyeMotion eye i k)) ∧
        AlmostSame b (handMotion hand i k) := by
  obtain ⟨out, h1, h2, h3⟩ := selected eye hand he hh hn nSelect first draws
  refine ⟨out, h1, h2, fun a b hab => ?_⟩
  obtain ⟨i, k, hik, ha, hb⟩ := h3 a b hab
  exact ⟨i, k, hik, ha.1, hb⟩

/-! ## Every cluster with a mean and a member gets a pair -/

/-- Bounded in the first three coordinates. -/
def Bounded (v : Vec ℝ 6) : Prop := ∀ i : Fin 6, i < 3 → |v i| ≤ Real.pi

lemma bounded_mean (l : List (Vec ℝ 6)) (hl : ∀ v ∈ l, Bounded v) (hne : l ≠ []) : Bounded ((l.length : ℝ)⁻¹ • l.sum) := by
  intro i hi
  have hs : ∀ l : List (Vec ℝ 6), (∀ v ∈ l, Bounded v) → |l.sum i| ≤ l.length * Real.pi := by
    intro l
    induction l with
    | nil => simp
    | cons v l ih =>
      intro h
      have h1 := h v (by simp) i hi
      have h2 := ih (fun w hw => h w (by simp [hw]))
      rw [List.sum_cons, Pi.add_apply, List.length_cons]
      push_cast
      calc |v i + l.sum i| ≤ |v i| + |l.sum i| := abs_add_le _ _
        _ ≤ (l.length + 1) * Real.pi := by linarith
  have hpos : (0 : ℝ) < l.length := by
    rw [Nat.cast_pos]
    exact List.length_pos_iff.mpr hne
  rw [Pi.smul_apply, smul_eq_mul, abs_mul, abs_inv, abs_of_pos hpos, inv_mul_le_iff₀ hpos]
  exact hs l hl

lemma bounded_newMeans (data : List (Vec ℝ 6)) (hd : ∀ v ∈ data, Bounded v) (indices : List ℕ) (hl : data.length = indices.length) (m : ℕ) :
    ∀ c, some c ∈ newMeans data indices m → Bounded c := by
  intro c hc
  obtain ⟨k, hk, hkc⟩ := List.getElem_of_mem hc
  have hk' : k < m := by rwa [newMeans_length] at hk
  have h := C25_centroid_is_mean data indices m hl k hk'
  rw [List.getElem?_eq_getElem hk, hkc] at h
  split_ifs at h with h0
  · simp at h
  · simp only [Option.some.injEq] at h
    rw [h]
    apply bounded_mean _ _ h0
    intro v hv
    apply hd
    simp only [members, List.mem_map, List.mem_filter] at hv
    obtain ⟨x, ⟨hx, -⟩, rfl⟩ := hv
    exact (List.of_mem_zip hx).1

lemma bounded_loop (data : List (Vec ℝ 6)) (hd : ∀ v ∈ data, Bounded v) (dist : Vec ℝ 6 → Vec ℝ 6 → ℝ) (i : ℕ) :
    ∀ means : List (Centroid 6), (∀ c, some c ∈ means → Bounded c) →
      ∀ c, some c ∈ (loop dist data i means (data.map (assign dist means))).1 → Bounded c := by
  induction i with
  | zero => intro means h; exact h
  | succ i ih =>
    intro means h
    unfold loop
    dsimp only
    have hb := bounded_newMeans data hd (data.map (assign dist means)) (by simp) means.length
    split_ifs
    · exact hb
    · exact ih _ hb

lemma distance_bounded {c v : Vec ℝ 6} (hc : Bounded c) (hv : Bounded v) : rotationDistance c v < 10000 := by
  have h : ∀ i : Fin 6, i < 3 → (c i - v i) * (c i - v i) ≤ 64 := by
    intro i hi
    have h1 := abs_le.mp (hc i hi)
    have h2 := abs_le.mp (hv i hi)
    have h3 := Real.pi_le_four
    nlinarith
  have h0 := h 0 (by decide)
  have h1 := h 1 (by decide)
  have h2 := h 2 (by decide)
  rw [rotationDistance]
  calc Real.sqrt _ ≤ Real.sqrt (192) := Real.sqrt_le_sqrt (by linarith)
    _ < 10000 := by
      rw [Real.sqrt_lt' (by norm_num)]
      norm_num

include he hh hn in
/-- **C69** The pair of a cluster is assigned whenever the cluster has a mean (a number) and a member. -/
theorem C69_assigned (nSelect first : ℕ) (hfirst : first < (times n).length) (draws : ℕ → ℝ → ℝ) (i : ℕ) (hi : i < min (n - 1) nSelect) (c : Vec ℝ 6)
    (hc : (clusters (sixEye eye) (min (n - 1) nSelect) first draws).1[i]? = some (some c))
    (hm : i ∈ (clusters (sixEye eye) (min (n - 1) nSelect) first draws).2) :
    ∃ out a b, selectPoses (List.ofFn eye) (List.ofFn hand) nSelect first draws = some out ∧ out[i]? = some (some (a, b)) := by
  have hbA : ∀ v ∈ sixEye eye, Bounded v := by
    intro v hv
    obtain ⟨t, -, rfl⟩ := List.mem_map.mp hv
    obtain ⟨v, hv, hb, -⟩ := aligned _ (unit_eyeMotion he t.1 t.2)
    rw [toSix_spec _ (unit_eyeMotion he t.1 t.2)] at hv
    obtain rfl := Option.some.inj hv
    exact hb
  obtain ⟨hs1, hs2, -⟩ := C25_labels_partial rotationDistance (sixEye eye)
    (seeds rotationDistance (sixEye eye) first ((List.range (min (n - 1) nSelect - 1)).map draws))
  have hbc : Bounded c := by
    refine bounded_loop (sixEye eye) hbA rotationDistance 100 _ ?_ c (List.mem_of_getElem? hc)
    intro c hc
    obtain ⟨s, hs, hsc⟩ := List.mem_map.mp hc
    obtain rfl := Option.some.inj hsc
    exact hbA _ ((C25_seeds_from_data rotationDistance (sixEye eye) first (by simpa [sixEye] using hfirst) _).1 _ hs)
  obtain ⟨j, hj, hji⟩ := List.getElem_of_mem hm
  have hlen : (clusters (sixEye eye) (min (n - 1) nSelect) first draws).2.length = (times n).length := by
    rw [clusters, hs2, sixEye, List.length_map]
  have hjt : j < (times n).length := by rw [← hlen]; exact hj
  have hmem : (i, (align (toSix (eyeMotion eye (times n)[j].1 (times n)[j].2)), toSix (handMotion hand (times n)[j].1 (times n)[j].2))) ∈
      (clusters (sixEye eye) (min (n - 1) nSelect) first draws).2.zip
        ((times n).map fun p => (align (toSix (eyeMotion eye p.1 p.2)), toSix (handMotion hand p.1 p.2))) := by
    rw [List.mem_iff_getElem]
    exact ⟨j, by simp [hlen, hjt], by simp [hji]⟩
  obtain ⟨p, hp⟩ := C69_chosen i c _ _ hmem (distance_bounded hbc (hbA _ (List.mem_map.mpr ⟨_, List.getElem_mem hjt, rfl⟩)))
  refine ⟨_, sixToPose p.1, sixToPose p.2, selectPoses_eq eye hand he hh hn nSelect first draws, ?_⟩
  rw [List.getElem?_map, List.getElem?_range hi, Option.map_some, hc, Option.getD_some, hp]
  rfl

/-! ## One cluster -/

lemma newMeans_one {d : ℕ} (data : List (Vec ℝ d)) (hne : data ≠ []) :
    newMeans data (List.replicate data.length 0) 1 = [some ((data.length : ℝ)⁻¹ • data.sum)] := by
  have hm : members data (List.replicate data.length 0) 0 = data := by
    rw [members]
    have : ∀ l : List (Vec ℝ d), ((l.zip (List.replicate l.length 0)).filter (fun x => decide (x.2 = 0))).map (·.1) = l := by
      intro l
      induction l with
      | nil => rfl
      | cons a l ih => simp [List.replicate_succ, ih]
    exact this data
  apply List.ext_getElem?
  intro k
  rcases k with _ | k
  · rw [C25_centroid_is_mean _ _ _ (by simp) 0 (by norm_num), hm, if_neg hne]
    rfl
  · rw [List.getElem?_eq_none (by rw [newMeans_length]; omega), List.getElem?_eq_none (by simp)]

lemma assign_one {d : ℕ} (dist : Vec ℝ d → Vec ℝ d → ℝ) (m : Centroid d) (data : List (Vec ℝ d)) :
    data.map (assign dist [m]) = List.replicate data.length 0 := by
  rw [List.eq_replicate_iff]
  refine ⟨by simp, fun k hk => ?_⟩
  obtain ⟨v, -, rfl⟩ := List.mem_map.mp hk
  rfl

/-- With one cluster the mean is the mean of all vectors. -/
lemma kMeansFrom_one {d : ℕ} (dist : Vec ℝ d → Vec ℝ d → ℝ) (data : List (Vec ℝ d)) (hne : data ≠ []) (s : Vec ℝ d) :
    kMeansFrom dist data [s] = ([some ((data.length : ℝ)⁻¹ • data.sum)], List.replicate data.length 0) := by
  have key : ∀ (i : ℕ) (m : Centroid d), loop dist data (i + 1) [m] (List.replicate data.length 0) =
      ([some ((data.length : ℝ)⁻¹ • data.sum)], List.replicate data.length 0) := by
    intro i
    induction i with
    | zero =>
      intro m
      unfold loop
      simp only [List.length_singleton, newMeans_one data hne, assign_one]
      split_ifs
      · rfl
      · rfl
    | succ i ih =>
      intro m
      unfold loop
      simp only [List.length_singleton, newMeans_one data hne, assign_one]
      split_ifs
      · rfl
      · exact ih _
  rw [kMeansFrom]
  simp only [List.map_cons, List.map_nil, assign_one]
  exact key 99 _

/-- Three poses of an eye that turns about one axis. -/
noncomputable def turningEye : Fin 3 → Pose ℝ :=
  ![⟨⟨0, 0, 0, 1⟩, ![0, 0, 0]⟩, ⟨⟨4 / 5, 0, 0, -3 / 5⟩, ![1, 0, 0]⟩, ⟨⟨-4 / 5, 0, 0, -3 / 5⟩, ![0, 1, 0]⟩]

lemma turningEye_unit (i : Fin 3) : UnitQ (turningEye i).rotation := by
  fin_cases i <;> simp [turningEye, UnitQ] <;> norm_num

/-- **C69** The alignment of rotations by more than 180 degrees keeps the axis, and so inverts the rotation: there are exact data, where the poses of the hand are
the inverse poses of the eye, for which every selection of one pair is a pair of different rotations. -/
theorem C69_flipped_refuted : ∃ eye hand : Fin 3 → Pose ℝ, (∀ i, UnitQ (eye i).rotation) ∧ (∀ i, UnitQ (hand i).rotation) ∧
    (∀ i, (eye i).mul (hand i) = Pose.one) ∧ ∀ first < 3, ∀ draws, ∃ a b,
      selectPoses (List.ofFn eye) (List.ofFn hand) 1 first draws = some [some (a, b)] ∧ ¬ SameRotation a.rotation b.rotation := by
  have hu := turningEye_unit
  have hu' : ∀ i, UnitQ ((turningEye i).inv).rotation := fun i => Quat.isUnit_conj (hu i)
  refine ⟨turningEye, fun i => (turningEye i).inv, hu, hu', fun i => (C08_pose_group _ _ Pose.one (hu i) (hu i)).2.2.1.2, ?_⟩
  intro first hf draws
  have hlen : (times 3).length = 3 := by decide
  have hsl : (sixEye turningEye).length = 3 := by rw [sixEye, List.length_map, hlen]
  have hne : sixEye turningEye ≠ [] := by
    intro h
    rw [h] at hsl
    simp at hsl
  have hcl : clusters (sixEye turningEye) (min (3 - 1) 1) first draws =
      ([some (((sixEye turningEye).length : ℝ)⁻¹ • (sixEye turningEye).sum)], List.replicate (sixEye turningEye).length 0) := by
    have hs : ∃ s, seeds rotationDistance (sixEye turningEye) first ((List.range (min (3 - 1) 1 - 1)).map draws) = [s] := by
      refine ⟨(sixEye turningEye)[first]'(by rw [hsl]; exact hf), ?_⟩
      rw [seeds, List.getElem?_eq_getElem (by rw [hsl]; exact hf)]
      rfl
    obtain ⟨s, hs⟩ := hs
    rw [clusters, hs, kMeansFrom_one _ _ hne]
  obtain ⟨out, a, b, hout, h0⟩ := C69_assigned turningEye (fun i => (turningEye i).inv) hu hu' (le_refl 3) 1 first (by rw [hlen]; exact hf) draws 0 (by norm_num)
    (((sixEye turningEye).length : ℝ)⁻¹ • (sixEye turningEye).sum) (by rw [hcl]; rfl) (by rw [hcl, hsl]; simp)
  obtain ⟨out', hout', hl, hsel⟩ := selected turningEye (fun i => (turningEye i).inv) hu hu' (le_refl 3) 1 first draws
  rw [hout] at hout'
  obtain rfl := Option.some.inj hout'
  obtain ⟨x, rfl⟩ := List.length_eq_one_iff.mp (by simpa using hl)
  obtain rfl : x = some (a, b) := by simpa using h0
  refine ⟨a, b, hout, ?_⟩
  obtain ⟨i, k, hik, ha, hb⟩ := hsel a b (by simp)
  have hM : (eyeMotion turningEye i k).rotation = (handMotion (fun i => (turningEye i).inv) i k).rotation := by
    simp [eyeMotion, handMotion, Pose.mul, Pose.inv, Quat.conj]
  have hval : ∃ x w, (eyeMotion turningEye i k).rotation = ⟨x, 0, 0, w⟩ ∧ w < 0 ∧ x ≠ 0 ∧ w ^ 2 < 1 - 1e-20 := by
    fin_cases i <;> fin_cases k <;> simp at hik
    · exact ⟨4 / 5, -3 / 5, by simp [eyeMotion, turningEye, Pose.mul, Pose.inv, Quat.conj, Quat.mul], by norm_num, by norm_num, by norm_num⟩
    · exact ⟨-4 / 5, -3 / 5, by simp [eyeMotion, turningEye, Pose.mul, Pose.inv, Quat.conj, Quat.mul], by norm_num, by norm_num, by norm_num⟩
    · exact ⟨24 / 25, -7 / 25, by simp [eyeMotion, turningEye, Pose.mul, Pose.inv, Quat.conj, Quat.mul]; norm_num, by norm_num, by norm_num, by norm_num⟩
  obtain ⟨x, w, hxw, hw, hx, hw2⟩ := hval
  have ha := ha.2 (by rw [hxw]; exact hw)
  have ha' : SameRotation a.rotation ⟨-x, 0, 0, w⟩ := by
    rcases ha.2 with h | ⟨-, h⟩
    · rw [hxw] at h
      simpa [Quat.conj] using h
    · rw [hxw] at h
      simp only [Quat.conj] at h
      linarith
  have hb' : SameRotation b.rotation ⟨x, 0, 0, w⟩ := by
    rcases hb.2 with h | ⟨-, h⟩
    · rwa [← hM, hxw] at h
    · rw [← hM, hxw] at h
      linarith
  rintro hab
  have hwn : w ≠ 0 := hw.ne
  rcases ha' with h | ⟨h1, h2, h3, h4⟩ <;> rcases hb' with h' | ⟨h1', h2', h3', h4'⟩ <;> rcases hab with g | ⟨g1, g2, g3, g4⟩
  all_goals
    first
    | (rw [h, h'] at g; have := congrArg Quat.x g; simp at this; apply hx; linarith)
    | (rw [h, h'] at g1 g4; simp at g1 g4; apply hwn; linarith)
    | (rw [h] at g; rw [← g] at h1' h4'; simp at h1' h4'; apply hwn; linarith)
    | (rw [h] at g1 g4; simp at g1 g4 h1' h4'; apply hx; linarith)
    | (rw [h'] at g; rw [g] at h1 h4; simp at h1 h4; apply hwn; linarith)
    | (rw [h'] at g1 g4; simp at g1 g4 h1 h4; apply hx; linarith)
    | (rw [g] at h1 h4; simp at h1 h4 h1' h4'; apply hx; linarith)
    | (simp at g1 g4 h1 h4 h1' h4'; apply hwn; linarith)

/-! ## The class `DataSelection` -/

/-- The state of the loop of `resetIndices` after the pairs `seen` of labels and numbers. -/
def ResetState (means : List (Centroid 6)) (pose : Vec ℝ 6) (m : ℕ) (seen : List (ℕ × ℕ)) (s : List ℕ × List ℝ) : Prop :=
  s.1.length = m ∧ s.2.length = m ∧ ∀ k < m, (s.1[k]? = some 0 ∧ s.2[k]? = some 10000 ∧
      ∀ c, means[k]?.getD none = some c → rotationDistance c pose < 10000 → ∀ j, (k, j) ∉ seen) ∨
    (∃ c j, means[k]?.getD none = some c ∧ s.1[k]? = some j ∧ s.2[k]? = some (rotationDistance c pose) ∧ (k, j) ∈ seen ∧
      ∃ l r, seen = l ++ (k, j) :: r ∧ ∀ j', (k, j') ∉ l)

lemma resetState_fold (means : List (Centroid 6)) (pose : Vec ℝ 6) (m : ℕ) (l : List (ℕ × ℕ)) (hl : ∀ x ∈ l, x.1 < m) : ∀ seen s,
    ResetState means pose m seen s → ResetState means pose m (seen ++ l) (l.foldl (resetStep means pose) s) := by
  induction l with
  | nil => intro seen s h; simpa using h
  | cons x l ih =>
    intro seen s h
    rw [List.foldl_cons, show seen ++ x :: l = (seen ++ [x]) ++ l by simp]
    apply ih (fun y hy => hl y (by simp [hy]))
    obtain ⟨h1, h2, h3⟩ := h
    have hx : x.1 < m := hl x (by simp)
    -- what the step leaves of the other positions
    have other : ∀ s' : List ℕ × List ℝ, s'.1.length = m → s'.2.length = m → (∀ k, k ≠ x.1 → s'.1[k]? = s.1[k]? ∧ s'.2[k]? = s.2[k]?) →
        ((s'.1[x.1]? = some 0 ∧ s'.2[x.1]? = some 10000 ∧
          ∀ c, means[x.1]?.getD none = some c → rotationDistance c pose < 10000 → False) ∨
          (∃ c j, means[x.1]?.getD none = some c ∧ s'.1[x.1]? = some j ∧ s'.2[x.1]? = some (rotationDistance c pose) ∧
            ∃ l r, seen ++ [x] = l ++ (x.1, j) :: r ∧ ∀ j', (x.1, j') ∉ l)) → ResetState means pose m (seen ++ [x]) s' := by
      intro s' e1 e2 e3 e4
      refine ⟨e1, e2, fun k hk => ?_⟩
      by_cases hkx : k = x.1
      · subst hkx
        rcases e4 with ⟨f1, f2, f3⟩ | ⟨c, j, f1, f2, f3, l, r, f4, f5⟩
        · exact Or.inl ⟨f1, f2, fun c hc hd => (f3 c hc hd).elim⟩
        · exact Or.inr ⟨c, j, f1, f2, f3, by rw [f4]; simp, l, r, f4, f5⟩
      · obtain ⟨g1, g2⟩ := e3 k hkx
        rw [g1, g2]
        rcases h3 k hk with ⟨f1, f2, f3⟩ | ⟨c, j, f1, f2, f3, f4, l, r, f5, f6⟩
        · refine Or.inl ⟨f1, f2, fun c hc hd j hj => ?_⟩
          rcases List.mem_append.mp hj with hj | hj
          · exact f3 c hc hd j hj
          · simp only [List.mem_singleton] at hj
            exact hkx (by rw [← hj])
        · exact Or.inr ⟨c, j, f1, f2, f3, by simp [f4], l, r ++ [x], by rw [f5]; simp, f6⟩
    have same := other s h1 h2 (fun _ _ => ⟨rfl, rfl⟩)
    rw [resetStep]
    rcases hm : means[x.1]?.getD none with _ | c
    · apply same
      rcases h3 _ hx with ⟨f1, f2, -⟩ | ⟨c, j, f1, -⟩
      · exact Or.inl ⟨f1, f2, fun c hc => by rw [hm] at hc; simp at hc⟩
      · rw [hm] at f1
        simp at f1
    · dsimp only
      rcases h3 _ hx with ⟨f1, f2, f3⟩ | ⟨c', j, f1, f2, f3, f4, l, r, f5, f6⟩
      · rw [List.getD_eq_getElem?_getD, f2, Option.getD_some]
        split_ifs with hd
        · apply other
          · simpa using h1
          · simpa using h2
          · intro k hk
            exact ⟨List.getElem?_set_ne (Ne.symm hk), List.getElem?_set_ne (Ne.symm hk)⟩
          · refine Or.inr ⟨c, x.2, hm, ?_, ?_, seen, [], rfl, f3 c hm hd⟩
            · simp [h1, hx]
            · simp [h2, hx]
        · apply same
          refine Or.inl ⟨f1, f2, fun c' hc hd' => ?_⟩
          rw [hm] at hc
          obtain rfl := Option.some.inj hc
          exact hd hd'
      · rw [hm] at f1
        obtain rfl := Option.some.inj f1
        rw [List.getD_eq_getElem?_getD, f3, Option.getD_some, if_neg (lt_irrefl _)]
        apply same
        exact Or.inr ⟨c, j, hm, f2, f3, l, r ++ [x], by rw [f5]; simp, f6⟩

lemma label_lt (values cluster : List (Vec ℝ 6)) (hcl : cluster ≠ []) :
    ∀ k ∈ (kMeansFrom rotationDistance values cluster).2, k < cluster.length := by
  intro k hk
  obtain ⟨h1, h2⟩ := loop_labels rotationDistance values 100 (cluster.map some)
  have e1 : (kMeansFrom rotationDistance values cluster).1.length = cluster.length := by
    unfold kMeansFrom
    rw [h2, List.length_map]
  have e2 : (kMeansFrom rotationDistance values cluster).2 = values.map (assign rotationDistance (kMeansFrom rotationDistance values cluster).1) := h1
  rw [e2] at hk
  obtain ⟨v, -, rfl⟩ := List.mem_map.mp hk
  rw [← e1]
  have hpos : 0 < (kMeansFrom rotationDistance values cluster).1.length := by
    rw [e1]
    exact List.length_pos_iff.mpr hcl
  rcases hm : (kMeansFrom rotationDistance values cluster).1 with _ | ⟨m, ms⟩
  · rw [hm] at hpos
    simp at hpos
  · rcases m with _ | m
    · rw [assign_nan]
      simp
    · obtain ⟨m', hm', -⟩ := assign_nearest rotationDistance m ms v
      exact (List.getElem?_eq_some_iff.mp hm').1

lemma resetState_end (pose : Vec ℝ 6) (rest cluster : List (Vec ℝ 6)) (hcl : cluster ≠ []) :
    ResetState (kMeansFrom rotationDistance (pose :: rest) cluster).1 pose cluster.length (kMeansFrom rotationDistance (pose :: rest) cluster).2.zipIdx
      ((kMeansFrom rotationDistance (pose :: rest) cluster).2.zipIdx.foldl (resetStep (kMeansFrom rotationDistance (pose :: rest) cluster).1 pose)
        (List.replicate cluster.length 0, List.replicate cluster.length 10000)) := by
  have := resetState_fold (kMeansFrom rotationDistance (pose :: rest) cluster).1 pose cluster.length
    (kMeansFrom rotationDistance (pose :: rest) cluster).2.zipIdx (fun x hx => label_lt _ _ hcl _ (List.fst_mem_of_mem_zipIdx hx)) []
    (List.replicate cluster.length 0, List.replicate cluster.length 10000) ⟨by simp, by simp, fun k hk => Or.inl ⟨by simp [hk], by simp [hk], by simp⟩⟩
  simpa using this

/-- **C69** The index that `resetIndices` keeps for a cluster is a member of the cluster: the first one. Missing: that it is the member nearest to the mean
(refuted below). -/
theorem C69_indices_partial (values cluster : List (Vec ℝ 6)) (pose : Vec ℝ 6) (hp : values[0]? = some pose) (k : ℕ) (hk : k < cluster.length) (c : Vec ℝ 6)
    (hc : (kMeansFrom rotationDistance values cluster).1[k]? = some (some c)) (hmem : k ∈ (kMeansFrom rotationDistance values cluster).2)
    (hd : rotationDistance c pose < 10000) : ∃ j, (resetIndices values cluster)[k]? = some j ∧
      (kMeansFrom rotationDistance values cluster).2[j]? = some k ∧
      ∀ i < j, (kMeansFrom rotationDistance values cluster).2[i]? ≠ some k := by
  obtain ⟨pose', rest, rfl⟩ : ∃ pose' rest, values = pose' :: rest := by
    rcases values with _ | ⟨a, l⟩
    · simp at hp
    · exact ⟨a, l, rfl⟩
  obtain rfl : pose' = pose := by simpa using hp
  have hcl : cluster ≠ [] := by
    rintro rfl
    simp at hk
  obtain ⟨-, -, h⟩ := resetState_end pose' rest cluster hcl
  obtain ⟨i, hi, hik⟩ := List.getElem_of_mem hmem
  have hcc : (kMeansFrom rotationDistance (pose' :: rest) cluster).1[k]?.getD none = some c := by rw [hc]; rfl
  rcases h k hk with ⟨-, -, h⟩ | ⟨c', j, -, h1, -, h2, l, r, h3, h4⟩
  · exfalso
    apply h c hcc hd i
    rw [List.mem_zipIdx_iff_getElem?]
    simp [hi, hik]
  · refine ⟨j, h1, ?_, ?_⟩
    · rw [List.mem_zipIdx_iff_getElem?] at h2
      exact h2
    · intro i' hi' hik'
      have hget : (kMeansFrom rotationDistance (pose' :: rest) cluster).2.zipIdx[i']? = some (k, i') := by
        rw [List.getElem?_zipIdx, hik']
        simp
      have hlj : l.length = j := by
        have : (kMeansFrom rotationDistance (pose' :: rest) cluster).2.zipIdx[l.length]? = some (k, j) := by
          rw [h3]
          simp
        rw [List.getElem?_zipIdx] at this
        obtain ⟨a, -, ha⟩ := Option.map_eq_some_iff.mp this
        simp at ha
        exact ha.2
      rw [h3, List.getElem?_append_left (by rw [hlj]; exact hi')] at hget
      exact h4 i' (List.mem_of_getElem? hget)

/-- **C69** Without values to compare, the first pose is selected for every cluster. -/
theorem C69_no_values {α : Type*} (p : α) (poses : List α) (cluster : List (Vec ℝ 6)) :
    getSelection (p :: poses) (resetIndices [] cluster) = some (List.replicate cluster.length p) := by
  unfold getSelection resetIndices
  dsimp only
  generalize cluster.length = n
  induction n with
  | zero => rfl
  | succ n ih =>
    rw [List.replicate_succ, List.mapM_cons, ih]
    rfl

/-- Two clusters. -/
example (c : Vec ℝ 6) : getSelection [3, 4, 5] (resetIndices [] [c, c]) = some [3, 3] := C69_no_values 3 [4, 5] [c, c]

/-- **C69** Every index is the number of a value, and so the selection by these indices from a list that is at least as long succeeds and returns elements
of the list, one per cluster. -/
theorem C69_get_selection {α : Type*} (poses : List α) (values cluster : List (Vec ℝ 6)) (hne : values ≠ []) (hlen : values.length ≤ poses.length) :
    ∃ out, getSelection poses (resetIndices values cluster) = some out ∧ out.length = cluster.length ∧
      ∀ k < cluster.length, ∃ j < values.length, (resetIndices values cluster)[k]? = some j ∧ out[k]? = poses[j]? := by
  obtain ⟨pose, rest, rfl⟩ := List.exists_cons_of_ne_nil hne
  have hr : (resetIndices (pose :: rest) cluster).length = cluster.length ∧
      ∀ k < cluster.length, ∃ j < (pose :: rest).length, (resetIndices (pose :: rest) cluster)[k]? = some j := by
    by_cases hcl : cluster = []
    · subst hcl
      refine ⟨?_, fun k hk => by simp at hk⟩
      rw [resetIndices]
      have : ∀ (l : List (ℕ × ℕ)) means, (l.foldl (resetStep means pose) (([] : List ℕ), ([] : List ℝ))).1.length = 0 := by
        intro l means
        have key : ∀ s : List ℕ × List ℝ, s.1.length = 0 → (l.foldl (resetStep means pose) s).1.length = 0 := by
          induction l with
          | nil => intro s hs; exact hs
          | cons x l ih =>
            intro s hs
            rw [List.foldl_cons]
            apply ih
            rw [resetStep]
            rcases means[x.1]?.getD none with _ | c
            · exact hs
            · dsimp only
              split_ifs
              · simpa using hs
              · exact hs
        exact key _ rfl
      exact this _ _
    · obtain ⟨h1, -, h⟩ := resetState_end pose rest cluster hcl
      refine ⟨h1, fun k hk => ?_⟩
      rcases h k hk with ⟨h0, -⟩ | ⟨c', j, -, h1, -, h2, -⟩
      · exact ⟨0, by simp, h0⟩
      · refine ⟨j, ?_, h1⟩
        rw [List.mem_zipIdx_iff_getElem?] at h2
        have := (List.getElem?_eq_some_iff.mp h2).1
        rwa [(C25_labels_partial rotationDistance (pose :: rest) cluster).2.1] at this
  obtain ⟨hl, hr⟩ := hr
  have hin : ∀ j ∈ resetIndices (pose :: rest) cluster, j < poses.length := by
    intro j hj
    obtain ⟨k, hk, rfl⟩ := List.getElem_of_mem hj
    obtain ⟨j, hj, hkj⟩ := hr k (by rw [← hl]; exact hk)
    rw [List.getElem?_eq_getElem hk] at hkj
    obtain rfl := Option.some.inj hkj
    omega
  have hp : 0 < poses.length := by
    simp at hlen
    omega
  have hsel : getSelection poses (resetIndices (pose :: rest) cluster) =
      some ((resetIndices (pose :: rest) cluster).map fun j => poses[j]?.getD poses[0]) := by
    rw [getSelection]
    apply mapM_some
    intro j hj
    rw [List.getElem?_eq_getElem (hin j hj), Option.getD_some]
  refine ⟨_, hsel, by rw [List.length_map, hl], fun k hk => ?_⟩
  obtain ⟨j, hj, hkj⟩ := hr k hk
  refine ⟨j, hj, hkj, ?_⟩
  rw [List.getElem?_map, hkj, Option.map_some, List.getElem?_eq_getElem (by omega), Option.getD_some]

/-- **C69** The index is not that of the member nearest to the mean: there are three values in one cluster for which the index is that of another one. -/
theorem C69_indices_refuted : ∃ (values cluster : List (Vec ℝ 6)) (c v w : Vec ℝ 6) (j : ℕ),
    kMeansFrom rotationDistance values cluster = ([some c], [0, 0, 0]) ∧ resetIndices values cluster = [j] ∧ values[j]? = some v ∧ w ∈ values ∧
      rotationDistance c w < rotationDistance c v := by
  have hk : kMeansFrom rotationDistance [![0, 0, 0, 0, 0, 0], ![1, 0, 0, 0, 0, 0], ![2, 0, 0, 0, 0, 0]] [![0, 0, 0, 0, 0, 0]] =
      ([some ![1, 0, 0, 0, 0, 0]], [0, 0, 0]) := by
    rw [kMeansFrom_one _ _ (by simp)]
    congr 2
    simp
    norm_num
  have hz : rotationDistance ![1, 0, 0, 0, 0, 0] ![0, 0, 0, 0, 0, 0] = 1 := by simp [rotationDistance]
  have ho : rotationDistance ![1, 0, 0, 0, 0, 0] ![1, 0, 0, 0, 0, 0] = 0 := by simp [rotationDistance]
  obtain ⟨j, hj, -, hmin⟩ := C69_indices_partial [![0, 0, 0, 0, 0, 0], ![1, 0, 0, 0, 0, 0], ![2, 0, 0, 0, 0, 0]] [![0, 0, 0, 0, 0, 0]] ![0, 0, 0, 0, 0, 0] rfl 0 (by simp) ![1, 0, 0, 0, 0, 0] (by rw [hk]; rfl) (by rw [hk]; simp)
    (by rw [hz]; norm_num)
  obtain rfl : j = 0 := by
    by_contra h
    apply hmin 0 (Nat.pos_of_ne_zero h)
    rw [hk]
    rfl
  refine ⟨_, _, _, ![0, 0, 0, 0, 0, 0], ![1, 0, 0, 0, 0, 0], 0, hk, ?_, rfl, by simp, by rw [hz, ho]; norm_num⟩
  have hl := (resetState_end (![0, 0, 0, 0, 0, 0] : Vec ℝ 6) [![1, 0, 0, 0, 0, 0], ![2, 0, 0, 0, 0, 0]] [![0, 0, 0, 0, 0, 0]] (by simp)).1
  obtain ⟨x, hx⟩ := List.length_eq_one_iff.mp hl
  change resetIndices [![0, 0, 0, 0, 0, 0], ![1, 0, 0, 0, 0, 0], ![2, 0, 0, 0, 0, 0]] [![0, 0, 0, 0, 0, 0]] = [x] at hx
  rw [hx] at hj ⊢
  simpa using hj

/-- **C69** The list of aligned 6-vectors follows the list of relative poses: if it describes the first poses, then after an update it describes all of them. -/
theorem C69_update (poses : List (Pose ℝ)) (h : ∀ P ∈ poses, UnitQ P.rotation) (m : ℕ) (old : List (Vec ℝ 6))
    (hold : (poses.take m).mapM poseToSix = some old) : ∃ new, poses.mapM poseToSix = some new ∧
      updateComparisonPoses poses (old.map align) = some (new.map align) := by
  have h1 : (poses.take m).mapM poseToSix = some ((poses.take m).map toSix) :=
    mapM_some _ _ _ fun P hP => toSix_spec P (h P (List.mem_of_mem_take hP))
  rw [h1] at hold
  obtain rfl := Option.some.inj hold
  refine ⟨poses.map toSix, mapM_some _ _ _ fun P hP => toSix_spec P (h P hP), ?_⟩
  rw [updateComparisonPoses, if_neg (by simp)]
  have hdrop : poses.drop (((poses.take m).map toSix).map align).length = poses.drop m := by
    simp only [List.length_map, List.length_take]
    rcases le_total m poses.length with hm | hm
    · rw [min_eq_left hm]
    · rw [min_eq_right hm, List.drop_of_length_le le_rfl, List.drop_of_length_le hm]
  rw [hdrop, mapM_some _ _ toSix fun P hP => toSix_spec P (h P (List.mem_of_mem_drop hP)), Option.map_some, ← List.map_append, ← List.map_append, List.take_append_drop]

/-- The hypotheses of the selection theorems: three poses; the selection of one pair succeeds. -/
example : ∃ a b, selectPoses (List.ofFn turningEye) (List.ofFn fun i => (turningEye i).inv) 1 0 (fun _ _ => 0) = some [some (a, b)] := by
  obtain ⟨out, h1, h2, -⟩ := C69_selected_partial turningEye (fun i => (turningEye i).inv) turningEye_unit
    (fun i => Quat.isUnit_conj (turningEye_unit i)) (le_refl 3) 1 0 (fun _ _ => 0)
  have hlen : (times 3).length = 3 := by decide
  have hsl : (sixEye turningEye).length = 3 := by rw [sixEye, List.length_map, hlen]
  have hne : sixEye turningEye ≠ [] := by
    intro h
    rw [h] at hsl
    simp at hsl
  have hcl : clusters (sixEye turningEye) (min (3 - 1) 1) 0 (fun _ _ => 0) =
      ([some (((sixEye turningEye).length : ℝ)⁻¹ • (sixEye turningEye).sum)], List.replicate (sixEye turningEye).length 0) := by
    have hs : ∃ s, seeds rotationDistance (sixEye turningEye) 0 ((List.range (min (3 - 1) 1 - 1)).map fun _ _ => 0) = [s] := by
      refine ⟨(sixEye turningEye)[0]'(by rw [hsl]; norm_num), ?_⟩
      rw [seeds, List.getElem?_eq_getElem (by rw [hsl]; norm_num)]
      rfl
    obtain ⟨s, hs⟩ := hs
    rw [clusters, hs, kMeansFrom_one _ _ hne]
  obtain ⟨out', a, b, hout, h0⟩ := C69_assigned turningEye (fun i => (turningEye i).inv) turningEye_unit
    (fun i => Quat.isUnit_conj (turningEye_unit i)) (le_refl 3) 1 0 (by rw [hlen]; norm_num) (fun _ _ => 0) 0 (by norm_num)
    (((sixEye turningEye).length : ℝ)⁻¹ • (sixEye turningEye).sum) (by rw [hcl]; rfl) (by rw [hcl, hsl]; simp)
  rw [h1] at hout
  obtain rfl := Option.some.inj hout
  obtain ⟨x, rfl⟩ := List.length_eq_one_iff.mp (by simpa using h2)
  obtain rfl : x = some (a, b) := by simpa using h0
  exact ⟨a, b, h1⟩

end Ubitrack.DataSelection
