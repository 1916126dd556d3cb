import Verif.Props.RotationReal
import Mathlib.Analysis.SpecialFunctions.Trigonometric.Bounds

/-!
# C06: spherical interpolation, C10: pose interpolation
-/

namespace Ubitrack
open Ubitrack.Spec Ubitrack.Quat

namespace Quat

/-- The weighted sum before normalisation. -/
def comb (x b : Quat ℝ) (w1 w2 : ℝ) : Quat ℝ :=
  ⟨w1 * x.x + w2 * b.x, w1 * x.y + w2 * b.y, w1 * x.z + w2 * b.z, w1 * x.w + w2 * b.w⟩

theorem normSq_comb {x b : Quat ℝ} (hx : UnitQ x) (hb : UnitQ b) (w1 w2 : ℝ) :
    (comb x b w1 w2).normSq = w1 ^ 2 + w2 ^ 2 + 2 * w1 * w2 * dot x b := by
  unfold UnitQ at *
  simp only [comb, normSq, dot]
  linear_combination w1 ^ 2 * hx + w2 ^ 2 * hb

/-- The representative of `a` that slerp starts from. -/
noncomputable def start (a b : Quat ℝ) : Quat ℝ := if dot a b < 0 then neg a else a

theorem start_unit {a b : Quat ℝ} (ha : UnitQ a) : UnitQ (start a b) := by
  unfold start; split_ifs
  · exact isUnit_neg ha
  · exact ha

theorem dot_neg_left (a b : Quat ℝ) : dot (neg a) b = -dot a b := by simp [dot, neg]; ring

theorem start_dot_nonneg (a b : Quat ℝ) : 0 ≤ dot (start a b) b := by
  unfold start; split_ifs with h
  · rw [dot_neg_left]; linarith
  · exact not_lt.mp h

theorem dot_le_one {a b : Quat ℝ} (ha : UnitQ a) (hb : UnitQ b) : dot a b ≤ 1 := by
  unfold UnitQ at *
  simp only [dot]
  nlinarith [sq_nonneg (a.x - b.x), sq_nonneg (a.y - b.y), sq_nonneg (a.z - b.z),
    sq_nonneg (a.w - b.w)]

theorem slerpWeights_eq {a b : Quat ℝ} (ha : UnitQ a) (hb : UnitQ b) (t : ℝ) :
    slerpWeights a b t =
      if dot (start a b) b > 0.9999 then (start a b, 1 - t, t)
      else (start a b,
        Real.sin ((1 - t) * Real.arccos (dot (start a b) b)) / Real.sin (Real.arccos (dot (start a b) b)),
        Real.sin (t * Real.arccos (dot (start a b) b)) / Real.sin (Real.arccos (dot (start a b) b))) := by
  have hd : (⟨a.x - b.x, a.y - b.y, a.z - b.z, a.w - b.w⟩ : Quat ℝ).normSq > 2 ↔ dot a b < 0 := by
    unfold UnitQ at *
    simp only [normSq, dot]
    constructor <;> intro h <;> nlinarith
  unfold slerpWeights start
  simp only [hd]
  rfl

theorem slerp_eq {a b : Quat ℝ} (ha : UnitQ a) (hb : UnitQ b) (t : ℝ) :
    ∃ w1 w2 : ℝ, slerp a b t = (comb (start a b) b w1 w2).normalize ∧
      0 < (comb (start a b) b w1 w2).normSq ∧
      ((0.9999 < dot (start a b) b ∧ w1 = 1 - t ∧ w2 = t) ∨
       (dot (start a b) b ≤ 0.9999 ∧ (comb (start a b) b w1 w2).normSq = 1 ∧
        w1 * Real.sin (Real.arccos (dot (start a b) b)) =
          Real.sin ((1 - t) * Real.arccos (dot (start a b) b)) ∧
        w2 * Real.sin (Real.arccos (dot (start a b) b)) =
          Real.sin (t * Real.arccos (dot (start a b) b)))) := by
  have hs := start_unit (b := b) ha
  have hd0 := start_dot_nonneg a b
  have hd1 := dot_le_one hs hb
  by_cases h : dot (start a b) b > 0.9999
  · refine ⟨1 - t, t, ?_, ?_, Or.inl ⟨h, rfl, rfl⟩⟩
    · unfold slerp; rw [slerpWeights_eq ha hb, if_pos h]; rfl
    · rw [normSq_comb hs hb]
      have : (1 - t) ^ 2 + t ^ 2 + 2 * (1 - t) * t * dot (start a b) b
          = 1 - 2 * (t * (1 - t)) * (1 - dot (start a b) b) := by ring
      rw [this]
      have ht : t * (1 - t) ≤ 1 / 4 := by nlinarith [sq_nonneg (t - 1 / 2)]
      nlinarith
  · have h' := not_lt.mp h
    set d := dot (start a b) b with hdd
    have hcos : Real.cos (Real.arccos d) = d := Real.cos_arccos (by linarith) hd1
    have hsin : 0 < Real.sin (Real.arccos d) := by
      rw [Real.sin_arccos]
      apply Real.sqrt_pos.mpr; nlinarith
    have hn : (comb (start a b) b (Real.sin ((1 - t) * Real.arccos d) / Real.sin (Real.arccos d))
        (Real.sin (t * Real.arccos d) / Real.sin (Real.arccos d))).normSq = 1 := by
      rw [normSq_comb hs hb, ← hdd]
      set O := Real.arccos d
      have hsum : O = (1 - t) * O + t * O := by ring
      set A := (1 - t) * O
      set B := t * O
      have e1 : Real.sin O = Real.sin A * Real.cos B + Real.cos A * Real.sin B := by
        rw [hsum, Real.sin_add]
      have e2 : d = Real.cos A * Real.cos B - Real.sin A * Real.sin B := by
        rw [← hcos, hsum, Real.cos_add]
      have cA := Real.sin_sq_add_cos_sq A
      have cB := Real.sin_sq_add_cos_sq B
      have key : Real.sin A ^ 2 + Real.sin B ^ 2 + 2 * Real.sin A * Real.sin B * d
          = Real.sin O ^ 2 := by
        rw [e1, e2]
        linear_combination (-Real.sin B ^ 2) * cA + (-Real.sin A ^ 2) * cB
      have hne := hsin.ne'
      field_simp
      linarith
    refine ⟨_, _, ?_, ?_, Or.inr ⟨h', hn, ?_, ?_⟩⟩
    · unfold slerp; rw [slerpWeights_eq ha hb, if_neg h]; rfl
    · rw [hn]; exact one_pos
    · exact div_mul_cancel₀ _ hsin.ne'
    · exact div_mul_cancel₀ _ hsin.ne'

theorem start_same (a b : Quat ℝ) : SameRotation (start a b) a := by
  unfold start; split_ifs
  · exact Or.inr ⟨rfl, rfl, rfl, rfl⟩
  · exact Or.inl rfl

theorem unit_slerp {a b : Quat ℝ} (ha : UnitQ a) (hb : UnitQ b) (t : ℝ) : UnitQ (slerp a b t) := by
  obtain ⟨w1, w2, h, hp, _⟩ := slerp_eq ha hb t
  rw [h]; exact unit_normalize hp.ne'

theorem slerp_zero {a b : Quat ℝ} (ha : UnitQ a) (hb : UnitQ b) : slerp a b 0 = start a b := by
  have hs := start_unit (b := b) ha
  have hd0 := start_dot_nonneg a b
  obtain ⟨w1, w2, h, _, h2⟩ := slerp_eq ha hb 0
  have hw : w1 = 1 ∧ w2 = 0 := by
    rcases h2 with ⟨_, h1, h2⟩ | ⟨hle, _, h1, h2⟩
    · exact ⟨by rw [h1]; ring, h2⟩
    · have hsin : 0 < Real.sin (Real.arccos (dot (start a b) b)) := by
        rw [Real.sin_arccos]; apply Real.sqrt_pos.mpr; nlinarith
      constructor
      · apply mul_right_cancel₀ hsin.ne'; rw [h1]; simp
      · apply mul_right_cancel₀ hsin.ne'; rw [h2]; simp
  rw [h, hw.1, hw.2]
  have : comb (start a b) b 1 0 = start a b := by ext <;> simp [comb]
  rw [this, normalize_unit hs]

theorem slerp_one {a b : Quat ℝ} (ha : UnitQ a) (hb : UnitQ b) : slerp a b 1 = b := by
  have hd0 := start_dot_nonneg a b
  obtain ⟨w1, w2, h, _, h2⟩ := slerp_eq ha hb 1
  have hw : w1 = 0 ∧ w2 = 1 := by
    rcases h2 with ⟨_, h1, h2⟩ | ⟨hle, _, h1, h2⟩
    · exact ⟨by rw [h1]; ring, h2⟩
    · have hsin : 0 < Real.sin (Real.arccos (dot (start a b) b)) := by
        rw [Real.sin_arccos]; apply Real.sqrt_pos.mpr; nlinarith
      constructor
      · apply mul_right_cancel₀ hsin.ne'; rw [h1]; simp
      · apply mul_right_cancel₀ hsin.ne'; rw [h2]; simp
  rw [h, hw.1, hw.2]
  have : comb (start a b) b 0 1 = b := by ext <;> simp [comb]
  rw [this, normalize_unit hb]

end Quat

/-- **C06** For all unit quaternions: interpolation starts at (the rotation) `a`, ends exactly at
`b`, and is a unit quaternion for every `t`, inside or outside `[0,1]`. -/
theorem C06_slerp_endpoints_unit (a b : Quat ℝ) (ha : UnitQ a) (hb : UnitQ b) :
    SameRotation (slerp a b 0) a ∧ slerp a b 1 = b ∧ ∀ t, UnitQ (slerp a b t) :=
  ⟨slerp_zero ha hb ▸ start_same a b, slerp_one ha hb, fun t => unit_slerp ha hb t⟩

/-- **C06** The path does not depend on which of the two representatives of `a` is passed, as long
as `a` and `b` are not exactly 180 degrees apart; changing the representative of `b` changes only
the representative of the result. -/
theorem C06_slerp_double_cover (a b : Quat ℝ) (ha : UnitQ a) (hb : UnitQ b) (t : ℝ)
    (hd : dot a b ≠ 0) :
    slerp (neg a) b t = slerp a b t ∧ SameRotation (slerp a (neg b) t) (slerp a b t) := by
  have e1 : start (neg a) b = start a b := by
    unfold start
    rw [dot_neg_left]
    rcases lt_or_gt_of_ne hd with h | h
    · rw [if_pos h, if_neg (by linarith)]
    · rw [if_pos (by linarith), if_neg (by linarith)]
      ext <;> simp [neg]
  have hb' := isUnit_neg hb
  have e2 : start a (neg b) = neg (start a b) := by
    have : dot a (neg b) = -dot a b := by simp [dot, neg]; ring
    unfold start
    rw [this]
    rcases lt_or_gt_of_ne hd with h | h
    · rw [if_pos h, if_neg (by linarith)]
      ext <;> simp [neg]
    · rw [if_pos (by linarith), if_neg (by linarith)]
  have hdd : dot (neg (start a b)) (neg b) = dot (start a b) b := by simp [dot, neg]
  constructor
  · unfold slerp
    rw [slerpWeights_eq (isUnit_neg ha) hb, slerpWeights_eq ha hb, e1]
  · right
    have key : ∀ w1 w2 : ℝ, comb (neg (start a b)) (neg b) w1 w2 = neg (comb (start a b) b w1 w2) := by
      intro w1 w2; ext <;> simp [comb, neg] <;> ring
    have habs : ∀ q : Quat ℝ, (neg q).abs = q.abs := by
      intro q; simp [Quat.abs, normSq, neg]
    have hnn : ∀ q : Quat ℝ, (neg q).normalize = neg q.normalize := by
      intro q; ext <;> simp only [Quat.normalize, habs] <;> simp [neg, neg_div]
    have hmain : slerp a (neg b) t = neg (slerp a b t) := by
      by_cases h : dot (start a b) b > 0.9999
      · have l : slerp a (neg b) t = (comb (neg (start a b)) (neg b) (1 - t) t).normalize := by
          unfold slerp
          rw [slerpWeights_eq ha hb', e2, hdd, if_pos h]; rfl
        have r : slerp a b t = (comb (start a b) b (1 - t) t).normalize := by
          unfold slerp
          rw [slerpWeights_eq ha hb, if_pos h]; rfl
        rw [l, r, key, hnn]
      · have l : slerp a (neg b) t = (comb (neg (start a b)) (neg b)
            (Real.sin ((1 - t) * Real.arccos (dot (start a b) b)) /
              Real.sin (Real.arccos (dot (start a b) b)))
            (Real.sin (t * Real.arccos (dot (start a b) b)) /
              Real.sin (Real.arccos (dot (start a b) b)))).normalize := by
          unfold slerp
          rw [slerpWeights_eq ha hb', e2, hdd, if_neg h]; rfl
        have r : slerp a b t = (comb (start a b) b
            (Real.sin ((1 - t) * Real.arccos (dot (start a b) b)) /
              Real.sin (Real.arccos (dot (start a b) b)))
            (Real.sin (t * Real.arccos (dot (start a b) b)) /
              Real.sin (Real.arccos (dot (start a b) b)))).normalize := by
          unfold slerp
          rw [slerpWeights_eq ha hb, if_neg h]; rfl
        rw [l, r, key, hnn]
    rw [hmain]
    exact ⟨rfl, rfl, rfl, rfl⟩

/-- **C06** In the spherical branch the path has constant angular speed along the shorter arc:
with `Ω = arccos |a·b|` (at most a right angle) the result has angle `t Ω` to the start and
`(1-t) Ω` to `b`. -/
theorem C06_slerp_constant_speed (a b : Quat ℝ) (ha : UnitQ a) (hb : UnitQ b) (t : ℝ)
    (hfar : |dot a b| ≤ 0.9999) :
    dot (slerp a b t) (slerp a b 0) = Real.cos (t * Real.arccos |dot a b|) ∧
    dot (slerp a b t) b = Real.cos ((1 - t) * Real.arccos |dot a b|) := by
  have hs := start_unit (b := b) ha
  have hd0 := start_dot_nonneg a b
  have habs : |dot a b| = dot (start a b) b := by
    unfold start; split_ifs with h
    · rw [abs_of_neg h, dot_neg_left]
    · rw [abs_of_nonneg (not_lt.mp h)]
  rw [habs] at hfar ⊢
  rw [slerp_zero ha hb]
  obtain ⟨w1, w2, h, _, h2⟩ := slerp_eq ha hb t
  rcases h2 with ⟨hgt, _, _⟩ | ⟨_, hn, h1, h2⟩
  · linarith
  set d := dot (start a b) b with hdd
  have hcos : Real.cos (Real.arccos d) = d := Real.cos_arccos (by linarith) (by linarith)
  have hsin : 0 < Real.sin (Real.arccos d) := by
    rw [Real.sin_arccos]; apply Real.sqrt_pos.mpr; nlinarith
  have hnorm : (comb (start a b) b w1 w2).normalize = comb (start a b) b w1 w2 := by
    apply normalize_unit
    unfold UnitQ; rw [← hn]; unfold normSq; ring
  rw [h, hnorm]
  have ds : dot (comb (start a b) b w1 w2) (start a b) = w1 + w2 * d := by
    unfold UnitQ at hs
    simp only [hdd, dot, comb]; linear_combination w1 * hs
  have db : dot (comb (start a b) b w1 w2) b = w1 * d + w2 := by
    unfold UnitQ at hb
    simp only [hdd, dot, comb]; linear_combination w2 * hb
  rw [ds, db]
  set O := Real.arccos d
  constructor
  · apply mul_right_cancel₀ hsin.ne'
    have e : Real.sin ((1 - t) * O) = Real.sin O * Real.cos (t * O) - Real.cos O * Real.sin (t * O) := by
      rw [← Real.sin_sub]; congr 1; ring
    rw [add_mul, h1, mul_right_comm, h2, e, hcos]; ring
  · apply mul_right_cancel₀ hsin.ne'
    have e : Real.sin (t * O) = Real.sin O * Real.cos ((1 - t) * O) - Real.cos O * Real.sin ((1 - t) * O) := by
      rw [← Real.sin_sub]; congr 1; ring
    rw [add_mul, mul_right_comm, h1, h2, e, hcos]; ring

example : UnitQ (⟨3 / 5, 0, 0, 4 / 5⟩ : Quat ℝ) ∧ UnitQ (⟨0, 5 / 13, 0, -12 / 13⟩ : Quat ℝ) ∧
    dot (⟨3 / 5, 0, 0, 4 / 5⟩ : Quat ℝ) ⟨0, 5 / 13, 0, -12 / 13⟩ ≠ 0 ∧
    |dot (⟨3 / 5, 0, 0, 4 / 5⟩ : Quat ℝ) ⟨0, 5 / 13, 0, -12 / 13⟩| ≤ 0.9999 := by
  refine ⟨by norm_num [UnitQ], by norm_num [UnitQ], by norm_num [dot], ?_⟩
  norm_num [dot, abs_le]

/-- **C10** Interpolating two poses with unit rotations: at 0 the first pose (same translation, same
rotation), at 1 exactly the second pose, in between the translation is the affine combination and
the rotation is a unit quaternion. -/
theorem C10_pose_interpolation (x y : Pose ℝ) (hx : UnitQ x.rotation) (hy : UnitQ y.rotation) :
    SameRotation (Pose.linearInterpolate x y 0).rotation x.rotation ∧
    (Pose.linearInterpolate x y 0).translation = x.translation ∧
    Pose.linearInterpolate x y 1 = y ∧
    ∀ t, UnitQ (Pose.linearInterpolate x y t).rotation ∧
      ∀ i, (Pose.linearInterpolate x y t).translation i =
        x.translation i + t * (y.translation i - x.translation i) := by
  obtain ⟨h0, h1, h2⟩ := C06_slerp_endpoints_unit _ _ hx hy
  refine ⟨h0, ?_, ?_, fun t => ⟨h2 t, fun i => ?_⟩⟩
  · ext i; simp [Pose.linearInterpolate, Vec.linearInterpolate]
  · apply Pose.ext
    · exact h1
    · ext i; simp [Pose.linearInterpolate, Vec.linearInterpolate]
  · simp only [Pose.linearInterpolate, Vec.linearInterpolate]; ring

/-- **C10** Interpolating two lists: well defined exactly when the second list is long enough, and
then it interpolates position by position. -/
theorem C10_pose_list_interpolation (xs ys : List (Pose ℝ)) (t : ℝ) :
    ((Pose.linearInterpolateList xs ys t).isSome ↔ xs.length ≤ ys.length) ∧
    (xs.length ≤ ys.length → Pose.linearInterpolateList xs ys t =
      some (List.zipWith (fun x y => Pose.linearInterpolate x y t) xs ys)) := by
  induction xs generalizing ys with
  | nil => simp [Pose.linearInterpolateList]
  | cons x xs ih =>
    cases ys with
    | nil => simp [Pose.linearInterpolateList]
    | cons y ys =>
      obtain ⟨h1, h2⟩ := ih ys
      constructor
      · simp [Pose.linearInterpolateList, h1]
      · intro h
        simp only [List.length_cons, Nat.add_le_add_iff_right] at h
        simp [Pose.linearInterpolateList, h2 h]

end Ubitrack
