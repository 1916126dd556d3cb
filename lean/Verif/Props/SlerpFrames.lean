import Verif.Props.Slerp

/-! # C06, C10: interpolation backwards and in other frames -/

namespace Ubitrack
open Ubitrack.Spec Ubitrack.Quat

namespace SlerpFrames

open Classical in
/-- The weight of the second rotation. -/
noncomputable def weight (d t : ℝ) : ℝ :=
  if d > 0.9999 then t else Real.sin (t * Real.arccos d) / Real.sin (Real.arccos d)

theorem slerp_weight {a b : Quat ℝ} (ha : UnitQ a) (hb : UnitQ b) (t : ℝ) :
    slerp a b t = (comb (start a b) b (weight (dot (start a b) b) (1 - t)) (weight (dot (start a b) b) t)).normalize := by
  unfold slerp
  rw [slerpWeights_eq ha hb]
  unfold weight
  by_cases h : dot (start a b) b > 0.9999
  · simp only [if_pos h]; rfl
  · simp only [if_neg h]; rfl

theorem normalize_neg (q : Quat ℝ) : (neg q).normalize = neg q.normalize := by
  have habs : (neg q).abs = q.abs := by simp [Quat.abs, normSq, neg]
  ext <;> simp only [Quat.normalize, habs] <;> simp [neg, neg_div]

theorem dot_comm (a b : Quat ℝ) : dot a b = dot b a := by simp only [dot]; ring

theorem dot_mul (c a b : Quat ℝ) (hc : UnitQ c) : dot (c.mul a) (c.mul b) = dot a b ∧ dot (a.mul c) (b.mul c) = dot a b := by
  unfold UnitQ at hc
  simp only [dot, Quat.mul]
  constructor
  · linear_combination (a.x * b.x + a.y * b.y + a.z * b.z + a.w * b.w) * hc
  · linear_combination (a.x * b.x + a.y * b.y + a.z * b.z + a.w * b.w) * hc

theorem start_mul (c a b : Quat ℝ) (hc : UnitQ c) :
    start (c.mul a) (c.mul b) = c.mul (start a b) ∧ start (a.mul c) (b.mul c) = (start a b).mul c := by
  unfold start
  rw [(dot_mul c a b hc).1, (dot_mul c a b hc).2]
  split_ifs
  · constructor <;> ext <;> simp only [neg, Quat.mul] <;> ring
  · exact ⟨rfl, rfl⟩

theorem normalize_mul (c q : Quat ℝ) (hc : UnitQ c) :
    (c.mul q).normalize = c.mul q.normalize ∧ (q.mul c).normalize = q.normalize.mul c := by
  have h1 : (c.mul q).abs = q.abs := by
    unfold Quat.abs; congr 1
    have := (dot_mul c q q hc).1
    simp only [dot] at this
    simp only [normSq]; linarith
  have h2 : (q.mul c).abs = q.abs := by
    unfold Quat.abs; congr 1
    have := (dot_mul c q q hc).2
    simp only [dot] at this
    simp only [normSq]; linarith
  constructor
  · ext <;> simp only [Quat.normalize, h1] <;> simp only [Quat.mul] <;> ring
  · ext <;> simp only [Quat.normalize, h2] <;> simp only [Quat.mul] <;> ring

end SlerpFrames

open SlerpFrames

/-- **C06** Interpolating from `b` to `a` goes the same way back: at `1 - t` it is at the rotation where
interpolating from `a` to `b` is at `t`. -/
theorem C06_slerp_reverse (a b : Quat ℝ) (ha : UnitQ a) (hb : UnitQ b) (t : ℝ) :
    SameRotation (slerp b a (1 - t)) (slerp a b t) := by
  rw [slerp_weight ha hb, slerp_weight hb ha, sub_sub_cancel]
  unfold start
  rw [dot_comm b a]
  split_ifs with h
  · rw [dot_neg_left, dot_neg_left, dot_comm b a]
    generalize weight (-dot a b) (1 - t) = u
    generalize weight (-dot a b) t = w
    right
    have : comb (neg b) a w u = neg (comb (neg a) b u w) := by ext <;> simp [comb, neg] <;> ring
    rw [this, normalize_neg]
    exact ⟨rfl, rfl, rfl, rfl⟩
  · rw [dot_comm b a]
    left
    congr 1
    ext <;> simp [comb] <;> ring

/-- **C06** The interpolation does not depend on the frames: turning both rotations by a third one, from either side, turns the
result by it. -/
theorem C06_slerp_frames (a b c : Quat ℝ) (ha : UnitQ a) (hb : UnitQ b) (hc : UnitQ c) (t : ℝ) :
    slerp (c.mul a) (c.mul b) t = c.mul (slerp a b t) ∧ slerp (a.mul c) (b.mul c) t = (slerp a b t).mul c := by
  constructor
  · rw [slerp_weight (isUnit_mul hc ha) (isUnit_mul hc hb), slerp_weight ha hb, (start_mul c a b hc).1,
      (dot_mul c _ b hc).1, ← (normalize_mul c _ hc).1]
    congr 1
    ext <;> simp only [comb, Quat.mul] <;> ring
  · rw [slerp_weight (isUnit_mul ha hc) (isUnit_mul hb hc), slerp_weight ha hb, (start_mul c a b hc).2,
      (dot_mul c _ b hc).2, ← (normalize_mul c _ hc).2]
    congr 1
    ext <;> simp only [comb, Quat.mul] <;> ring

/-- **C10** The interpolation of poses does not depend on the world frame: moving both poses by a third one moves the result by
it. -/
theorem C10_interpolation_frames (x y p : Pose ℝ) (hx : UnitQ x.rotation) (hy : UnitQ y.rotation) (hp : UnitQ p.rotation) (t : ℝ) :
    Pose.linearInterpolate (p.mul x) (p.mul y) t = p.mul (Pose.linearInterpolate x y t) := by
  apply Pose.ext
  · exact (C06_slerp_frames x.rotation y.rotation p.rotation hx hy hp t).1
  · funext i
    simp only [Pose.linearInterpolate, Pose.mul, Vec.linearInterpolate, Pi.add_apply, rotate]
    fin_cases i <;> simp <;> ring

/-- **C10** The interpolation of poses does depend on the frame of the body: seen from another origin of the body, the
result is another one. -/
theorem C10_interpolation_body_frame : ∃ x y p : Pose ℝ, UnitQ x.rotation ∧ UnitQ y.rotation ∧ UnitQ p.rotation ∧
    Pose.linearInterpolate (x.mul p) (y.mul p) (1 / 2) ≠ (Pose.linearInterpolate x y (1 / 2)).mul p := by
  refine ⟨⟨⟨0, 0, 0, 1⟩, 0⟩, ⟨⟨0, 0, 1, 0⟩, 0⟩, ⟨⟨0, 0, 0, 1⟩, ![1, 0, 0]⟩, by norm_num [UnitQ], by norm_num [UnitQ],
    by norm_num [UnitQ], fun h => ?_⟩
  have hu : UnitQ (slerp (⟨0, 0, 0, 1⟩ : Quat ℝ) ⟨0, 0, 1, 0⟩ (1 / 2)) :=
    unit_slerp (by norm_num [UnitQ]) (by norm_num [UnitQ]) _
  have ht := congrArg Pose.translation h
  have h0 : rotate (slerp (⟨0, 0, 0, 1⟩ : Quat ℝ) ⟨0, 0, 1, 0⟩ (1 / 2)) ![1, 0, 0] = 0 := by
    funext i
    have hi := congrFun ht i
    simp only [Pose.linearInterpolate, Pose.mul, Vec.linearInterpolate, Pi.add_apply, Pi.zero_apply, mul_zero, add_zero] at hi
    rw [← hi]
    fin_cases i <;> simp [rotate] <;> norm_num
  have hl := (C01_rotation_rigid _ hu).2.2 ![1, 0, 0]
  rw [h0] at hl
  simp [lenSq] at hl

/-- Rotations and a pose that are not the identity. -/
example : UnitQ (⟨3/5, 0, 0, 4/5⟩ : Quat ℝ) ∧ UnitQ (⟨0, 5/13, 0, 12/13⟩ : Quat ℝ) ∧ UnitQ (⟨1/2, 1/2, -1/2, 1/2⟩ : Quat ℝ) := by
  refine ⟨?_, ?_, ?_⟩ <;> norm_num [UnitQ]

end Ubitrack
