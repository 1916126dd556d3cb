import Verif.Model.PoseEquality
import Verif.Props.RotationMatrix
import Verif.Props.Pose

/-!
# C112: comparing poses
-/

namespace Ubitrack
open Ubitrack.Spec Ubitrack.Quat
open scoped Matrix

/-- **C112** `p == q` holds exactly for poses with the same four rotation and three translation
numbers, and `p != q` exactly when `p == q` does not. -/
theorem C112_equality {K : Type*} [DecidableEq K] (p q : Pose K) :
    (p.beq q = true ↔ p = q) ∧ (p.bne q = true ↔ p ≠ q) := by
  have h : ((p.rotation.x = q.rotation.x ∧ p.rotation.y = q.rotation.y ∧
      p.rotation.z = q.rotation.z ∧ p.rotation.w = q.rotation.w) ∧
      (∀ i, p.translation i = q.translation i)) ↔ p = q := by
    constructor
    · rintro ⟨⟨h1, h2, h3, h4⟩, h5⟩
      exact Pose.ext (Quat.ext h1 h2 h3 h4) (funext h5)
    · rintro rfl; exact ⟨⟨rfl, rfl, rfl, rfl⟩, fun _ => rfl⟩
  constructor
  · unfold Pose.beq; rw [← h]; split_ifs with hc <;> simp [hc]
  · unfold Pose.bne; rw [Ne, ← h]; split_ifs with hc <;> simp [hc]

/-- **C112** Comparison is an equivalence relation, and equal poses move every point alike. -/
theorem C112_equivalence {K : Type*} [CommRing K] [DecidableEq K] (p q r : Pose K) :
    p.beq p = true ∧ (p.beq q = q.beq p) ∧ (p.beq q = true → q.beq r = true → p.beq r = true) ∧
    (p.beq q = true → ∀ v, p.apply v = q.apply v) := by
  refine ⟨(C112_equality p p).1.2 rfl, ?_, ?_, ?_⟩
  · rw [Bool.eq_iff_iff, (C112_equality p q).1, (C112_equality q p).1]; exact eq_comm
  · rw [(C112_equality p q).1, (C112_equality q r).1, (C112_equality p r).1]; exact Eq.trans
  · rw [(C112_equality p q).1]; rintro rfl v; rfl

/-- **C112** The poses with unit rotation that move every point alike are the equal ones and those
that differ by the sign of the whole quaternion; the latter compare unequal. -/
theorem C112_motion [DecidableEq ℝ] (p q : Pose ℝ) (hp : UnitQ p.rotation)
    (hq : UnitQ q.rotation) :
    ((∀ v, p.apply v = q.apply v) ↔
      p.beq q = true ∨ p.beq ⟨⟨-q.rotation.x, -q.rotation.y, -q.rotation.z, -q.rotation.w⟩,
        q.translation⟩ = true) ∧
    q.bne ⟨⟨-q.rotation.x, -q.rotation.y, -q.rotation.z, -q.rotation.w⟩, q.translation⟩ = true := by
  rw [(C112_equality _ _).1, (C112_equality _ _).1, (C112_equality _ _).2]
  refine ⟨⟨fun h => ?_, ?_⟩, fun h => ?_⟩
  · have ht : p.translation = q.translation := by
      have := h 0
      simpa [Pose.apply, rotate_zero] using this
    have hr : ∀ v, rotate p.rotation v = rotate q.rotation v := by
      intro v; have := h v
      simpa [Pose.apply, ht] using this
    have hm : toMatrix p.rotation = toMatrix q.rotation := by
      apply Matrix.ext_of_mulVec_single
      intro i
      rw [(C03_quaternion_to_matrix _ hp).1, (C03_quaternion_to_matrix _ hq).1, hr]
    have h1 := C04_unique _ p.rotation hp hm
    have h2 := C04_unique _ q.rotation hq rfl
    have hs : p.rotation = q.rotation ∨ p.rotation = neg q.rotation := by
      rcases h1 with h1 | h1 <;> rcases h2 with h2 | h2
      all_goals
        simp only [Quat.ext_iff, neg] at h1 h2 ⊢
        obtain ⟨a, b, c, d⟩ := h1
        obtain ⟨a', b', c', d'⟩ := h2
      · exact Or.inl ⟨by linarith, by linarith, by linarith, by linarith⟩
      · exact Or.inr ⟨by linarith, by linarith, by linarith, by linarith⟩
      · exact Or.inr ⟨by linarith, by linarith, by linarith, by linarith⟩
      · exact Or.inl ⟨by linarith, by linarith, by linarith, by linarith⟩
    rcases hs with hs | hs
    · exact Or.inl (Pose.ext hs ht)
    · exact Or.inr (Pose.ext hs ht)
  · rintro (rfl | rfl)
    · intro v; rfl
    · intro v
      simp only [Pose.apply, rotate]
      congr 1
      ext i; fin_cases i <;> simp
  · have h4 := congrArg Pose.rotation h
    simp only [Quat.ext_iff] at h4
    obtain ⟨a, b, c, d⟩ := h4
    have hx : q.rotation.x = 0 := by linarith
    have hy : q.rotation.y = 0 := by linarith
    have hz : q.rotation.z = 0 := by linarith
    have hw : q.rotation.w = 0 := by linarith
    simp [UnitQ, hx, hy, hz, hw] at hq

/-- **C112** Inverting twice gives an equal pose, and the inverse of a product equals the product
of the inverses in the opposite order. -/
theorem C112_inverse {K : Type*} [CommRing K] [DecidableEq K] (p q : Pose K)
    (hp : UnitQ p.rotation) (hq : UnitQ q.rotation) :
    p.inv.inv.beq p = true ∧ (p.mul q).inv.beq (q.inv.mul p.inv) = true := by
  rw [(C112_equality _ _).1, (C112_equality _ _).1]
  have hu := isUnit_mul hp hq
  have key : ∀ a b : Pose K, UnitQ a.rotation → UnitQ b.rotation → a.mul b = Pose.one →
      a.inv = b := by
    intro a b ha hb h
    have g1 := C08_pose_group a.inv a b (isUnit_conj ha) ha
    have g2 := C08_pose_group a a b ha ha
    have g3 := C08_pose_group a.inv b b (isUnit_conj ha) hb
    have g4 := C08_pose_group b b b hb hb
    rw [g2.2.2.1.1, h, g4.2.1.1] at g1
    rw [← g1.2.1.2, ← g1.1]
  constructor
  · exact key _ _ (isUnit_conj hp) hp (C08_pose_group p p p hp hp).2.2.1.1
  · apply key _ _ hu (isUnit_mul (isUnit_conj hq) (isUnit_conj hp))
    have e1 := (C08_pose_group p q (q.inv.mul p.inv) hp hq).1
    have e2 := (C08_pose_group q q.inv p.inv hq (isUnit_conj hq)).1
    have e3 := (C08_pose_group q q q hq hq).2.2.1.2
    have e4 := (C08_pose_group p p p hp hp).2.2.1.2
    have e5 := (C08_pose_group p.inv p p (isUnit_conj hp) hp).2.1.1
    rw [e1, ← e2, e3, e5, e4]

example : UnitQ pEx.rotation ∧ UnitQ pEx'.rotation ∧ pEx.beq pEx = true ∧ pEx.beq pEx' = false ∧
    pEx.bne pEx' = true ∧ pEx.bne pEx = false := by
  refine ⟨qEx_unit, qEx'_unit, by decide +kernel, by decide +kernel, by decide +kernel,
    by decide +kernel⟩

example : UnitQ (⟨0, 0, 3/5, 4/5⟩ : Quat ℝ) := by norm_num [UnitQ]

end Ubitrack
