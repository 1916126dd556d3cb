import Verif.Props.RotationGroup
import Verif.Props.Pose

/-! # C08: every rigid motion is a pose, and only one -/

namespace Ubitrack
open Ubitrack.Spec Ubitrack.Quat
open scoped Matrix

private theorem lenSq_dot (u : Vec ℝ 3) : lenSq u = u ⬝ᵥ u := by
  simp [lenSq, dotProduct, Fin.sum_univ_three]; ring

/-- **C08** Every map of space that keeps distances and signed volumes (so every rigid motion) is the motion of a pose with unit
quaternion, and poses with the same motion have the same translation and the same or opposite quaternions. -/
theorem C08_every_motion (f : Vec ℝ 3 → Vec ℝ 3) (hd : ∀ u v, lenSq (f u - f v) = lenSq (u - v))
    (ho : ∀ o a b c, Matrix.det (Matrix.of ![f a - f o, f b - f o, f c - f o]) = Matrix.det (Matrix.of ![a - o, b - o, c - o])) :
    ∃ p : Pose ℝ, UnitQ p.rotation ∧ (∀ v, p.apply v = f v) ∧
      ∀ p' : Pose ℝ, UnitQ p'.rotation → (∀ v, p'.apply v = f v) →
        p'.translation = p.translation ∧ SameRotation p'.rotation p.rotation := by
  set g : Vec ℝ 3 → Vec ℝ 3 := fun v => f v - f 0 with hg
  have hlen : ∀ v, g v ⬝ᵥ g v = v ⬝ᵥ v := by
    intro v
    have := hd v 0
    rw [sub_zero, lenSq_dot, lenSq_dot] at this
    exact this
  have hdot : ∀ u v, g u ⬝ᵥ g v = u ⬝ᵥ v := by
    intro u v
    have h := hd u v
    have e : f u - f v = g u - g v := by simp [hg]
    rw [e, lenSq_dot, lenSq_dot] at h
    simp only [sub_dotProduct, dotProduct_sub] at h
    rw [hlen, hlen, dotProduct_comm (g v) (g u), dotProduct_comm v u] at h
    linarith
  let M : Mat ℝ 3 3 := Matrix.of fun i j => g (Pi.single j 1) i
  have hM : Mᵀ * M = 1 := by
    ext i j
    rw [Matrix.mul_apply]
    have := hdot (Pi.single i 1) (Pi.single j 1)
    simp only [dotProduct, single_dotProduct] at this
    refine Eq.trans this ?_
    rw [show (∑ k, (Pi.single i 1 : Vec ℝ 3) k * (Pi.single j 1 : Vec ℝ 3) k) = (Pi.single i 1 : Vec ℝ 3) ⬝ᵥ Pi.single j 1 from rfl,
      single_dotProduct, one_mul, Matrix.one_apply, Pi.single_apply]
  have hM' : M * Mᵀ = 1 := mul_eq_one_comm.mp hM
  have hdet : M.det = 1 := by
    have := ho 0 (Pi.single 0 1) (Pi.single 1 1) (Pi.single 2 1)
    have e1 : Matrix.of ![f (Pi.single 0 1) - f 0, f (Pi.single 1 1) - f 0, f (Pi.single 2 1) - f 0] = Mᵀ := by
      ext i j; fin_cases i <;> rfl
    have e2 : (Matrix.of ![Pi.single 0 1 - 0, Pi.single 1 1 - 0, Pi.single 2 1 - 0] : Mat ℝ 3 3) = 1 := by
      ext i j; fin_cases i <;> fin_cases j <;> simp [Pi.single_apply, Matrix.one_apply]
    rw [e1, e2, Matrix.det_transpose, Matrix.det_one] at this
    exact this
  have happ : ∀ v, g v = M.mulVec v := by
    intro v
    have : Mᵀ.mulVec (g v) = v := by
      ext i
      have := hdot (Pi.single i 1) v
      rw [single_dotProduct, one_mul] at this
      exact this
    calc g v = (M * Mᵀ).mulVec (g v) := by rw [hM', Matrix.one_mulVec]
      _ = M.mulVec v := by rw [← Matrix.mulVec_mulVec, this]
  obtain ⟨hu, hm, hr⟩ := C04_every_rotation_matrix M hM hdet
  have hrot0 : ∀ q : Quat ℝ, rotate q 0 = 0 := by
    intro q; ext i; fin_cases i <;> simp [rotate]
  refine ⟨⟨ofMatrix M, f 0⟩, hu, fun v => ?_, fun p' hp' h => ?_⟩
  · simp only [Pose.apply, hr, ← happ]
    ext i; fin_cases i <;> simp [hg]
  · have ht : p'.translation = f 0 := by
      rw [← h 0, Pose.apply, hrot0]
      ext i; fin_cases i <;> simp
    refine ⟨ht, ?_⟩
    rw [← (C03_group _ _ hp' hu).2.2, hm]
    apply Matrix.ext_of_mulVec_single
    intro i
    rw [← happ, (C03_quaternion_to_matrix _ hp').1]
    have := h (Pi.single i 1)
    rw [hg]
    simp only
    rw [← this, ← ht]
    ext k; fin_cases k <;> simp [Pose.apply]

/-- A screw motion along the x axis keeps distances and volumes. -/
example : ∃ f : Vec ℝ 3 → Vec ℝ 3, (∀ u v, lenSq (f u - f v) = lenSq (u - v)) ∧
    (∀ o a b c, Matrix.det (Matrix.of ![f a - f o, f b - f o, f c - f o]) = Matrix.det (Matrix.of ![a - o, b - o, c - o])) ∧
    f 0 = ![1, 0, 0] := by
  refine ⟨fun v => ![v 0 + 1, -v 2, v 1], fun u v => ?_, fun o a b c => ?_, ?_⟩
  · simp [lenSq]; ring
  · simp [Matrix.det_fin_three]; ring
  · ext i; fin_cases i <;> simp

end Ubitrack
