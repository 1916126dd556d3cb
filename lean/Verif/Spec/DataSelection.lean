import Verif.Model.Pose
import Verif.Spec.Rotation

/-!
# Selected relative poses
-/

namespace Ubitrack.Spec

/-- The pose `a` is the pose `b`, except that a rotation by less than about `1e-10` may be replaced by none. -/
def AlmostSame (a b : Pose ℝ) : Prop :=
  a.translation = b.translation ∧
    (SameRotation a.rotation b.rotation ∨ (a.rotation = ⟨0, 0, 0, 1⟩ ∧ 1 - 1e-20 ≤ b.rotation.w ^ 2))

/-- The motions of the eye and of the hand between the times `i` and `k`. -/
def eyeMotion {n : ℕ} (eye : Fin n → Pose ℝ) (i k : Fin n) : Pose ℝ := (eye i).inv.mul (eye k)
@[inherit_doc eyeMotion] def handMotion {n : ℕ} (hand : Fin n → Pose ℝ) (i k : Fin n) : Pose ℝ := (hand i).mul (hand k).inv

end Ubitrack.Spec
