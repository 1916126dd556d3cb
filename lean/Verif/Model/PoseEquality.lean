import Verif.Model.Pose

/-!
# Model of `operator!=` of `utMath/Pose.cpp`
-/

namespace Ubitrack.Pose

/-- src/utMath/Pose.cpp l.66-71: `operator!=`. The code repeats the condition of `operator==`
instead of negating its result. -/
def bne {K : Type*} [DecidableEq K] (p q : Pose K) : Bool :=
  if (p.rotation.x = q.rotation.x ∧ p.rotation.y = q.rotation.y ∧ p.rotation.z = q.rotation.z ∧
      p.rotation.w = q.rotation.w) ∧ (∀ i, p.translation i = q.translation i) then false else true

end Ubitrack.Pose
