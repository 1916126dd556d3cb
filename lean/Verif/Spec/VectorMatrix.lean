import Verif.Model.Quaternion

/-!
# Numbers that may be "not a number", mirrored space
-/

namespace Ubitrack.Spec

/-- Floating point numbers, as far as comparisons go: `nan` is neither less nor greater than anything. -/
inductive MaybeNumber where
  | num (x : ℝ)
  | nan

/-- The comparison of floating point numbers. -/
def MaybeNumber.Less : MaybeNumber → MaybeNumber → Prop
  | .num x, .num y => x < y
  | _, _ => False

instance : LT MaybeNumber := ⟨MaybeNumber.Less⟩

noncomputable instance : DecidableLT MaybeNumber := Classical.decRel _

/-- The point, in homogeneous coordinates, with the direction of the z axis reversed. -/
def mirrored (x : Vec ℝ 4) : Vec ℝ 4 := ![x 0, x 1, -x 2, x 3]

end Ubitrack.Spec
