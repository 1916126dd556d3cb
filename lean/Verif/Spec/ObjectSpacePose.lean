import Verif.Model.Pose
import Verif.Spec.Alignment

/-!
# Specification: distances of points from lines of sight
-/

namespace Ubitrack.Spec
open scoped Matrix

/-- The direction of the line of sight of an image point, in a camera of focal length one. -/
def sight (image : Vec ℝ 2) : Vec ℝ 3 := ![image 0, image 1, 1]

/-- Squared distance of a point from the line through the origin in a direction `d`. -/
noncomputable def lineDistSq (d y : Vec ℝ 3) : ℝ := lenSq (crossProduct d y) / lenSq d

/-- The sum of the squared distances of the points, moved by `R` and `t` into the frame of the camera, from the lines of sight of
their images. -/
noncomputable def objectError {n : ℕ} (images : Fin n → Vec ℝ 2) (points : Fin n → Vec ℝ 3) (R : Mat ℝ 3 3) (t : Vec ℝ 3) : ℝ :=
  ∑ i, lineDistSq (sight (images i)) (R *ᵥ points i + t)

end Ubitrack.Spec
