import Verif.Model.Pose

/-!
# Specification: images of points in several cameras
-/

namespace Ubitrack.Spec

/-- Coordinates of a world point in the frame of a camera, by the product `q x q*` of quaternions. -/
def cameraCoordinates (p : Pose ℝ) (x : Vec ℝ 3) : Vec ℝ 3 :=
  let r := (p.rotation.mul ⟨x 0, x 1, x 2, 0⟩).mul p.rotation.conj
  ![r.x + p.translation 0, r.y + p.translation 1, r.z + p.translation 2]

/-- The image of a point in a camera of focal length one. -/
noncomputable def view (p : Pose ℝ) (x : Vec ℝ 3) : Vec ℝ 2 :=
  ![cameraCoordinates p x 0 / cameraCoordinates p x 2, cameraCoordinates p x 1 / cameraCoordinates p x 2]

/-- Squared distance in the image. -/
def distSq2 (a b : Vec ℝ 2) : ℝ := (a 0 - b 0) ^ 2 + (a 1 - b 1) ^ 2

/-- The sum of the squared distances between what was observed of point `p` in camera `c` and the image of the point. -/
noncomputable def bundleError {nc np : ℕ} (observed : Fin nc → Fin np → Vec ℝ 2) (cams : Fin nc → Pose ℝ) (points : Fin np → Vec ℝ 3) : ℝ :=
  ∑ c, ∑ p, distSq2 (observed c p) (view (cams c) (points p))

end Ubitrack.Spec
