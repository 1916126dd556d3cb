import Verif.Spec.BundleRun

/-!
# Specification: distances in sensor coordinates
-/

namespace Ubitrack.Spec

/-- Squared distance of two pixels in sensor coordinates, for a camera matrix `[f s cx; 0 g cy; 0 0 w]`: a step `(dx, dy)` on the sensor
is the step `(f dx + s dy, g dy)` in pixels. -/
noncomputable def sensorDistSq (cam : Mat ℝ 3 3) (p q : Vec ℝ 2) : ℝ :=
  let dy := (p 1 - q 1) / cam 1 1
  let dx := (p 0 - q 0 - cam 0 1 * dy) / cam 0 0
  dx ^ 2 + dy ^ 2

end Ubitrack.Spec
