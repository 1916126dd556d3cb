import Verif.Model.Tracking

/-! # Rotation velocities: angular velocity and axis

`src/utMath/RotationVelocity.h`; the constructor from two rotations and `integrate` are in `Verif.Model.Tracking`. -/

namespace Ubitrack.RotationVelocity

/-- `angularVelocity`, RotationVelocity.h l.93-96. -/
noncomputable def angularVelocity (v : Vec ℝ 3) : ℝ := Quat.norm3 v

open Classical in
/-- `axis`, RotationVelocity.h l.102-109. -/
noncomputable def axis (v : Vec ℝ 3) : Vec ℝ 3 :=
  let norm := angularVelocity v
  if norm ≠ 0 then fun i => v i / norm else v

end Ubitrack.RotationVelocity
