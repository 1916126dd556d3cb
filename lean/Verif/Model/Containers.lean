import Verif.Model.Pose

/-! # Data types with uncertainty and camera intrinsics -/

namespace Ubitrack

/-- src/utMath/ErrorVector.h l.46-100: `ErrorVector`: a value and its covariance. -/
@[ext] structure ErrorVector (K : Type*) (n : ℕ) where
  value : Vec K n
  covariance : Mat K n n

/-- src/utMath/ErrorPose.h l.50-130: `ErrorPose`: a pose and its 6x6 covariance. -/
@[ext] structure ErrorPose (K : Type*) extends Pose K where
  covariance : Mat K 6 6

/-- src/utMath/CameraIntrinsics.h l.94-130: the data members of `CameraIntrinsics`. `calibType` is the
enumeration value. -/
@[ext] structure CameraIntrinsics (K : Type*) where
  calibType : ℕ
  dimension : Vec ℕ 2
  matrix : Mat K 3 3
  radialSize : ℕ
  radialParams : Vec K 6
  tangentialParams : Vec K 2

end Ubitrack
