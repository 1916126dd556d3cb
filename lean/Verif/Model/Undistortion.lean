import Verif.Model.Camera
import Verif.Model.LevenbergMarquardt

/-!
# Removing lens distortion

src/utAlgorithm/CameraLens/Undistortion.h l.200-224, src/utAlgorithm/LensDistortion.cpp l.104-136 and
src/utMath/Geometry/PointUndistortion.h. `double` and `float` are modelled by exact reals.
-/

namespace Ubitrack.Camera

/-- The call of the optimiser, Undistortion.h l.207-208, with the defaults of LevenbergMarquardt.h l.80-84. -/
noncomputable def undistortCall (lapack : LM.Lapack 2) (f : Vec ℝ 2 → Vec ℝ 2 × Mat ℝ 2 2) (distorted : Vec ℝ 2) : LM.Call 2 2 where
  problem := f
  measurement := distorted
  terminate := LM.optTerminate 5 1e-5
  normalize := id
  weight := none
  solver := .cholesky
  stepSize := 1
  stepFactor := 10
  lapack := lapack

/-- `levenbergMarquardt( distFunc, tmp, distorted, OptTerminate( 5, 1e-5 ), OptNoNormalize() )` with the initial value
`tmp = distorted`, Undistortion.h l.206-209, LensDistortion.cpp l.116-118. `none`: it throws. Five passes end the optimisation, six if
the first solver fails (theorem C23_terminates). -/
noncomputable def invert (lapack : LM.Lapack 2) (f : Vec ℝ 2 → Vec ℝ 2 × Mat ℝ 2 2) (distorted : Vec ℝ 2) : Option (Vec ℝ 2) :=
  match LM.levenbergMarquardt (undistortCall lapack f distorted) distorted 6 with
  | some (tmp, some _) => some tmp
  | _ => none

/-- `undistort_impl` on sensor coordinates, Undistortion.h l.202-210, with `PointUndistortion::evaluate`, l.84-112 (the same
computation as `distort_impl`), and `jacobian`, l.114-177. -/
noncomputable def undistort6 (lapack : LM.Lapack 2) (radVector : Vec ℝ 6) (tanVector : Vec ℝ 2) (distorted : Vec ℝ 2) : Option (Vec ℝ 2) :=
  invert lapack (fun x => (distort6 radVector tanVector x, distort6Jacobian radVector tanVector x)) distorted

/-- `undistort_impl` with camera intrinsics on pixels, Undistortion.h l.212-224. -/
noncomputable def undistort (lapack : LM.Lapack 2) (mat : CameraIntrinsics ℝ) (distorted : Vec ℝ 2) : Option (Vec ℝ 2) :=
  (undistort6 lapack mat.radialParams mat.tangentialParams (unproject mat.matrix distorted)).map (project mat.matrix)

/-- `lensUnDistortImpl`, LensDistortion.cpp l.106-122. -/
noncomputable def lensUnDistort (lapack : LM.Lapack 2) (p : Vec ℝ 2) (dist : Vec ℝ 4) (k : Mat ℝ 3 3) : Option (Vec ℝ 2) :=
  let x2 := (p 1 - k 1 2 * k 2 2) / k 1 1
  let x1 := (p 0 - k 0 1 * x2 - k 0 2 * k 2 2) / k 0 0
  let camPoint : Vec ℝ 2 := ![x1, x2]
  (invert lapack (fun x => (distort4 x dist, distort4JacobianP dist x)) camPoint).map fun dp =>
    ![dp 0 * k 0 0 + dp 1 * k 0 1 + k 0 2 * k 2 2, dp 1 * k 1 1 + k 1 2 * k 2 2]

/-- `Math::Geometry::PointUndistortion::operator()`, PointUndistortion.h l.70-101. -/
def undistortPoint {K : Type*} [Field K] (intrinsics : CameraIntrinsics K) (vecIn : Vec K 2) : Vec K 2 :=
  let x := (vecIn 0 + intrinsics.matrix 0 2) / intrinsics.matrix 0 0
  let y := (vecIn 1 + intrinsics.matrix 1 2) / intrinsics.matrix 1 1
  let radiusPow2 := x * x + y * y
  let radiusPow4 := radiusPow2 * radiusPow2
  let radiusPow6 := radiusPow4 * radiusPow2
  let r := intrinsics.radialParams
  let t := intrinsics.tangentialParams
  let nom := 1 + r 0 * radiusPow2 + r 1 * radiusPow4 + r 2 * radiusPow6
  let denom := 1 + r 3 * radiusPow2 + r 4 * radiusPow4 + r 5 * radiusPow6
  let scale := nom / denom
  let x_undis := x * scale + 2 * t 0 * x * y + t 1 * (radiusPow2 + 2 * x * x)
  let y_undis := y * scale + 2 * t 1 * x * y + t 0 * (radiusPow2 + 2 * y * y)
  ![intrinsics.matrix 0 0 * x_undis - intrinsics.matrix 0 2, intrinsics.matrix 1 1 * y_undis - intrinsics.matrix 1 2]

end Ubitrack.Camera
