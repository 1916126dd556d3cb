import Verif.Model.BundleAdjustment
import Verif.Model.LevenbergMarquardt

/-!
# Simple bundle adjustment: the whole function

src/utAlgorithm/BundleAdjustment.cpp l.221-337: what Model/BundleAdjustment models in parts, around the optimiser of
Model/LevenbergMarquardt. `double` and `float` are modelled by exact reals. A point in the plane of a camera (infinite or NaN in the
code) is not treated separately: division by zero gives zero.

src/utAlgorithm/Function/BundleAdjustment.h, a second bundle adjustment, is not modelled: the class `BundleAdjustmentNetwork` it works
on is not part of the code, and no other file includes it.
-/

namespace Ubitrack.BundleAdjustment

variable {n_cams n_pts3D : ℕ}

/-- The call of the optimiser, BundleAdjustment.cpp l.304-305, with the defaults of LevenbergMarquardt.h l.80-84. The previous
content of the buffers for result and Jacobian does not matter (theorem evaluateWithJacobian_eq); it is taken as zero. -/
noncomputable def call (lapack : LM.Lapack (n_cams * 7 + n_pts3D * 3)) (measurement : Vec ℝ (2 * (n_cams * n_pts3D))) :
    LM.Call (n_cams * 7 + n_pts3D * 3) (2 * (n_cams * n_pts3D)) where
  problem := fun x => evaluateWithJacobian x 0 0
  measurement := measurement
  terminate := LM.optTerminate 10 1e-6
  normalize := id
  weight := none
  solver := .cholesky
  stepSize := 1
  stepFactor := 10
  lapack := lapack

/-- `simpleBundleAdjustment`, BundleAdjustment.cpp l.221-337. The vectors are given as functions of the index; `camPoses` has to be as
long as `pts2D`, longer ones are neither read nor written at the end. The outer `none`: undefined behaviour, because the number of all
observations is not the number of cameras times the number of points (the objective writes two results for each of them into a vector
with the size of the measurements, or leaves the end of it uninitialised). The inner `none`: the optimiser throws; poses and points
are then as before. Ten passes end the optimisation, eleven if the first solver fails (theorem C23_terminates). -/
noncomputable def simpleBundleAdjustment (lapack : LM.Lapack (n_cams * 7 + n_pts3D * 3)) (uninit : Vec ℝ (n_cams * 7 + n_pts3D * 3))
    (pts2D : Fin n_cams → List (Vec ℝ 2)) (camPoses : Fin n_cams → Pose ℝ) (pts3D : Fin n_pts3D → Vec ℝ 3) :
    Option (Option ((Fin n_cams → Pose ℝ) × (Fin n_pts3D → Vec ℝ 3))) :=
  let observations := observationVector (List.ofFn pts2D)
  if h : observations.length = 2 * (n_cams * n_pts3D) then
    match LM.levenbergMarquardt (call lapack fun r => observations.get (r.cast h.symm)) (paramVector uninit camPoses pts3D) 11 with
    | some (x, some _) => some (some (writeBack x))
    | _ => some none
  else none

end Ubitrack.BundleAdjustment
