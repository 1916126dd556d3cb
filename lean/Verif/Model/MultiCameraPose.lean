import Verif.Model.FunctionComposition
import Verif.Model.LevenbergMarquardt
import Verif.Model.Pose
import Verif.Model.Containers

/-!
# The pose of an object seen by several cameras

src/utAlgorithm/MultipleCameraPoseOptimization.cpp and .h. `double` is modelled by exact reals. A point in the plane of a camera
(infinite or NaN in the code) is not treated separately: division by zero gives zero.

In the results the outer `none` stands for undefined behaviour and the inner `none` for an exception.
-/

namespace Ubitrack

/-- The expression of src/utAlgorithm/MultipleCameraPoseOptimization.h l.78-93: the projection of the 3D point `q` by a camera with
intrinsics `camI` and pose `camR`, `camT`, as a function of the six pose parameters. -/
noncomputable def FunctionComposition.poseObjective (camI camR : Mat ℝ 3 3) (camT q : Vec ℝ 3) : FunctionComposition.Node ℝ 6 2 :=
  .bind1 (dehomogenization 2)
    (.bind1 (linearTransformation camI)
      (.bind2 (addition 3) (.fixed camT)
        (.bind1 (linearTransformation camR)
          (.bind2 (addition 3) (.param 0 3 (by norm_num))
            (.bind2 lieRotationFun (.param 3 3 (by norm_num)) (.fixed q) 0) 0) 0) 0) 0) 0

namespace MultiCameraPose

open FunctionComposition

/-- The first five parameters of all functions, MultipleCameraPoseOptimization.cpp l.60-64. -/
structure Input where
  points3d : List (Vec ℝ 3)
  points2d : List (List (Vec ℝ 2))
  points2dWeights : List (List ℝ)
  camPoses : List (Pose ℝ)
  camMatrices : List (Mat ℝ 3 3)

/-- Conversion of an `int` to `std::size_t` in the comparisons of l.98 and l.126. -/
def toSizeT (i : ℤ) : ℕ := if 0 ≤ i then i.toNat else (2 ^ 64 + i).toNat

/-- The loop over the points for one camera, l.98-116: index, image point and 3D point of every observation. `none`: a weight outside
of the vector is read (undefined); the checked accesses `at` to the other vectors, of the same length in consistent input, are
treated alike. -/
noncomputable def cameraLoop (weights : List ℝ) (points2d : List (Vec ℝ 2)) (points3d : List (Vec ℝ 3)) :
    List ℕ → Option (List (ℕ × Vec ℝ 2 × Vec ℝ 3))
  | [] => some []
  | pointIndex :: rest =>
    match weights[pointIndex]?, cameraLoop weights points2d points3d rest with
    | some w, some l =>
      open Classical in
      if w ≠ 0 then
        match points2d[pointIndex]?, points3d[pointIndex]? with
        | some m, some q => some ((pointIndex, m, q) :: l)
        | _, _ => none
      else some l
    | _, _ => none

/-- The local variables filled by l.78-117. -/
structure Local where
  observations : List (ℕ × ℕ)
  p3dLocal : List (Vec ℝ 3)
  p3dLocalFiltered : List (List (Vec ℝ 3))
  p2dLocal : List (List (Vec ℝ 2))

/-- The body of the loop over the cameras, l.97-117. -/
noncomputable def collectCamera (inp : Input) (pointIndices : List ℕ) (cameraIndex : ℕ) : Option (ℕ × List (ℕ × Vec ℝ 2 × Vec ℝ 3)) :=
  match inp.points2dWeights[cameraIndex]?, inp.points2d[cameraIndex]? with
  | some w, some m => (cameraLoop w m inp.points3d pointIndices).map fun l => (cameraIndex, l)
  | _, _ => none

/-- l.97-117. The 3D points are added once, for camera 0. -/
noncomputable def collect (inp : Input) (startIndex : ℕ) (pointIndices : List ℕ) : Option Local :=
  let numberCameras := inp.points2dWeights.length
  match (List.range numberCameras).mapM (collectCamera inp pointIndices),
    (if numberCameras = 0 then some [] else pointIndices.mapM fun i => inp.points3d[i]?) with
  | some cams, some p3dLocal => some
    { observations := cams.flatMap fun c => c.2.map fun o => (o.1 - startIndex, c.1)
      p3dLocal := p3dLocal
      p3dLocalFiltered := cams.map fun c => c.2.map fun o => o.2.2
      p2dLocal := cams.map fun c => c.2.map fun o => o.2.1 }
  | _, _ => none

/-- `computePose( p2D, p3D, cam, PLANAR_HOMOGRAPHY )`, 2D3DPoseEstimation: left open. `none`: it throws. -/
abbrev ComputePose := List (Vec ℝ 2) → List (Vec ℝ 3) → Mat ℝ 3 3 → Option (Pose ℝ)

/-- The pose the optimisation starts with, l.131-136. `hasInitialPoseProvided` and `initialPose` are one argument. -/
def startPose (computePose : ComputePose) (inp : Input) (l : Local) (initialPose : Option (Pose ℝ)) (maxObsIndex : ℕ) :
    Option (Option (Pose ℝ)) :=
  match initialPose with
  | some p => some (some p)
  | none =>
    match inp.camPoses[maxObsIndex]?, l.p2dLocal[maxObsIndex]?, l.p3dLocalFiltered[maxObsIndex]?, inp.camMatrices[maxObsIndex]? with
    | some camPose, some m, some q, some camMatrix => some ((computePose m q camMatrix).map fun p => camPose.mul p)
    | _, _, _, _ => none

/-- The expressions for the observations, MultipleCameraPoseOptimization.h l.73-94, with the camera rotations and translations of
MultipleCameraPoseOptimization.cpp l.150-159. -/
noncomputable def terms (inp : Input) (l : Local) : Option (List (Node ℝ 6 2)) :=
  l.observations.mapM fun o =>
    match l.p3dLocal[o.1]?, inp.camPoses[o.2]?, inp.camMatrices[o.2]? with
    | some q, some camPose, some camMatrix => some (poseObjective camMatrix camPose.rotation.toMatrix camPose.translation q)
    | _, _, _ => none

/-- The call of the optimiser, l.139-147 (measurements), l.164-169, with the defaults of LevenbergMarquardt.h l.80-84. The previous
content of the Jacobian does not matter (theorem C54_pose_objective); it is taken as zero. -/
noncomputable def call (lapack : LM.Lapack 6) (fs : List (Node ℝ 6 2)) (measurements : List (Vec ℝ 2))
    (h : fs.length = measurements.length) : LM.Call 6 (fs.length * 2) where
  problem := fun x =>
    (fun r => ((fs.get (finProdFinEquiv.symm r).1).evaluateWithJacobian x 0).1 (finProdFinEquiv.symm r).2,
     fun r => ((fs.get (finProdFinEquiv.symm r).1).evaluateWithJacobian x 0).2 (finProdFinEquiv.symm r).2)
  measurement := fun r => measurements.get ((finProdFinEquiv.symm r).1.cast h) (finProdFinEquiv.symm r).2
  terminate := LM.optTerminate 10 1e-6
  normalize := id
  weight := none
  solver := .cholesky
  stepSize := 1
  stepFactor := 10
  lapack := lapack

/-- The parameters of a pose, l.165-167. -/
noncomputable def toParam (p : Pose ℝ) : Vec ℝ 6 :=
  let r := p.rotation.toLogarithm
  ![p.translation 0, p.translation 1, p.translation 2, r 0, r 1, r 2]

/-- The pose of parameters, l.172. -/
noncomputable def fromParam (x : Vec ℝ 6) : Pose ℝ :=
  ⟨Quat.fromLogarithm ![x 3, x 4, x 5], ![x 0, x 1, x 2]⟩

/-- l.138-176. Ten passes end the optimisation, eleven if the first solver fails (theorem C23_terminates). -/
noncomputable def optimize (lapack : LM.Lapack 6) (fs : List (Node ℝ 6 2)) (measurements : List (Vec ℝ 2)) (initialPose : Pose ℝ) :
    Option (Option (ErrorPose ℝ × ℝ)) :=
  if h : fs.length = measurements.length then
    match LM.levenbergMarquardt (call lapack fs measurements h) (toParam initialPose) 11 with
    | some (param, some res) => some (some (⟨fromParam param, res • (1 : Mat ℝ 6 6)⟩, res))
    | _ => some none
  else none

/-- `multipleCameraEstimatePose`, l.58-183. `uninit`: the covariance of a default constructed `ErrorPose`. Without cameras the
minimum of an empty vector is read (l.122). The number of points is assumed to fit into an `int`. -/
noncomputable def estimatePose (computePose : ComputePose) (lapack : LM.Lapack 6) (uninit : Mat ℝ 6 6) (inp : Input)
    (minCorrespondences : ℤ) (initialPose : Option (Pose ℝ)) (startIndex endIndex : ℤ) : Option (Option (ErrorPose ℝ × ℝ)) :=
  let endIndex := if endIndex = -1 then (inp.points3d.length : ℤ) - 1 else endIndex
  let first := toSizeT startIndex
  match collect inp first (List.range' first (toSizeT endIndex + 1 - first)) with
  | none => none
  | some l =>
    let observationCount := l.p2dLocal.map List.length
    match observationCount.min?, observationCount.max? with
    | some minObs, some maxObs =>
      if minObs ≥ toSizeT minCorrespondences ∧ (initialPose.isSome = true ∨ maxObs ≥ 4) then
        match startPose computePose inp l initialPose (observationCount.idxOf maxObs), terms inp l with
        | some (some start), some fs => optimize lapack fs l.p2dLocal.flatten start
        | some none, some _ => some none
        | _, _ => none
      else some (some (⟨Pose.one, uninit⟩, -1))
    | _, _ => none

/-- What `checkConsistency` throws. -/
inductive Inconsistent | points | cameras | measurements
  deriving DecidableEq

/-- `checkConsistency`, l.185-211. `none`: it returns. -/
def checkConsistency (inp : Input) : Option Inconsistent :=
  if inp.points3d.length < 3 then some .points
  else if inp.points2d.length ≠ inp.points2dWeights.length ∨ inp.points2d.length ≠ inp.camPoses.length ∨
      inp.points2d.length ≠ inp.camMatrices.length then some .cameras
  else if (inp.points2dWeights.zip inp.points2d).any fun c =>
      inp.points3d.length ≠ c.1.length || inp.points3d.length ≠ c.2.length then some .measurements
  else none

/-- `multipleCameraPoseEstimation`, l.255-275. -/
noncomputable def poseEstimation (computePose : ComputePose) (lapack : LM.Lapack 6) (uninit : Mat ℝ 6 6) (inp : Input)
    (minCorrespondences : ℤ) (initialPose : Option (Pose ℝ)) : Option (Option (ErrorPose ℝ × ℝ)) :=
  match checkConsistency inp with
  | some _ => some none
  | none => estimatePose computePose lapack uninit inp minCorrespondences initialPose 0 (-1)

/-- The loop over the bundles, l.236-251: the poses and weights appended to the output vectors, and whether an exception ended it. -/
noncomputable def bundleLoop (computePose : ComputePose) (lapack : LM.Lapack 6) (uninit : Mat ℝ 6 6) (inp : Input)
    (minCorrespondences : ℤ) : ℤ → List ℤ → Option (List (ErrorPose ℝ × ℝ) × Bool)
  | _, [] => some ([], false)
  | localBundleOffset, localBundleSize :: rest =>
    match estimatePose computePose lapack uninit inp minCorrespondences none localBundleOffset
        (localBundleOffset + localBundleSize - 1) with
    | none => none
    | some none => some ([], true)
    | some (some estimate) =>
      match bundleLoop computePose lapack uninit inp minCorrespondences (localBundleOffset + localBundleSize) rest with
      | none => none
      | some (l, b) => some (estimate :: l, b)

/-- `multipleCameraPoseEstimationWithLocalBundles`, l.214-252. -/
noncomputable def localBundles (computePose : ComputePose) (lapack : LM.Lapack 6) (uninit : Mat ℝ 6 6) (inp : Input)
    (minCorrespondences : ℤ) (localBundleSizes : List ℤ) : Option (List (ErrorPose ℝ × ℝ) × Bool) :=
  match checkConsistency inp with
  | some _ => some ([], true)
  | none => bundleLoop computePose lapack uninit inp minCorrespondences 0 localBundleSizes

end MultiCameraPose

end Ubitrack
