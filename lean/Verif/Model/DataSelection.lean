import Verif.Model.HandEye
import Verif.Model.KMeans
import Verif.Model.RotationCast

/-!
# Selection of poses for the hand-eye calibration

src/utAlgorithm/PoseEstimation6D6D/DataSelection.h and DataSelection.cpp, with real numbers; the literal
`3.14159...` is `π`.
-/

namespace Ubitrack.DataSelection
open KMeans HandEye

/-- `pose_cast` from a pose to a 6-vector (rotation vector and translation), DataSelection.h l.182-194; `none`: infinite components. -/
noncomputable def poseToSix (pose : Pose ℝ) : Option (Vec ℝ 6) :=
  (RotationCast.quatToVector pose.rotation).map fun rot =>
    ![rot 0, rot 1, rot 2, pose.translation 0, pose.translation 1, pose.translation 2]

/-- `pose_cast` from a 6-vector to a pose, DataSelection.h l.105-113. -/
noncomputable def sixToPose (pose : Vec ℝ 6) : Pose ℝ :=
  ⟨RotationCast.vectorToQuat ![pose 0, pose 1, pose 2], ![pose 3, pose 4, pose 5]⟩

/-- `hemisphere_alignment< Vector< T, 6 >, true >`, DataSelection.h l.304-321. -/
noncomputable def align (pose : Vec ℝ 6) : Vec ℝ 6 :=
  let x := pose 0
  let y := pose 1
  let z := pose 2
  let angle := Real.sqrt (x * x + y * y + z * z)
  if angle > Real.pi then
    let new_angle := 2 * Real.pi - angle
    let ratio := new_angle / angle
    ![pose 0 * ratio, pose 1 * ratio, pose 2 * ratio, pose 3, pose 4, pose 5]
  else pose

/-- `RotationDistance`, DataSelection.h l.59-65. -/
noncomputable def rotationDistance (pose1 pose2 : Vec ℝ 6) : ℝ :=
  let x := pose1 0 - pose2 0
  let y := pose1 1 - pose2 1
  let z := pose1 2 - pose2 2
  Real.sqrt (x * x + y * y + z * z)

open Classical in
/-- The body of the inner loop, DataSelection.cpp l.112-124: number and mean of the cluster, smallest distance and pair so far, label and pair. -/
noncomputable def nearestStep (i : ℕ) (codebook : Centroid 6) (s : ℝ × Option (Vec ℝ 6 × Vec ℝ 6)) (x : ℕ × Vec ℝ 6 × Vec ℝ 6) :
    ℝ × Option (Vec ℝ 6 × Vec ℝ 6) :=
  if i = x.1 then
    match codebook with
    | none => s
    | some c =>
      let d := rotationDistance c x.2.1
      if d < s.1 then (d, some x.2) else s
  else s

/-- The inner loop, DataSelection.cpp l.102-124; `none`: the pair is never assigned, its components are not initialised. -/
noncomputable def nearest (i : ℕ) (codebook : Centroid 6) (labelled : List (ℕ × Vec ℝ 6 × Vec ℝ 6)) : Option (Vec ℝ 6 × Vec ℝ 6) :=
  (labelled.foldl (nearestStep i codebook) (10000, none)).2

/-- DataSelection.cpp l.63-77: the relative poses of the eye, aligned, and of the hand. -/
noncomputable def relativeSix (eyes hands : List (Pose ℝ)) : Option (List (Vec ℝ 6) × List (Vec ℝ 6)) := do
  let dualA ← (allPairs relForward eyes).mapM poseToSix
  let dualB ← (allPairs relBackward hands).mapM poseToSix
  return (dualA.map align, dualB)

/-- DataSelection.cpp l.80-90: the means and the labels. `first` and `draws` stand for the random numbers. -/
noncomputable def clusters (dualA : List (Vec ℝ 6)) (nCluster : ℕ) (first : ℕ) (draws : ℕ → ℝ → ℝ) : List (Centroid 6) × List ℕ :=
  kMeansFrom rotationDistance dualA (seeds rotationDistance dualA first ((List.range (nCluster - 1)).map draws))

/-- `pose6D_selection_impl< true >`, DataSelection.cpp l.46-130, and `select_6DPoses` l.134-145 (with empty output lists). Outer `none`: a violated
assertion or infinite components; inner `none`: a pair that is not initialised. If there are fewer means than clusters, the code compares
only labels beyond the means and does not read the missing mean; it is a NaN here. -/
noncomputable def selectPoses (eyes hands : List (Pose ℝ)) (nSelect : ℕ) (first : ℕ) (draws : ℕ → ℝ → ℝ) :
    Option (List (Option (Pose ℝ × Pose ℝ))) :=
  if eyes.length ≠ hands.length ∨ eyes.length ≤ 2 then none
  else (relativeSix eyes hands).map fun ab =>
    let nCluster := min (eyes.length - 1) nSelect
    let r := clusters ab.1 nCluster first draws
    (List.range nCluster).map fun i =>
      (nearest i (r.1[i]?.getD none) (r.2.zip (ab.1.zip ab.2))).map fun p => (sixToPose p.1, sixToPose p.2)

/-! ### The class `DataSelection` -/

open Classical in
/-- The body of the loop of `resetIndices`, DataSelection.h l.509-526: means, the pose that the iterator `itPose` points to, the index list and the smallest
distances so far, label and number. -/
noncomputable def resetStep (means : List (Centroid 6)) (pose : Vec ℝ 6) (s : List ℕ × List ℝ) (x : ℕ × ℕ) : List ℕ × List ℝ :=
  match means[x.1]?.getD none with
  | none => s
  | some c =>
    let d := rotationDistance c pose
    if d < s.2.getD x.1 0 then (s.1.set x.1 x.2, s.2.set x.1 d) else s

/-- `resetIndices`, DataSelection.h l.491-527: the index list. The loop has `*itPose` where `++itPose` is meant (l.509), so that `itPose` stays at the
first value. -/
noncomputable def resetIndices (values : List (Vec ℝ 6)) (cluster : List (Vec ℝ 6)) : List ℕ :=
  let r := kMeansFrom rotationDistance values cluster
  match values with
  | [] => List.replicate cluster.length 0
  | pose :: _ =>
    (r.2.zipIdx.foldl (resetStep r.1 pose) (List.replicate cluster.length 0, List.replicate cluster.length 10000)).1

/-- `getSelection`, DataSelection.h l.449-460; `none`: an iterator past the end. -/
def getSelection {α : Type*} (relPosesIn : List α) (indexList : List ℕ) : Option (List α) := indexList.mapM (relPosesIn[·]?)

/-- `updateComparisonPoses`, DataSelection.h l.465-474, with the functor l.427-431, without the assertion l.469 (which has the wrong direction); `none`: an
iterator past the end, or infinite components. -/
noncomputable def updateComparisonPoses (relPosesIn : List (Pose ℝ)) (relPoseList : List (Vec ℝ 6)) : Option (List (Vec ℝ 6)) :=
  if relPosesIn.length < relPoseList.length then none
  else ((relPosesIn.drop relPoseList.length).mapM poseToSix).map fun new => relPoseList ++ new.map align

end Ubitrack.DataSelection
