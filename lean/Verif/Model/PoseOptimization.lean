import Verif.Model.PlanarPose
import Verif.Model.LevenbergMarquardt
import Verif.Model.BackwardPropagation

/-!
# Refinement of a camera pose, and its covariance

`optimizePose`, `singleCameraPoseError` and `multipleCameraPoseError` of
`src/utAlgorithm/PoseEstimation2D3D/PlanarPoseEstimation.cpp` l.148-256, and the end of `computePose` (l.495-512). `float` and `double`
are exact reals, except that a division by zero gives an infinite number or NaN as in the code: a comparison with NaN is false, so
the optimiser takes over parameters whose residual is NaN. LAPACK is a parameter.
-/

namespace Ubitrack.PoseOptimization

open ProjectionFunction

variable {n : ℕ}

/-- The numbers that a computation gives: all finite, some infinite but none NaN, or some NaN. -/
inductive Kind | finite | infinite | nan
  deriving DecidableEq

/-- The two coordinates `projected( 0 ) / projected( 2 )`, `projected( 1 ) / projected( 2 )`, MultiplePointProjection.h l.96: a number
over zero is infinite, zero over zero is NaN. -/
noncomputable def pointKind (projected : Vec ℝ 3) : Kind :=
  open Classical in
  if projected 2 ≠ 0 then .finite
  else if projected 0 = 0 ∨ projected 1 = 0 then .nan
  else .infinite

/-- The point before the division, MultiplePointProjection.h l.89-95. -/
def projected (p3D : Fin n → Vec ℝ 3) (cam : Mat ℝ 3 3) (input : Vec ℝ (3 + 4)) (i : Fin n) : Vec ℝ 3 :=
  cam.mulVec ((Quat.fromVector (inputR input)).toMatrix.mulVec (p3D i) + inputT input)

/-- The residual `fErr`, LevenbergMarquardt.h l.202, and `fErrPrev`, l.124: the sum of squares of finite measurements minus the
coordinates of all points. -/
noncomputable def kind (p3D : Fin n → Vec ℝ 3) (cam : Mat ℝ 3 3) (input : Vec ℝ (3 + 4)) : Kind :=
  open Classical in
  if ∃ i, pointKind (projected p3D cam input i) = .nan then .nan
  else if ∃ i, pointKind (projected p3D cam input i) = .infinite then .infinite
  else .finite

/-- The call of the optimiser, PlanarPoseEstimation.cpp l.163-165, with the defaults of LevenbergMarquardt.h l.80-84. The previous
content of the buffers for result and Jacobian does not matter (C55_point_evaluate, C55_point_jacobian); it is taken as zero. -/
noncomputable def call (lapack : LM.Lapack (3 + 4)) (p3D : Fin n → Vec ℝ 3) (cam : Mat ℝ 3 3) (measurements : Vec ℝ (2 * n))
    (nIterations : ℕ) : LM.Call (3 + 4) (2 * n) where
  problem := fun x => (multiplePointProjection p3D cam 0 x, multiplePointProjectionJacobian p3D cam 0 x)
  measurement := measurements
  terminate := LM.optTerminate nIterations 1e-6
  normalize := fun x => (PlanarPose.projectivePoseNormalize x).getD x
  weight := none
  solver := .cholesky
  stepSize := 1
  stepFactor := 10
  lapack := lapack

/-- What a pass through the loop of the optimiser ends with. `nan`: the parameters are not numbers any more. -/
inductive Pass (n : ℕ)
  | throws
  | nan
  | next (s : LM.St (3 + 4) (2 * n)) (bTerminate : Bool)

/-- One pass through the loop, LevenbergMarquardt.h l.132-226. An infinite residual is not smaller than the previous one (l.211), and
its difference to the previous one is not small (Optimization.h l.75). A residual that is NaN fails the comparison in l.211, so the
parameters are taken over. A quaternion of length zero is divided by zero, ProjectivePoseNormalize.h l.62, which gives NaN. -/
noncomputable def pass (c : LM.Call (3 + 4) (2 * n)) (p3D : Fin n → Vec ℝ 3) (cam : Mat ℝ 3 3) (nIterations : ℕ)
    (s : LM.St (3 + 4) (2 * n)) : Pass n :=
  let s := { s with iteration := s.iteration + 1 }
  match c.lapack s.solver (LM.normalMatrix s) (LM.rhs s) with
  | none =>
    match s.solver with
    | .cholesky => .next { s with solver := .svd } false
    | _ => .throws
  | some paramDiff =>
    match PlanarPose.projectivePoseNormalize (s.params + paramDiff) with
    | none => .nan
    | some newParams =>
      match kind p3D cam newParams with
      | .nan => .nan
      | .infinite => .next { s with lambda := s.lambda * c.stepFactor } (decide (nIterations > 0 ∧ s.iteration ≥ nIterations))
      | .finite =>
        match LM.evaluateStep c s paramDiff with
        | .throws => .throws
        | .next s' b => .next s' b

/-- What `optimizePose` ends with: an exception (the pose is as before), a pose and a residual that are NaN, or a pose and a residual. -/
inductive Result
  | throws
  | nan
  | ok (p : Pose ℝ) (fRes : ℝ)

/-- The loop, LevenbergMarquardt.h l.131-228, and PlanarPoseEstimation.cpp l.168-170. `none`: not finished within `fuel` passes.
Parameters that are NaN stay so: every trial is computed from them. -/
noncomputable def loop (c : LM.Call (3 + 4) (2 * n)) (p3D : Fin n → Vec ℝ 3) (cam : Mat ℝ 3 3) (nIterations : ℕ) :
    ℕ → LM.St (3 + 4) (2 * n) → Option Result
  | 0, _ => none
  | fuel + 1, s =>
    match pass c p3D cam nIterations s with
    | .throws => some .throws
    | .nan => some .nan
    | .next s' true => some (.ok (Pose.fromVector s'.params) s'.errPrev)
    | .next s' false => loop c p3D cam nIterations fuel s'

/-- The measurement vector, PlanarPoseEstimation.cpp l.157-160. -/
def measurements (p2D : List (Vec ℝ 2)) : Vec ℝ (2 * p2D.length) :=
  (List.finRange p2D.length).foldl (fun v (i : Fin p2D.length) => setRange v (i * 2) (p2D.get i)) 0

/-- `optimizePose`, PlanarPoseEstimation.cpp l.148-171. The outer `none`: undefined behaviour, because the numbers of points differ
(the objective writes two results for each point of space into a vector with the size of the measurements, or leaves the end of it
uninitialised). The inner `none`: not finished within `fuel` passes. A point in the plane of the camera at the start makes the Jacobian
infinite or NaN; the parameters are then NaN after the first step. -/
noncomputable def optimizePose (lapack : LM.Lapack (3 + 4)) (p : Pose ℝ) (p2D : List (Vec ℝ 2)) (p3D : List (Vec ℝ 3))
    (cam : Mat ℝ 3 3) (nIterations : ℕ) (fuel : ℕ) : Option (Option Result) :=
  if h : p2D.length = p3D.length then
    let c := call lapack p3D.get cam (fun r => measurements p2D (r.cast (by rw [h]))) nIterations
    let params : Vec ℝ (3 + 4) := p.toVector
    match kind p3D.get cam params with
    | .finite => some (loop c p3D.get cam nIterations fuel (LM.init c params))
    | _ => some (some .nan)
  else none

/-- `singleCameraPoseErrorImpl`, PlanarPoseEstimation.cpp l.188-204. `none`: fewer measurements than the six parameters (the singular
values past the number of measurements are uninitialised), a division by zero, or the square root of a negative number. -/
noncomputable def singleCameraPoseError (gesvd : (m : ℕ) → Mat ℝ m 6 → Vec ℝ 6 × Mat ℝ m 6 × Mat ℝ 6 6) (uninit : Mat ℝ 6 6)
    (p : Pose ℝ) (p3D : List (Vec ℝ 3)) (cam : Mat ℝ 3 3) (imageError : ℝ) : Option (Mat ℝ 6 6) :=
  open Classical in
  let params : Vec ℝ (3 + 4) := p.toVector
  if 2 * p3D.length < 6 ∨ ∃ i, projected p3D.get cam params i 2 = 0 then none
  else
    BackwardPropagation.backwardPropagationIdentity (gesvd (2 * p3D.length)) uninit imageError
      (multiplePointProjectionErrorJacobian p3D.get cam 0 params)

/-- `multipleCameraPoseErrorImpl`, PlanarPoseEstimation.cpp l.219-238. `none`: as for one camera, or an observation of a point or
camera outside of the lists. -/
noncomputable def multipleCameraPoseError (gesvd : (m : ℕ) → Mat ℝ m 6 → Vec ℝ 6 × Mat ℝ m 6 × Mat ℝ 6 6) (uninit : Mat ℝ 6 6)
    (p : Pose ℝ) (p3D : List (Vec ℝ 3)) (cameras : List (Mat ℝ 3 4)) (observations : List (ℕ × ℕ)) (imageError : ℝ) :
    Option (Mat ℝ 6 6) :=
  open Classical in
  let params : Vec ℝ (3 + 4) := p.toVector
  if h : ∀ i : Fin observations.length, (observations.get i).1 < p3D.length ∧ (observations.get i).2 < cameras.length then
    let vis : Fin observations.length → Fin p3D.length × Fin cameras.length := fun i => (⟨_, (h i).1⟩, ⟨_, (h i).2⟩)
    let rotated := fun i => (Quat.fromVector (inputR params)).toMatrix.mulVec (p3D.get (vis i).1) + inputT params
    if 2 * observations.length < 6 ∨
        ∃ i, ((cam33 (cameras.get (vis i).2)).mulVec (rotated i) + camCol (cameras.get (vis i).2)) 2 = 0 then none
    else
      BackwardPropagation.backwardPropagationIdentity (gesvd (2 * observations.length)) uninit imageError
        (multipleCameraProjectionErrorJacobian p3D.get cameras.get vis 0 params)
  else none

open PlanarPose Linear in
/-- The pose that `computePose` starts from, PlanarPoseEstimation.cpp l.319-493. -/
noncomputable def initialPose (gesvd32 : Mat ℝ 3 2 → Vec ℝ 2 × Mat ℝ 3 3 × Mat ℝ 2 2)
    (gesvd9 : List (Vec ℝ 9) → Option (Vec ℝ 9 × Mat ℝ 9 9)) (gesvd12 : List (Vec ℝ 12) → Option (Vec ℝ 12 × Mat ℝ 12 12))
    (gesvd33 : Mat ℝ 3 3 → Vec ℝ 3 × Mat ℝ 3 3 × Mat ℝ 3 3) (invert : Mat ℝ 3 3 → Mat ℝ 3 3) (nonplanar : Bool)
    (p2d : List (Vec ℝ 2)) (p3d : List (Vec ℝ 3)) (cam : Mat ℝ 3 3) : Option (Pose ℝ) :=
  if p2d.length < 4 then none
  else do
    let invK := invert cam
    let initialized ← if nonplanar ∧ 6 ≤ p2d.length then do
        let P ← projectionDLT gesvd12 p3d p2d
        some (poseFromProjection gesvd33 P invK)
      else some none
    match initialized with
      | some pose => some pose
      | none => if p3d.length < p2d.length then none else planarPose gesvd32 gesvd9 p2d p3d invK

/-- The end of `computePose`, PlanarPoseEstimation.cpp l.495-512, with the six iterations that PlanarPoseEstimation.h l.79 gives as
default (seven passes if the first solver fails, C95_ends): pose, covariance and residual. `none`: an exception, undefined behaviour
or NaN. -/
noncomputable def refine (lapack : LM.Lapack (3 + 4)) (gesvd : (m : ℕ) → Mat ℝ m 6 → Vec ℝ 6 × Mat ℝ m 6 × Mat ℝ 6 6)
    (uninit : Mat ℝ 6 6) (pose : Pose ℝ) (p2d : List (Vec ℝ 2)) (p3d : List (Vec ℝ 3)) (cam : Mat ℝ 3 3) (optimize : Bool) :
    Option (Pose ℝ × Mat ℝ 6 6 × ℝ) := do
  let (pose, residual) ← if optimize then
      match optimizePose lapack pose p2d p3d cam 6 7 with
      | some (some (.ok pose residual)) => some (pose, residual)
      | _ => none
    else (PlanarPose.reprojectionError p2d p3d pose cam).map fun residual => (pose, residual)
  let covMatrix ← singleCameraPoseError gesvd uninit pose p3d cam residual
  some (pose, covMatrix, Real.sqrt (residual / ((p2d.length : ℝ) * 2)))

/-- `computePose`, PlanarPoseEstimation.cpp l.319-512. -/
noncomputable def computePose (lapack : LM.Lapack (3 + 4)) (gesvd : (m : ℕ) → Mat ℝ m 6 → Vec ℝ 6 × Mat ℝ m 6 × Mat ℝ 6 6)
    (uninit : Mat ℝ 6 6) (gesvd32 : Mat ℝ 3 2 → Vec ℝ 2 × Mat ℝ 3 3 × Mat ℝ 2 2)
    (gesvd9 : List (Vec ℝ 9) → Option (Vec ℝ 9 × Mat ℝ 9 9)) (gesvd12 : List (Vec ℝ 12) → Option (Vec ℝ 12 × Mat ℝ 12 12))
    (gesvd33 : Mat ℝ 3 3 → Vec ℝ 3 × Mat ℝ 3 3 × Mat ℝ 3 3) (invert : Mat ℝ 3 3 → Mat ℝ 3 3) (optimize nonplanar : Bool)
    (p2d : List (Vec ℝ 2)) (p3d : List (Vec ℝ 3)) (cam : Mat ℝ 3 3) : Option (Pose ℝ × Mat ℝ 6 6 × ℝ) := do
  let pose ← initialPose gesvd32 gesvd9 gesvd12 gesvd33 invert nonplanar p2d p3d cam
  refine lapack gesvd uninit pose p2d p3d cam optimize

end Ubitrack.PoseOptimization
