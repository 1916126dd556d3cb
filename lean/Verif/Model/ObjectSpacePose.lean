import Verif.Model.AbsoluteOrientation
import Mathlib.LinearAlgebra.Matrix.NonsingularInverse

/-!
# Camera pose from points and their images by orthogonal iteration

src/utAlgorithm/PoseEstimation2D3D/NonPlanarPoseEstimation.cpp. `double` is modelled by exact reals. `Math::invert_matrix` is the inverse
of a regular matrix. The eigensolver of the rotation estimate is a parameter. The two vectors of points have the same length `n`
(different lengths are undefined behaviour of the code) and are given as functions of the index.
-/

namespace Ubitrack.ObjectSpacePose

open AbsoluteOrientation

variable {n : ℕ}

/-- `std::accumulate` over a vector of vectors. -/
def accumulate (points : Fin n → Vec ℝ 3) : Vec ℝ 3 := (List.ofFn points).foldl (fun acc p => acc + p) 0

/-- `calculateCentroid`, NonPlanarPoseEstimation.cpp l.74-78. -/
noncomputable def calculateCentroid (points : Fin n → Vec ℝ 3) : Vec ℝ 3 := fun k => accumulate points k / n

/-- `shiftToCenter`, NonPlanarPoseEstimation.cpp l.82-88: the points after, and the centroid. -/
noncomputable def shiftToCenter (points : Fin n → Vec ℝ 3) : (Fin n → Vec ℝ 3) × Vec ℝ 3 :=
  let centroid := calculateCentroid points
  (fun i => points i - centroid, centroid)

/-- `lineOfSightProjectionMatrix`, NonPlanarPoseEstimation.cpp l.171-176. -/
noncomputable def lineOfSightProjectionMatrix (vec1 : Vec ℝ 3) : Mat ℝ 3 3 :=
  let d := vec1 0 * vec1 0 + vec1 1 * vec1 1 + vec1 2 * vec1 2
  let vec2 : Vec ℝ 3 := fun k => vec1 k * (1 / d)
  Matrix.of fun i j => vec1 i * vec2 j

/-- `Matrix::operator/`. -/
noncomputable def divide (m : Mat ℝ 3 3) (n : ℕ) : Mat ℝ 3 3 := fun i j => m i j / (n : ℝ)

/-- `calculateTFactorMatrix`, NonPlanarPoseEstimation.cpp l.92-100. `none`: the matrix to invert is singular. -/
noncomputable def calculateTFactorMatrix (los : Fin n → Mat ℝ 3 3) : Option (Mat ℝ 3 3) :=
  open Classical in
  let tFactorMatrix := (List.ofFn los).foldl (fun acc m => acc + m) 0
  let tFactorMatrix : Mat ℝ 3 3 := 1 - divide tFactorMatrix n
  if tFactorMatrix.det = 0 then none else some (divide tFactorMatrix⁻¹ n)

/-- `estimateTranslation`, NonPlanarPoseEstimation.cpp l.131-140. -/
noncomputable def estimateTranslation (Vi : Fin n → Mat ℝ 3 3) (Rot : Mat ℝ 3 3) (pointsObj : Fin n → Vec ℝ 3) (TMatrix : Mat ℝ 3 3) :
    Vec ℝ 3 :=
  let vec_tmp : Fin n → Vec ℝ 3 := fun i => Rot.mulVec (pointsObj i)
  let vec_tmp : Fin n → Vec ℝ 3 := fun i => (Vi i).mulVec (vec_tmp i)
  TMatrix.mulVec (accumulate vec_tmp)

/-- `object_space_error` and `calculateObjectSpaceError`, NonPlanarPoseEstimation.cpp l.143-164. -/
noncomputable def calculateObjectSpaceError (Vi : Fin n → Mat ℝ 3 3) (points : Fin n → Vec ℝ 3) : ℝ :=
  (List.ofFn fun i =>
    let vec_tmp := (1 - Vi i).mulVec (points i)
    vec_tmp 0 * vec_tmp 0 + vec_tmp 1 * vec_tmp 1 + vec_tmp 2 * vec_tmp 2).foldl (fun acc e => acc + e) 0

variable (syev : Mat ℝ 4 4 → Option (Vec ℝ 4 × Mat ℝ 4 4))

/-- One pass of the loop up to the new error, NonPlanarPoseEstimation.cpp l.218-239: rotation, translation, moved object points and
error. `none`: no rotation was found. -/
noncomputable def pass (Vi : Fin n → Mat ℝ 3 3) (TfactorMatrix : Mat ℝ 3 3) (p3D p2Dh : Fin n → Vec ℝ 3) :
    Option (Mat ℝ 3 3 × Vec ℝ 3 × (Fin n → Vec ℝ 3) × ℝ) :=
  let p2Dh : Fin n → Vec ℝ 3 := fun i => (Vi i).mulVec (p2Dh i)
  let p2Dh := (shiftToCenter p2Dh).1
  match estimateRotationMatrix syev (List.ofFn p2Dh) (List.ofFn p3D) with
  | none => none
  | some R =>
    let Tr := estimateTranslation Vi R p3D TfactorMatrix
    let p2Dh : Fin n → Vec ℝ 3 := fun i => R.mulVec (p3D i) + Tr
    some (R, Tr, p2Dh, calculateObjectSpaceError Vi p2Dh)

/-- What the function hands back: its return value and its three output arguments. -/
structure Result where
  converged : Bool
  pose : Pose ℝ
  error : ℝ
  iterations : ℕ

/-- The loop, NonPlanarPoseEstimation.cpp l.216-263; the first argument is `max_iter - iterations`. The test `iterations >= max_iter`
of l.243 is never true inside the loop. -/
noncomputable def loop (Vi : Fin n → Mat ℝ 3 3) (TfactorMatrix : Mat ℝ 3 3) (p3D : Fin n → Vec ℝ 3) (center : Vec ℝ 3) (max_error : ℝ)
    (p : Pose ℝ) : ℕ → ℕ → ℝ → (Fin n → Vec ℝ 3) → Result
  | 0, iterations, error_old, _ => ⟨false, p, error_old, iterations⟩
  | left + 1, iterations, error_old, p2Dh =>
    open Classical in
    match pass syev Vi TfactorMatrix p3D p2Dh with
    | none => ⟨false, p, error_old, iterations⟩
    | some (R, Tr, p2Dh, error_new) =>
      if |error_old - error_new| ≤ max_error then
        ⟨true, ⟨(Quat.ofMatrix R).normalize, Tr - R.mulVec center⟩, error_new, iterations⟩
      else loop Vi TfactorMatrix p3D center max_error p left (iterations + 1) error_new p2Dh

/-- `estimatePose2D3D_impl`, NonPlanarPoseEstimation.cpp l.181-264. `maxValue` is `std::numeric_limits< T >::max()`. `none`: division by
zero or inversion of a singular matrix. The assertion `max_iter > 0` (l.183) is not part of the function. -/
noncomputable def estimatePose (maxValue : ℝ) (p2D_in : Fin n → Vec ℝ 2) (p : Pose ℝ) (p3D_in : Fin n → Vec ℝ 3) (max_iter : ℕ)
    (max_error : ℝ) : Option Result :=
  let p2Dh : Fin n → Vec ℝ 3 := fun i => ![p2D_in i 0, p2D_in i 1, 1]
  let (p3D, center) := shiftToCenter p3D_in
  let Vi : Fin n → Mat ℝ 3 3 := fun i => lineOfSightProjectionMatrix (p2Dh i)
  if n = 0 then none
  else
    match calculateTFactorMatrix Vi with
    | none => none
    | some TfactorMatrix => some (loop syev Vi TfactorMatrix p3D center max_error p max_iter 0 maxValue p2Dh)

end Ubitrack.ObjectSpacePose
