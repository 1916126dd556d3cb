import Verif.Model.LinearCalibration
import Verif.Model.Pose
import Verif.Model.VectorMatrix
import Verif.Model.ProjectionFunction
import Mathlib.LinearAlgebra.Matrix.Determinant.Basic

/-!
# Pose of a camera from points and their images

`src/utAlgorithm/PoseEstimation2D3D/PlanarPoseEstimation.cpp` and `src/utAlgorithm/Function/ProjectivePoseNormalize.h`. `double` is
exact reals. The singular value decompositions of LAPACK are parameters; their status is not checked by the code. `invert` is
`Math::invert_matrix`. `none`: an exception, a failed assertion, an access outside of a list or a division by zero. The
covariance and the non-linear refinement (C72, C58) are left out; `optimize` is `false`.
-/

namespace Ubitrack.PlanarPose

open Linear VectorMatrix

/-- Columns 0 and 1, the range `Rleft`, PlanarPoseEstimation.cpp l.105. -/
def leftColumns (R : Mat ℝ 3 3) : Mat ℝ 3 2 := fun i j => R i (Fin.castLE (by omega) j)

/-- The beginning of `poseFromHomographyImpl`, PlanarPoseEstimation.cpp l.77-86. -/
noncomputable def orientedProduct (H invK : Mat ℝ 3 3) : Mat ℝ 3 3 :=
  let R := invK * H
  if R 2 2 > 0 then (-1 : ℝ) • R else R

/-- The translation of `poseFromHomographyImpl`, PlanarPoseEstimation.cpp l.88-94. -/
noncomputable def homographyTranslation (R : Mat ℝ 3 3) : Option (Vec ℝ 3) :=
  open Classical in
  let fXLen := Quat.norm3 fun i => R i 0
  let fYLen := Quat.norm3 fun i => R i 1
  if fXLen + fYLen = 0 then none
  else
    let fTransScale := 2 / (fXLen + fYLen)
    some fun i => R i 2 * fTransScale

/-- The matrix `right` of `poseFromHomographyImpl`, PlanarPoseEstimation.cpp l.109-111. -/
noncomputable def rightFactor (u : Mat ℝ 3 3) (vt : Mat ℝ 2 2) : Mat ℝ 3 3 :=
  !![vt 0 0, vt 0 1, 0; vt 1 0, vt 1 1, 0; 0, 0, vt.det * u.det]

variable (gesvd32 : Mat ℝ 3 2 → Vec ℝ 2 × Mat ℝ 3 3 × Mat ℝ 2 2)

/-- `poseFromHomographyImpl` with LAPACK, PlanarPoseEstimation.cpp l.74-133. -/
noncomputable def poseFromHomography (H invK : Mat ℝ 3 3) : Option (Pose ℝ) := do
  let R := orientedProduct H invK
  let t ← homographyTranslation R
  let (_, u, vt) := gesvd32 (leftColumns R)
  some ⟨Quat.ofMatrix (u * rightFactor u vt), t⟩

/-- `poseFromHomographyImpl` without LAPACK, PlanarPoseEstimation.cpp l.74-94, 116-133. -/
noncomputable def poseFromHomographyPlain (H invK : Mat ℝ 3 3) : Option (Pose ℝ) :=
  open Classical in do
  let R := orientedProduct H invK
  let t ← homographyTranslation R
  let fXLen := Quat.norm3 fun i => R i 0
  let fYLen := Quat.norm3 fun i => R i 1
  if fXLen = 0 ∨ fYLen = 0 then none
  else
    let x : Vec ℝ 3 := fun i => R i 0 / fXLen
    let y : Vec ℝ 3 := fun i => R i 1 / fYLen
    let z := crossProductOf x y
    let fZLen := Quat.norm3 z
    if fZLen = 0 then none
    else
      let z : Vec ℝ 3 := fun i => z i / fZLen
      let y := crossProductOf z x
      some ⟨Quat.ofMatrix (fun i j => ![x, y, z] j i), t⟩

/-- Columns 0 to 2, the range `R`, PlanarPoseEstimation.cpp l.365. -/
def leftBlock (Rt : Mat ℝ 3 4) : Mat ℝ 3 3 := fun i j => Rt i j.castSucc

/-- The sign of the projection matrix, PlanarPoseEstimation.cpp l.348, 368-369. -/
noncomputable def orientedProjection (P : Mat ℝ 3 4) (invK : Mat ℝ 3 3) : Mat ℝ 3 4 :=
  let Rt : Mat ℝ 3 4 := invK * P
  if (leftBlock Rt).det < 0 then (-1 : ℝ) • Rt else Rt

/-- The initialisation from a projection matrix, PlanarPoseEstimation.cpp l.344-391; `none`: the decomposition was unstable (the
condition number is infinite if the smallest singular value is zero). The decomposition of P that is only logged (l.351-359) is
left out. -/
noncomputable def poseFromProjection (gesvd33 : Mat ℝ 3 3 → Vec ℝ 3 × Mat ℝ 3 3 × Mat ℝ 3 3) (P : Mat ℝ 3 4)
    (invK : Mat ℝ 3 3) : Option (Pose ℝ) :=
  open Classical in
  let Rt := orientedProjection P invK
  let (s, u, vt) := gesvd33 (leftBlock Rt)
  if s 2 ≠ 0 ∧ s 0 / s 2 < 2 then
    some ⟨Quat.ofMatrix (u * vt), fun i => Rt i 3 / (s 0 * s 1 * s 2)⟩
  else none

/-- The rotation that brings the points into a plane with equal z, PlanarPoseEstimation.cpp l.434-458. -/
noncomputable def alignment (p0 p1 p2 : Vec ℝ 3) : Option (Mat ℝ 3 3) :=
  open Classical in
  let vX := p1 - p0
  let f := Quat.norm3 vX
  let vX' : Vec ℝ 3 := fun i => vX i / f
  let vZ := p2 - p0
  let g := Quat.norm3 vZ
  let vZ' : Vec ℝ 3 := fun i => vZ i / g
  if f = 0 ∨ g = 0 then none
  else if vX' 0 * vZ' 0 + vX' 1 * vZ' 1 + vX' 2 * vZ' 2 > 0.8 then none
  else
    let vZ := crossProductOf vX' vZ'
    let h := Quat.norm3 vZ
    if h = 0 then none
    else
      let vZ : Vec ℝ 3 := fun i => vZ i / h
      some (Matrix.of ![vX', crossProductOf vZ vX', vZ])

variable (gesvd9 : List (Vec ℝ 9) → Option (Vec ℝ 9 × Mat ℝ 9 9))
  (gesvd12 : List (Vec ℝ 12) → Option (Vec ℝ 12 × Mat ℝ 12 12))
  (gesvd33 : Mat ℝ 3 3 → Vec ℝ 3 × Mat ℝ 3 3 × Mat ℝ 3 3)
  (invert : Mat ℝ 3 3 → Mat ℝ 3 3)

/-- The initialisation from a homography, PlanarPoseEstimation.cpp l.393-493. -/
noncomputable def planarPose (p2d : List (Vec ℝ 2)) (p3d : List (Vec ℝ 3)) (invK : Mat ℝ 3 3) : Option (Pose ℝ) :=
  open Classical in do
  let p0 ← p3d[0]?
  let last_dim := p0 2
  let same := (p3d.take p2d.length).takeWhile fun p => p 2 = last_dim
  let p3dAs2d : List (Vec ℝ 2) := same.map fun p => ![p 0, p 1]
  let n3D := p3dAs2d.length
  if n3D > 3 then
    let H ← homographyDLT gesvd9 p3dAs2d (p2d.take n3D)
    poseFromHomography gesvd32 H invK
  else
    let p1 ← p3d[1]?
    let p2 ← p3d[2]?
    let p3 ← p3d[3]?
    let P ← alignment p0 p1 p2
    let t := -(P.mulVec p0)
    let p3dAs2d : List (Vec ℝ 2) := [p0, p1, p2, p3].map fun p =>
      let p3dtrans := P.mulVec p + t
      ![p3dtrans 0, p3dtrans 1]
    let H ← homographyDLT gesvd9 p3dAs2d (p2d.take 4)
    let pose ← poseFromHomography gesvd32 H invK
    some (pose.mul ⟨Quat.ofMatrix P, t⟩)

/-- One term of `reprojectionError`, PlanarPoseEstimation.cpp l.291-298: `tmp` is the product of the projection matrix and the
homogeneous point. -/
noncomputable def reprojectionTerm (p : Vec ℝ 2) (tmp : Vec ℝ 3) : Option ℝ :=
  open Classical in
  if tmp 2 = 0 then none
  else
    let tmp : Vec ℝ 3 := fun i => tmp i / tmp 2
    some ((tmp 0 - p 0) * (tmp 0 - p 0) + (tmp 1 - p 1) * (tmp 1 - p 1))

/-- `reprojectionError`, PlanarPoseEstimation.cpp l.258-305; `p2d.at(i)` throws if there are fewer image points. -/
noncomputable def reprojectionError (p2d : List (Vec ℝ 2)) (p3d : List (Vec ℝ 3)) (p : Pose ℝ) (cam : Mat ℝ 3 3) : Option ℝ :=
  let projMat := cam * p.toMatrix34
  (List.range p3d.length).foldlM (fun res i => do
    let x ← p3d[i]?
    let y ← p2d[i]?
    let term ← reprojectionTerm y (projMat.mulVec ![x 0, x 1, x 2, 1])
    some (res + term)) 0

/-- `computePose` without refinement, PlanarPoseEstimation.cpp l.319-512: the pose and the residual. `nonplanar` stands for
`initMethod == NONPLANAR_PROJECTION`. -/
noncomputable def computePose (nonplanar : Bool) (p2d : List (Vec ℝ 2)) (p3d : List (Vec ℝ 3)) (cam : Mat ℝ 3 3) :
    Option (Pose ℝ × ℝ) :=
  if p2d.length < 4 then none
  else do
    let invK := invert cam
    let initialized ← if nonplanar ∧ 6 ≤ p2d.length then do
        let P ← projectionDLT gesvd12 p3d p2d
        some (poseFromProjection gesvd33 P invK)
      else some none
    let pose ← match initialized with
      | some pose => some pose
      | none => if p3d.length < p2d.length then none else planarPose gesvd32 gesvd9 p2d p3d invK
    let residual ← reprojectionError p2d p3d pose cam
    some (pose, Real.sqrt (residual / ((p2d.length : ℝ) * 2)))

/-- `ProjectivePoseNormalize::evaluate`, ProjectivePoseNormalize.h l.52-66; `none`: division by zero. -/
noncomputable def projectivePoseNormalize (input : Vec ℝ (3 + 4)) : Option (Vec ℝ (3 + 4)) :=
  open Classical in
  let q := ProjectionFunction.inputR input
  let fQuatLenSq := q 0 * q 0 + q 1 * q 1 + q 2 * q 2 + q 3 * q 3
  let fQuatLen := Real.sqrt fQuatLenSq
  if fQuatLen = 0 then none
  else some (Fin.append (fun i => ProjectionFunction.inputT input i / fQuatLenSq) (fun i => q i / fQuatLen))

end Ubitrack.PlanarPose
