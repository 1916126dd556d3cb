import Verif.Model.Pose

/-!
# Absolute orientation (Horn), 3D-3D pose estimation

Source: src/utAlgorithm/PoseEstimation3D3D/Rotation3D.h, Pose6D.h, Scale.h, ErrorEstimation.h,
AbsoluteOrientation.cpp. `double` is modelled by exact reals; LAPACK's `syev` is a parameter.
The asserted preconditions (equal lengths, more than two points) are not part of the functions.
-/

namespace Ubitrack.AbsoluteOrientation

/-- Rotation3D.h l.159-160, Pose6D.h l.91-92, Scale.h l.103-104: `std::accumulate` from the zero
vector, divided by `n` (the number of *left* points). -/
noncomputable def centroid (points : List (Vec ℝ 3)) (n : ℕ) : Vec ℝ 3 :=
  fun i => (points.foldl (fun acc p => acc + p) (0 : Vec ℝ 3)) i / n

/-- Rotation3D.h l.76-85: the sum of the outer products `vec2 vec1ᵀ` of the centred points. The
two iterators advance together, until the left one is at its end. -/
def crossSum (left right : List (Vec ℝ 3)) (leftCentroid rightCentroid : Vec ℝ 3) : Mat ℝ 3 3 :=
  (left.zip right).foldl (fun M p =>
    let vec1 := p.1 - leftCentroid
    let vec2 := p.2 - rightCentroid
    M + Matrix.of fun i j => vec2 i * vec1 j) 0

/-- Rotation3D.h l.113-124: the matrix N. Only the upper triangle is written, and `syev('V', 'U')`
reads only the upper triangle; the model mirrors it into the lower one. -/
def hornMatrix (M : Mat ℝ 3 3) : Mat ℝ 4 4 :=
  let n00 := M 0 0 + M 1 1 + M 2 2
  let n11 := M 0 0 - M 1 1 - M 2 2
  let n22 := -M 0 0 + M 1 1 - M 2 2
  let n33 := -M 0 0 - M 1 1 + M 2 2
  let n01 := M 1 2 - M 2 1
  let n02 := M 2 0 - M 0 2
  let n03 := M 0 1 - M 1 0
  let n12 := M 0 1 + M 1 0
  let n13 := M 2 0 + M 0 2
  let n23 := M 1 2 + M 2 1
  !![n00, n01, n02, n03;
     n01, n11, n12, n13;
     n02, n12, n22, n23;
     n03, n13, n23, n33]

variable (syev : Mat ℝ 4 4 → Option (Vec ℝ 4 × Mat ℝ 4 4))

/-- Rotation3D.h l.58-146, with the `Quaternion` result type (the cast of l.142 is then the
identity). `none` is the return value `false`: the eigensolver failed (l.129) or the largest
eigenvalue is not positive (l.136). `syev` overwrites N with the eigenvectors. -/
noncomputable def estimateRotationAt (left right : List (Vec ℝ 3))
    (leftCentroid rightCentroid : Vec ℝ 3) : Option (Quat ℝ) :=
  match syev (hornMatrix (crossSum left right leftCentroid rightCentroid)) with
  | none => none
  | some (W, N) =>
    if W 3 ≤ 0 then none
    else some ⟨N 1 3, N 2 3, N 3 3, N 0 3⟩

/-- Rotation3D.h l.150-163: the overload that computes the centroids. -/
noncomputable def estimateRotation (left right : List (Vec ℝ 3)) : Option (Quat ℝ) :=
  let n := left.length
  estimateRotationAt syev left right (centroid left n) (centroid right n)

/-- Rotation3D.h l.142 with the matrix result type, AbsoluteOrientation.cpp l.93-97. -/
noncomputable def estimateRotationMatrix (left right : List (Vec ℝ 3)) : Option (Mat ℝ 3 3) :=
  (estimateRotation syev left right).map Quat.toMatrix

/-- Pose6D.h l.55-79. -/
noncomputable def estimatePoseAt (left right : List (Vec ℝ 3))
    (leftCentroid rightCentroid : Vec ℝ 3) : Option (Pose ℝ) :=
  match estimateRotationAt syev left right leftCentroid rightCentroid with
  | none => none
  | some quat => some ⟨quat, leftCentroid - quat.rotate rightCentroid⟩

/-- Pose6D.h l.83-95 and AbsoluteOrientation.cpp l.64-69. -/
noncomputable def estimatePose (left right : List (Vec ℝ 3)) : Option (Pose ℝ) :=
  let n := left.length
  estimatePoseAt syev left right (centroid left n) (centroid right n)

/-- AbsoluteOrientation.cpp l.43-50: the old entry point exchanges the two point lists and ignores
the success flag; the default-constructed pose is returned on failure. -/
noncomputable def calculateAbsoluteOrientation (left right : List (Vec ℝ 3)) : Pose ℝ :=
  (estimatePose syev right left).getD ⟨⟨0, 0, 0, 1⟩, 0⟩

/-- Scale.h l.71-77, l.79-85: the accumulated squared distance to the centroid. -/
def spread (points : List (Vec ℝ 3)) (c : Vec ℝ 3) : ℝ :=
  points.foldl (fun acc p =>
    let r := p - c
    acc + (r 0 * r 0 + r 1 * r 1 + r 2 * r 2)) 0

/-- Scale.h l.51-88 and l.91-108. -/
noncomputable def estimateScale (left right : List (Vec ℝ 3)) : ℝ :=
  let n := left.length
  Real.sqrt (spread left (centroid left n) / spread right (centroid right n))

/-- ErrorEstimation.h l.52-88: `estimatePose6DResidual`, the distances of corresponding points
summed and divided by 3n. -/
noncomputable def residual (left right : List (Vec ℝ 3)) (pose : Pose ℝ) : ℝ :=
  ((left.zip right).map fun p => Quat.norm3 (p.1 - pose.apply p.2)).foldl (fun a e => a + e) 0 /
    (3 * left.length)

end Ubitrack.AbsoluteOrientation
