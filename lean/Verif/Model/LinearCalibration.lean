import Verif.Model.Geometry

/-!
# Linear estimation of homographies, projections and 3D points

Homography.cpp, Projection.cpp and 3DPointReconstruction.cpp of utAlgorithm, over the reals. The singular value
decomposition is a parameter `gesvd`: from the rows of the matrix to the singular values (padded with zeros when the
matrix has fewer rows than columns) and the matrix `Vt`, or `none` when LAPACK reports no convergence. `none` as a result
stands for a violated assertion, an exception, a division by zero, or a decomposition that did not converge (which only
the reconstruction from several views checks; the other functions then return the uninitialised matrix).
-/

namespace Ubitrack.Linear
open Geometry

/-- `element_div( p - shift, scale )`, Homography.cpp l.66-67 and Projection.cpp l.78-79. -/
noncomputable def normalise {n : ℕ} (params : Vec ℝ n × Vec ℝ n) (p : Vec ℝ n) : Vec ℝ n :=
  fun i => (p i - params.1 i) / params.2 i

/-- The two rows of the equation system for one pair of points, Homography.cpp l.69-82. -/
def homographyRows (from_ to_ : Vec ℝ 2) : List (Vec ℝ 9) :=
  [![0, 0, 0, -from_ 0, -from_ 1, -1, to_ 1 * from_ 0, to_ 1 * from_ 1, to_ 1],
   ![from_ 0, from_ 1, 1, 0, 0, 0, -to_ 0 * from_ 0, -to_ 0 * from_ 1, -to_ 0]]

/-- The matrix `A` of `homographyDLTImpl`, Homography.cpp l.53-83. -/
noncomputable def homographySystem (fromPoints toPoints : List (Vec ℝ 2)) : List (Vec ℝ 9) :=
  let f := estimateNormalizationParameters fromPoints
  let t := estimateNormalizationParameters toPoints
  (fromPoints.zip toPoints).flatMap fun p => homographyRows (normalise f p.1) (normalise t p.2)

/-- Copying a vector of nine elements row by row to a matrix, Homography.cpp l.93-96. -/
def toMatrix33 (v : Vec ℝ 9) : Mat ℝ 3 3 := !![v 0, v 1, v 2; v 3, v 4, v 5; v 6, v 7, v 8]

/-- Every coordinate of the points varies, so that the normalisation does not divide by zero. -/
def scalesNonzero {n : ℕ} (pts : List (Vec ℝ n)) : Prop := ∀ i, (estimateNormalizationParameters pts).2 i ≠ 0

open Classical in
/-- `homographyDLTImpl`, Homography.cpp l.46-105. -/
noncomputable def homographyDLT (gesvd : List (Vec ℝ 9) → Option (Vec ℝ 9 × Mat ℝ 9 9))
    (fromPoints toPoints : List (Vec ℝ 2)) : Option (Mat ℝ 3 3) :=
  if fromPoints.length = toPoints.length ∧ 4 ≤ fromPoints.length then
    if scalesNonzero fromPoints ∧ scalesNonzero toPoints then do
      let f := estimateNormalizationParameters fromPoints
      let t := estimateNormalizationParameters toPoints
      let (_, vt) ← gesvd (homographySystem fromPoints toPoints)
      let H := toMatrix33 (vt 8)
      let toCorrect := generateNormalizationMatrix t.1 t.2 true
      let Htemp := toCorrect * H
      let fromCorrect := generateNormalizationMatrix f.1 f.2 false
      some (Htemp * fromCorrect)
    else none
  else none

/-- The corners minus their mean and the mean, Homography.cpp l.128-135. -/
noncomputable def centredCorners (corners : Fin 4 → Vec ℝ 2) : (Fin 4 → Vec ℝ 2) × Vec ℝ 2 :=
  let sum := (List.finRange 4).foldl (fun m i => m + corners i) (0 : Vec ℝ 2)
  let mean : Vec ℝ 2 := fun k => sum k / 4
  (fun i => corners i - mean, mean)

/-- `matA`, Homography.cpp l.137-151. -/
def squareSystem (c : Fin 4 → Vec ℝ 2) : List (Vec ℝ 3) :=
  let a00 := c 0 0 - c 1 0 - c 2 0 + c 3 0
  let a01 := -c 0 0 - c 1 0 + c 2 0 + c 3 0
  let a20 := c 0 1 - c 1 1 - c 2 1 + c 3 1
  let a21 := -c 0 1 - c 1 1 + c 2 1 + c 3 1
  [![a00, a01, -2 * (c 0 0 + c 2 0)], ![-a00, -a01, -2 * (c 1 0 + c 3 0)],
   ![a20, a21, -2 * (c 0 1 + c 2 1)], ![-a20, -a21, -2 * (c 1 1 + c 3 1)]]

/-- The upper two rows of the homography from its bottom row, Homography.cpp l.165-185 (`k = 0`, `1`: the two
coordinates, written out separately in the code). -/
noncomputable def squareRow (c : Fin 4 → Vec ℝ 2) (v : Vec ℝ 3) (k : Fin 2) : Vec ℝ 3 :=
  ![((c 0 k + c 1 k + c 2 k + c 3 k) * v 0 + (-c 0 k + c 1 k - c 2 k + c 3 k) * v 1 +
      (-c 0 k - c 1 k + c 2 k + c 3 k) * v 2) / 2,
    ((-c 0 k + c 1 k - c 2 k + c 3 k) * v 0 + (c 0 k + c 1 k + c 2 k + c 3 k) * v 1 +
      (c 0 k - c 1 k - c 2 k + c 3 k) * v 2) / 2,
    ((c 0 k + c 1 k - c 2 k - c 3 k) * v 0 + (-c 0 k + c 1 k + c 2 k - c 3 k) * v 1) / -4]

/-- `squareHomographyImpl`, Homography.cpp l.123-199; the argument has exactly four corners (assertion l.126). -/
noncomputable def squareHomography (gesvd : List (Vec ℝ 3) → Option (Vec ℝ 3 × Mat ℝ 3 3)) (corners : Fin 4 → Vec ℝ 2) :
    Option (Mat ℝ 3 3) := do
  let (c, mean) := centredCorners corners
  let (_, vt) ← gesvd (squareSystem c)
  let v := vt 2
  let r0 := squareRow c v 0
  let r1 := squareRow c v 1
  let r2 : Vec ℝ 3 := ![v 0 * 2, v 1 * 2, v 2]
  some ![fun i => r0 i + r2 i * mean 0, fun i => r1 i + r2 i * mean 1, r2]

/-- The two rows of the equation system for one pair of points, Projection.cpp l.81-98. -/
def projectionRows (from_ : Vec ℝ 3) (to_ : Vec ℝ 2) : List (Vec ℝ 12) :=
  [![0, 0, 0, 0, -from_ 0, -from_ 1, -from_ 2, -1, to_ 1 * from_ 0, to_ 1 * from_ 1, to_ 1 * from_ 2, to_ 1],
   ![from_ 0, from_ 1, from_ 2, 1, 0, 0, 0, 0, -to_ 0 * from_ 0, -to_ 0 * from_ 1, -to_ 0 * from_ 2, -to_ 0]]

/-- The matrix `A` of `projectionDLTImpl`, Projection.cpp l.65-99. -/
noncomputable def projectionSystem (fromPoints : List (Vec ℝ 3)) (toPoints : List (Vec ℝ 2)) : List (Vec ℝ 12) :=
  let f := estimateNormalizationParameters fromPoints
  let t := estimateNormalizationParameters toPoints
  (fromPoints.zip toPoints).flatMap fun p => projectionRows (normalise f p.1) (normalise t p.2)

/-- Copying a vector of twelve elements row by row to a matrix, Projection.cpp l.107-111. -/
def toMatrix34 (v : Vec ℝ 12) : Mat ℝ 3 4 :=
  !![v 0, v 1, v 2, v 3; v 4, v 5, v 6, v 7; v 8, v 9, v 10, v 11]

open Classical in
/-- The scaling at the end of `projectionDLTImpl`, Projection.cpp l.119-129; `none`: the viewing direction has length
zero. -/
noncomputable def normaliseProjection (P : Mat ℝ 3 4) (p1st : Vec ℝ 3) : Option (Mat ℝ 3 4) :=
  let len := Real.sqrt (P 2 0 * P 2 0 + P 2 1 * P 2 1 + P 2 2 * P 2 2)
  let len' := if P 2 0 * p1st 0 + P 2 1 * p1st 1 + P 2 2 * p1st 2 + P 2 3 < 0 then -len else len
  if len' = 0 then none else some ((1 / len') • P)

open Classical in
/-- `projectionDLTImpl`, Projection.cpp l.59-130. -/
noncomputable def projectionDLT (gesvd : List (Vec ℝ 12) → Option (Vec ℝ 12 × Mat ℝ 12 12))
    (fromPoints : List (Vec ℝ 3)) (toPoints : List (Vec ℝ 2)) : Option (Mat ℝ 3 4) :=
  if fromPoints.length = toPoints.length ∧ 6 ≤ fromPoints.length then
    if scalesNonzero fromPoints ∧ scalesNonzero toPoints then do
      let f := estimateNormalizationParameters fromPoints
      let t := estimateNormalizationParameters toPoints
      let (_, vt) ← gesvd (projectionSystem fromPoints toPoints)
      let P := toMatrix34 (vt 11)
      let toCorrect := generateNormalizationMatrix t.1 t.2 true
      let Ptemp := toCorrect * P
      let fromCorrect := generateNormalizationMatrix f.1 f.2 false
      let p1st ← fromPoints.head?
      normaliseProjection (Ptemp * fromCorrect) p1st
    else none
  else none

/-- `pointToPointDistImp`, 3DPointReconstruction.cpp l.51-57; `none`: division by zero. -/
noncomputable def pointToPointDistImp (from_ to_ : Vec ℝ 3) (fM : Mat ℝ 3 3) : Option ℝ :=
  open Classical in
  let l := fM.mulVec from_
  let term := l 0 * to_ 0 + l 1 * to_ 1 + l 2
  if l 0 * l 0 + l 1 * l 1 = 0 then none else some (term * term / (l 0 * l 0 + l 1 * l 1))

/-- `pointToPointDist` for points of the plane, 3DPointReconstruction.cpp l.59-73. -/
noncomputable def pointToPointDist (from_ to_ : Vec ℝ 2) (fM : Mat ℝ 3 3) : Option ℝ :=
  pointToPointDistImp ![from_ 0, from_ 1, 1] ![to_ 0, to_ 1, 1] fM

open Classical in
/-- `get3DPositionImpl` for two views, 3DPointReconstruction.cpp l.88-103. -/
noncomputable def get3DPosition2 (gesvd : List (Vec ℝ 4) → Option (Vec ℝ 4 × Mat ℝ 4 4)) (P1 P2 : Mat ℝ 3 4)
    (x x' : Vec ℝ 2) : Option (Vec ℝ 3) := do
  let A : List (Vec ℝ 4) := [x 0 • P1 2 - P1 0, x 1 • P1 2 - P1 1, x' 0 • P2 2 - P2 0, x' 1 • P2 2 - P2 1]
  let (_, vt) ← gesvd A
  if vt 3 3 = 0 then none else some ![vt 3 0 / vt 3 3, vt 3 1 / vt 3 3, vt 3 2 / vt 3 3]

/-- The matrix `skew` for one image point, 3DPointReconstruction.cpp l.136-139. -/
def skewPoint (x : Vec ℝ 2) : Mat ℝ 3 3 := ![![0, 1, -x 1], ![-1, 0, x 0], ![x 1, -x 0, 0]]

/-- The matrix `A` of `get3DPositionImpl` for several views, 3DPointReconstruction.cpp l.128-141. -/
def viewSystem (P : List (Mat ℝ 3 4)) (points : List (Vec ℝ 2)) : List (Vec ℝ 4) :=
  (P.zip points).flatMap fun v => (List.finRange 3).map fun k => (skewPoint v.2 * v.1 : Mat ℝ 3 4) k

open Classical in
/-- The loop that negates the homogeneous point when it is behind one of the cameras, 3DPointReconstruction.cpp
l.151-160. -/
noncomputable def orient (vec : Vec ℝ 4) : List (Mat ℝ 3 4) → Vec ℝ 4
  | [] => vec
  | P :: rest =>
    if 0 > P 2 0 * vec 0 + P 2 1 * vec 1 + P 2 2 * vec 2 + P 2 3 * vec 3 then -vec else orient vec rest

open Classical in
/-- `get3DPositionImpl` for several views, 3DPointReconstruction.cpp l.117-163, with the check of the sizes in
`get3DPosition`, l.194-213 (`flag = 0`, that is without the non-linear refinement). -/
noncomputable def get3DPosition (gesvd : List (Vec ℝ 4) → Option (Vec ℝ 4 × Mat ℝ 4 4)) (P : List (Mat ℝ 3 4))
    (points : List (Vec ℝ 2)) : Option (Vec ℝ 3) :=
  if P.length ≠ points.length then none
  else if P.length < 2 then none
  else do
    let (_, vt) ← gesvd (viewSystem P points)
    let vec := orient (vt 3) P
    if vec 3 = 0 then none else some ![vec 0 / vec 3, vec 1 / vec 3, vec 2 / vec 3]

end Ubitrack.Linear
