import Verif.Model.LinearCalibration
import Verif.Model.MatrixOperations
import Verif.Model.Pose

/-!
# Fundamental matrix

utAlgorithm/FundamentalMatrix.cpp, over the reals. `none` stands for a thrown exception, for a division by zero and for a
failing LAPACK routine.
-/

namespace Ubitrack.Epipolar
open Ubitrack.Linear Ubitrack.MatrixOperations
open scoped Matrix

/-- `normalize`, FundamentalMatrix.cpp l.52-66: shift and the mean distance from it. -/
noncomputable def shiftAndDistance (pts : List (Vec ℝ 2)) : Vec ℝ 2 × ℝ :=
  let shift := (1 / (pts.length : ℝ)) • pts.foldl (fun s p => s + p) 0
  let meandist := pts.foldl (fun m p =>
    let v := p - shift
    m + Real.sqrt (v 0 * v 0 + v 1 * v 1)) 0
  (shift, meandist / pts.length)

/-- `normalize`, FundamentalMatrix.cpp l.68: the scale; `none`: division by zero. -/
noncomputable def normalizeScale (pts : List (Vec ℝ 2)) : Option (Vec ℝ 2 × ℝ) :=
  open Classical in
  let (shift, meandist) := shiftAndDistance pts
  if meandist = 0 then none else some (shift, Real.sqrt 2 / meandist)

/-- `normalize`, FundamentalMatrix.cpp l.70-78: the matrix. -/
def modMatrix (shift : Vec ℝ 2) (scale : ℝ) : Mat ℝ 3 3 :=
  !![scale, 0, -scale * shift 0; 0, scale, -scale * shift 1; 0, 0, 1]

/-- One row of the linear system, FundamentalMatrix.cpp l.125-138. -/
def fundamentalRow (fromShift toShift : Vec ℝ 2) (fromScale toScale : ℝ) (from_ to_ : Vec ℝ 2) : Vec ℝ 9 :=
  let x := (from_ 0 - fromShift 0) * fromScale
  let x' := (to_ 0 - toShift 0) * toScale
  let y := (from_ 1 - fromShift 1) * fromScale
  let y' := (to_ 1 - toShift 1) * toScale
  ![x' * x, x' * y, x', y' * x, y' * y, y', x, y, 1]

/-- The correspondences the loop of l.123-139 uses: every `stepSize`-th, `size / stepSize` of them. The index `i * stepSize`
is always smaller than the size. -/
def usedPairs (fromPoints toPoints : List (Vec ℝ 2)) (stepSize : ℕ) : List (Vec ℝ 2 × Vec ℝ 2) :=
  (List.range (fromPoints.length / stepSize)).map fun i => (fromPoints.getD (i * stepSize) 0, toPoints.getD (i * stepSize) 0)

/-- `getFundamentalMatrixImpl`, FundamentalMatrix.cpp l.83-177. -/
noncomputable def getFundamentalMatrix (gesvd9 : List (Vec ℝ 9) → Option (Vec ℝ 9 × Mat ℝ 9 9))
    (gesvd3 : Mat ℝ 3 3 → Option (Vec ℝ 3 × Mat ℝ 3 3 × Mat ℝ 3 3)) (fromPoints toPoints : List (Vec ℝ 2)) (stepSize : ℕ) :
    Option (Mat ℝ 3 3) :=
  if stepSize < 1 then none
  else if fromPoints.length ≠ toPoints.length then none
  else if fromPoints.length < 8 then none
  else do
    let (fromShift, fromScale) ← normalizeScale fromPoints
    let (toShift, toScale) ← normalizeScale toPoints
    let A := (usedPairs fromPoints toPoints stepSize).map fun p => fundamentalRow fromShift toShift fromScale toScale p.1 p.2
    let (_, vt) ← gesvd9 A
    let F := toMatrix33 (vt 8)
    let (s2, U2, Vt2) ← gesvd3 F
    let s2' : Vec ℝ 3 := Function.update s2 2 0
    let U2' : Mat ℝ 3 3 := Matrix.of fun i j => U2 i j * s2' j
    some ((modMatrix toShift toScale)ᵀ * (U2' * Vt2) * modMatrix fromShift fromScale)

/-- The matrix `skew`, FundamentalMatrix.cpp l.203-212. -/
def skew (e2 : Vec ℝ 3) : Mat ℝ 3 3 := !![0, -e2 2, e2 1; e2 2, 0, -e2 0; -e2 1, e2 0, 0]

/-- `fundamentalMatrixFromPoses`, FundamentalMatrix.cpp l.191-218. -/
noncomputable def fundamentalMatrixFromPoses (getrf : Mat ℝ 4 4 → Mat ℝ 4 4 × (Fin 4 → Fin 4))
    (getri : Mat ℝ 4 4 → (Fin 4 → Fin 4) → Mat ℝ 4 4) (gesvd : Mat ℝ 3 4 → Vec ℝ 3 × Mat ℝ 3 3 × Mat ℝ 3 4)
    (cam1 cam2 : Pose ℝ) (K1 K2 : Mat ℝ 3 3) : Mat ℝ 3 3 :=
  let E1 := K1 * cam1.toMatrix34
  let E2 := K2 * cam2.toMatrix34
  let P1_I := invertMatrix getrf getri cam1.toMatrix4
  let C : Vec ℝ 4 := ![P1_I 0 3, P1_I 1 3, P1_I 2 3, 1]
  let e2 := E2.mulVec C
  let E1' := pseudoInvertMatrix gesvd E1
  skew e2 * (E2 * E1')

/-- The matrix `W`, FundamentalMatrix.cpp l.234-242. -/
def turn : Mat ℝ 3 3 := !![0, -1, 0; 1, 0, 0; 0, 0, 1]

/-- The two rotations of l.244-257: `U * w * Vt`, negated if its determinant is negative. -/
noncomputable def candidate (getrf : Mat ℝ 3 3 → Mat ℝ 3 3 × (Fin 3 → Fin 3)) (U w Vt : Mat ℝ 3 3) : Mat ℝ 3 3 :=
  open Classical in
  let W := U * (w * Vt)
  if determinant getrf W < 0 then (-1 : ℝ) • W else W

/-- A 3x4 matrix from its left part and its last column, as for `p1` and `p2` in l.260-271. -/
def columns (R : Mat ℝ 3 3) (t : Vec ℝ 3) : Mat ℝ 3 4 :=
  !![R 0 0, R 0 1, R 0 2, t 0; R 1 0, R 1 1, R 1 2, t 1; R 2 0, R 2 1, R 2 2, t 2]

open Classical in
/-- The test of a candidate, l.269-276: the triangulated point has negative depth in both cameras. -/
noncomputable def inFront (gesvd4 : List (Vec ℝ 4) → Option (Vec ℝ 4 × Mat ℝ 4 4)) (K1 K2 : Mat ℝ 3 3) (x x' : Vec ℝ 2)
    (R : Mat ℝ 3 3) (t : Vec ℝ 3) : Option Bool := do
  let P1 := K1 * columns 1 0
  let P2 := K2 * columns R t
  let s ← get3DPosition2 gesvd4 P1 P2 x x'
  some (decide ((R.mulVec s + t) 2 < 0 ∧ s 2 < 0))

/-- `poseFromFundamentalMatrix`, FundamentalMatrix.cpp l.221-300. The unused matrix `inv` is left out. -/
noncomputable def poseFromFundamentalMatrix (getrf : Mat ℝ 3 3 → Mat ℝ 3 3 × (Fin 3 → Fin 3))
    (gesvd3 : Mat ℝ 3 3 → Vec ℝ 3 × Mat ℝ 3 3 × Mat ℝ 3 3) (gesvd4 : List (Vec ℝ 4) → Option (Vec ℝ 4 × Mat ℝ 4 4))
    (fM : Mat ℝ 3 3) (x x' : Vec ℝ 2) (K1 K2 : Mat ℝ 3 3) : Option (Pose ℝ) := do
  let (_, U, Vt) := gesvd3 (K2ᵀ * fM * K1)
  let u3 : Vec ℝ 3 := fun i => U i 2
  let W := candidate getrf U turn Vt
  let Wt := candidate getrf U turnᵀ Vt
  if ← inFront gesvd4 K1 K2 x x' W u3 then some ⟨Quat.ofMatrix W, u3⟩
  else if ← inFront gesvd4 K1 K2 x x' W (-u3) then some ⟨Quat.ofMatrix W, -u3⟩
  else if ← inFront gesvd4 K1 K2 x x' Wt (-u3) then some ⟨Quat.ofMatrix Wt, -u3⟩
  else some ⟨Quat.ofMatrix Wt, u3⟩

end Ubitrack.Epipolar
