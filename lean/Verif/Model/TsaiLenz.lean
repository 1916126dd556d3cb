import Verif.Model.Pose
import Verif.Model.MatrixOperations

/-!
# Hand-eye calibration after Tsai and Lenz

src/utAlgorithm/PoseEstimation6D6D/TsaiLenz.cpp. `float` and `double` are exact reals. LAPACK's `gels` is a parameter; its status is
ignored by the code, so the parameter is total.
-/

namespace Ubitrack.TsaiLenz
open scoped Matrix
open MatrixOperations

/-- The upper left 3x3 block (`ublas::subrange`), TsaiLenz.cpp l.92, l.305, l.311. -/
def block (h : Mat ℝ 4 4) : Mat ℝ 3 3 := !![h 0 0, h 0 1, h 0 2; h 1 0, h 1 1, h 1 2; h 2 0, h 2 1, h 2 2]

/-- The first three elements of the last column, TsaiLenz.cpp l.93-94. -/
def lastColumn (h : Mat ℝ 4 4) : Vec ℝ 3 := ![h 0 3, h 1 3, h 2 3]

/-- `skew`, TsaiLenz.cpp l.151-165. -/
def skew (rotVec : Vec ℝ 3) : Mat ℝ 3 3 :=
  !![0, -rotVec 2, rotVec 1; rotVec 2, 0, -rotVec 0; -rotVec 1, rotVec 0, 0]

/-- `computeSidesTrans`, TsaiLenz.cpp l.87-99: the matrix and the right side. -/
def sidesTrans (hgij hcij : Mat ℝ 4 4) (rcg : Mat ℝ 3 3) : Mat ℝ 3 3 × Vec ℝ 3 :=
  (block hgij - 1, rcg *ᵥ lastColumn hcij - lastColumn hgij)

/-- `getMatrix`, TsaiLenz.cpp l.168-195. -/
noncomputable def getMatrix (source : Vec ℝ 3) : Mat ℝ 3 3 :=
  let length := source 0 * source 0 + source 1 * source 1 + source 2 * source 2
  let a := 1 - length / 2
  let alpha := Real.sqrt (4 - length)
  let right : Mat ℝ 3 3 := (0.5 : ℝ) • (Matrix.of (fun i j => source i * source j) + alpha • skew source)
  a • 1 + right

/-- `getRcg`, TsaiLenz.cpp l.198-220. -/
noncomputable def getRcg (pcg_ : Vec ℝ 3) : Mat ℝ 3 3 :=
  let divisor := Real.sqrt (1 + (pcg_ 0 * pcg_ 0 + pcg_ 1 * pcg_ 1 + pcg_ 2 * pcg_ 2))
  getMatrix (fun i => 2 * pcg_ i / divisor)

/-- `getQuaternion`, TsaiLenz.cpp l.223-294. -/
noncomputable def getQuaternion (source : Mat ℝ 3 3) : Vec ℝ 3 :=
  let q0 := (1 + source 0 0 + source 1 1 + source 2 2) / 4
  let q1 := (1 + source 0 0 - source 1 1 - source 2 2) / 4
  let q2 := (1 - source 0 0 + source 1 1 - source 2 2) / 4
  let q3 := (1 - source 0 0 - source 1 1 + source 2 2) / 4
  let q : Vec ℝ 4 := ![q0, q1, q2, q3]
  let c : Fin 4 := 0
  let c : Fin 4 := if q c < q 1 then 1 else c
  let c : Fin 4 := if q c < q 2 then 2 else c
  let c : Fin 4 := if q c < q 3 then 3 else c
  let qoff0 := (source 2 1 - source 1 2) / 4
  let qoff1 := (source 0 2 - source 2 0) / 4
  let qoff2 := (source 1 0 - source 0 1) / 4
  let qoff3 := (source 1 0 + source 0 1) / 4
  let qoff4 := (source 0 2 + source 2 0) / 4
  let qoff5 := (source 2 1 + source 1 2) / 4
  let s := Real.sqrt (q c)
  let quat : Vec ℝ 4 :=
    if c = 0 then ![qoff0 / s, qoff1 / s, qoff2 / s, s]
    else if c = 1 then ![s, qoff3 / s, qoff4 / s, qoff0 / s]
    else if c = 2 then ![qoff3 / s, s, qoff5 / s, qoff1 / s]
    else ![qoff4 / s, qoff5 / s, s, qoff2 / s]
  let quat : Vec ℝ 4 := if quat 3 < 0 then -quat else quat
  ![quat 0, quat 1, quat 2]

/-- `computeSidesRot`, TsaiLenz.cpp l.297-320: the matrix and the right side. -/
noncomputable def sidesRot (hgij hcij : Mat ℝ 4 4) : Mat ℝ 3 3 × Vec ℝ 3 :=
  let pgij := getQuaternion (block hgij)
  let pcij := getQuaternion (block hcij)
  (skew (pgij + pcij), pcij - pgij)

/-- The three rows that one pair adds to the system, TsaiLenz.cpp l.121-136 and l.342-356. -/
def rows (s : Mat ℝ 3 3 × Vec ℝ 3) : List (Vec ℝ 3 × ℝ) := (List.finRange 3).map fun r => (s.1 r, s.2 r)

variable (gels : List (Vec ℝ 3 × ℝ) → Vec ℝ 3)

/-- `computePcg`, TsaiLenz.cpp l.323-368. -/
noncomputable def computePcg (tc : List (Mat ℝ 4 4 × Mat ℝ 4 4)) : Mat ℝ 3 3 :=
  getRcg (gels (tc.flatMap fun h => rows (sidesRot h.1 h.2)))

/-- `computeTcg`, TsaiLenz.cpp l.102-148. -/
def computeTcg (tc : List (Mat ℝ 4 4 × Mat ℝ 4 4)) (rcg : Mat ℝ 3 3) : Vec ℝ 3 :=
  gels (tc.flatMap fun h => rows (sidesTrans h.1 h.2 rcg))

variable (invert : Mat ℝ 4 4 → Mat ℝ 4 4)

/-- `computeTransformation` for mode 0, TsaiLenz.cpp l.376-380; `invert` is `Math::invert_matrix`. -/
def transformationG (hi hj : Mat ℝ 4 4) : Mat ℝ 4 4 := invert hj * hi

/-- `computeTransformation` for mode 1, TsaiLenz.cpp l.381-385. -/
def transformationC (hi hj : Mat ℝ 4 4) : Mat ℝ 4 4 := hj * invert hi

/-- The indices of the two loops of `fillTransformationVectors`, TsaiLenz.cpp l.396-399 and l.467-470. -/
def indexPairs (n : ℕ) (useAllPairs : Bool) : List (ℕ × ℕ) :=
  (List.range (n - 1)).flatMap fun i =>
    let to_ := if useAllPairs then n else i + 2
    (List.range' (i + 1) (to_ - (i + 1))).map fun k => (i, k)

/-- `fillTransformationVectors`, TsaiLenz.cpp l.389-416; `none`: `at` throws. -/
def fillTransformationVectors (hand eye : List (Mat ℝ 4 4)) (useAllPairs : Bool) : Option (List (Mat ℝ 4 4 × Mat ℝ 4 4)) :=
  (indexPairs hand.length useAllPairs).mapM fun p => do
    let gi ← hand[p.1]?
    let gk ← hand[p.2]?
    let ci ← eye[p.1]?
    let ck ← eye[p.2]?
    return (transformationG invert gi gk, transformationC invert ci ck)

/-- `performHandEyeCalibrationImp`, TsaiLenz.cpp l.419-446; `none`: an exception. -/
noncomputable def handEye (hand eye : List (Mat ℝ 4 4)) (useAllPairs : Bool) : Option (Pose ℝ) :=
  if eye.length ≠ hand.length then none
  else if eye.length ≤ 2 then some ⟨⟨0, 0, 0, 1⟩, ![0, 0, 0]⟩
  else do
    let tc ← fillTransformationVectors invert hand eye useAllPairs
    let rcg := computePcg gels tc
    let tcg := computeTcg gels tc rcg
    return ⟨Quat.ofMatrix rcg, tcg⟩

/-- `performHandEyeCalibration` for poses, TsaiLenz.cpp l.490-516: the same with the matrices of the poses (l.473-481). -/
noncomputable def handEyePoses (hand eye : List (Pose ℝ)) (useAllPairs : Bool) : Option (Pose ℝ) :=
  handEye gels invert (hand.map Pose.toMatrix4) (eye.map Pose.toMatrix4) useAllPairs

end Ubitrack.TsaiLenz
