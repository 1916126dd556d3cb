import Verif.Model.Munkres
import Verif.Model.LinearCalibration

/-!
# Model of `reconstruct3DPoints` (utAlgorithm/3DPointReconstruction.cpp)

Over the reals. `solve()` of the assignment solver need not end, so the result is a relation between the arguments and the
returned list. The singular value decomposition is a parameter, as in `Verif.Model.LinearCalibration`.
-/

namespace Ubitrack.Reconstruction

open Classical in
/-- 3DPointReconstruction.cpp l.235-247: the match matrix, as a function that is used below the sizes only. `none`: an
entry is a division by zero, after which the comparisons of the solver are not those of numbers. -/
noncomputable def matchMatrix (p1 p2 : List (Vec ℝ 2)) (fM : Mat ℝ 3 3) : Option (ℕ → ℕ → ℝ) :=
  if ∀ a ∈ p1, ∀ b ∈ p2, (Linear.pointToPointDist a b fM).isSome then
    some fun row col => (do
      let a ← p1[row]?
      let b ← p2[col]?
      Linear.pointToPointDist a b fM).getD 0
  else none

/-- 3DPointReconstruction.cpp l.253-263: collects the points; `matchList.at` throws outside the match list. -/
noncomputable def collect (gesvd : List (Vec ℝ 4) → Option (Vec ℝ 4 × Mat ℝ 4 4)) (P1 P2 : Mat ℝ 3 4)
    (p1 p2 : List (Vec ℝ 2)) (matchList : List ℕ) : Option (List (Vec ℝ 3)) :=
  (List.range p1.length).foldlM (fun list i => do
    let j ← matchList[i]?
    if j < p2.length then do
      let a ← p1[i]?
      let b ← p2[j]?
      let x ← Linear.get3DPosition2 gesvd P1 P2 a b
      some (list ++ [x])
    else some list) []

/-- 3DPointReconstruction.cpp l.231-264: `reconstruct3DPointsImpl` returns the list `out`. -/
def Returns (gesvd : List (Vec ℝ 4) → Option (Vec ℝ 4 × Mat ℝ 4 4)) (p1 p2 : List (Vec ℝ 2)) (P1 P2 : Mat ℝ 3 4)
    (fM : Mat ℝ 3 3) (out : List (Vec ℝ 3)) : Prop :=
  ∃ C s t, matchMatrix p1 p2 fM = some C ∧ Munkres.setMatrix p1.length p2.length C = some s ∧ Munkres.SolvesTo s t ∧
    collect gesvd P1 P2 p1 p2 (Munkres.rowMatchList t) = some out

end Ubitrack.Reconstruction
