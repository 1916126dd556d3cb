import Verif.Model.Pose
import Verif.Model.LevenbergMarquardt

/-!
# Refinement of a pose from 3D-3D correspondences

Source: src/utAlgorithm/PoseEstimation3D3D/Optimization.h. `double` is modelled by exact reals. The result vector
and the Jacobian have the row `3 i + k` for coordinate `k` of point `i`, here `finProdFinEquiv (i, k)`.
-/

namespace Ubitrack.PoseRefinement

/-- Optimization.h l.92-95 and l.293-296: the pose a parameter vector stands for. A zero quaternion (NaN in the
code) is not treated separately. -/
noncomputable def poseOf (input : Vec ℝ 7) : Pose ℝ :=
  ⟨(Quat.mk (input 3) (input 4) (input 5) (input 6)).normalize, ![input 0, input 1, input 2]⟩

/-- Optimization.h l.89-108: `evaluate`. -/
noncomputable def evaluate (points : List (Vec ℝ 3)) (input : Vec ℝ 7) : Vec ℝ (points.length * 3) :=
  fun r =>
    let i := (finProdFinEquiv.symm r).1
    let k := (finProdFinEquiv.symm r).2
    (poseOf input).apply ![points.get i 0, points.get i 1, points.get i 2] k

/-- Optimization.h l.143-182: the three rows one point contributes to `jacobian`, from the normalised quaternion. -/
def pointRows (pt : Vec ℝ 3) (qx qy qz qw : ℝ) : Mat ℝ 3 7 :=
  let x := pt 0
  let y := pt 1
  let z := pt 2
  let t2 := qx*y*2
  let t3 := qw*z*2
  let t4 := qx*x*2
  let t5 := qy*y*2
  let t6 := qz*z*2
  let t7 := t4+t5+t6
  let t8 := qw*x*2
  let t9 := qy*z*2
  let t15 := qz*y*2
  let t10 := t8+t9-t15
  let t11 := qx*z*2
  let t12 := qz*x*2
  let t13 := qw*y*2
  let t14 := -t11+t12+t13
  let t16 := qy*x*2
  !![1, 0, 0, t7, t2+t3-qy*x*2, t11-qz*x*2-qw*y*2, t10;
     0, 1, 0, -t2-t3+t16, t7, t10, t14;
     0, 0, 1, t14, -t8+t9+t15, t4+t5-t6, t2+t3-t16]

/-- Optimization.h l.128-242: `jacobian`. -/
noncomputable def jacobian (points : List (Vec ℝ 3)) (input : Vec ℝ 7) : Mat ℝ (points.length * 3) 7 :=
  let n := Real.sqrt (input 3 * input 3 + input 4 * input 4 + input 5 * input 5 + input 6 * input 6)
  Matrix.of fun r =>
    pointRows (points.get (finProdFinEquiv.symm r).1) (input 3 / n) (input 4 / n) (input 5 / n) (input 6 / n)
      (finProdFinEquiv.symm r).2

/-- Optimization.h l.247-300: `estimatePose6D_3D3D`, refining the given pose. The number of rows is that of the points
`B`; the measurement vector is filled from the points `A` (l.269-276), which have to be as many. The step parameters
and the solver of the optimiser are left open. `none`: the optimiser throws, or has not finished. -/
noncomputable def refine (pointsA : List (Vec ℝ 3)) (pose : Pose ℝ) (pointsB : List (Vec ℝ 3))
    (hlen : pointsB.length = pointsA.length)
    (terminate : ℕ → ℝ → ℝ → Bool) (solver : LM.Solver) (stepSize stepFactor : ℝ)
    (lapack : LM.Lapack 7) (fuel : ℕ) : Option (Pose ℝ) :=
  let call : LM.Call 7 (pointsB.length * 3) :=
    { problem := fun x => (evaluate pointsB x, jacobian pointsB x)
      measurement := fun r => pointsA.get ((finProdFinEquiv.symm r).1.cast hlen) (finProdFinEquiv.symm r).2
      terminate := terminate
      normalize := id
      weight := none
      solver := solver
      stepSize := stepSize
      stepFactor := stepFactor
      lapack := lapack }
  match LM.levenbergMarquardt call pose.toVector fuel with
  | some (x, some _) => some (poseOf x)
  | _ => none

end Ubitrack.PoseRefinement
