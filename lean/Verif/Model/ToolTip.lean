import Verif.Model.Pose
import Verif.Model.LevenbergMarquardt
import Verif.Model.Ransac

/-!
# Tool tip (pivot) calibration

Source: src/utAlgorithm/ToolTip/LeastSquare.h, ErrorEstimation.h, Optimization.h, Ransac.h,
TipCalibration.cpp. `double` is modelled by exact reals; LAPACK's `gels` is a parameter.
-/

namespace Ubitrack.ToolTip

/-- LeastSquare.h l.107-114: the three rows `[R | -I]` one pose contributes to the matrix `a`, each
with its entry `-t` of the right-hand side `v`. -/
def poseRows (p : Pose ℝ) : List (Vec ℝ 6 × ℝ) :=
  let R := p.rotation.toMatrix
  [(![R 0 0, R 0 1, R 0 2, -1, 0, 0], -p.translation 0),
   (![R 1 0, R 1 1, R 1 2, 0, -1, 0], -p.translation 1),
   (![R 2 0, R 2 1, R 2 2, 0, 0, -1], -p.translation 2)]

/-- LeastSquare.h l.101-115: matrix and right-hand side as a list of rows, pose `i` filling the rows
`3i … 3i+2`. -/
def system (poses : List (Pose ℝ)) : List (Vec ℝ 6 × ℝ) := poses.flatMap poseRows

variable (gels : List (Vec ℝ 6 × ℝ) → Option (Vec ℝ 6))

/-- LeastSquare.h l.84-128: `estimatePosition3D_6D`; `none` is the return value `false`, otherwise
`(pw, pm)`. The solution replaces the first six entries of `v`. -/
def estimate (poses : List (Pose ℝ)) : Option (Vec ℝ 3 × Vec ℝ 3) :=
  match gels (system poses) with
  | none => none
  | some v => some (![v 3, v 4, v 5], ![v 0, v 1, v 2])

/-- ErrorEstimation.h l.63-67: the distance between the tip and the moved offset. -/
noncomputable def distance (pw pm : Vec ℝ 3) (p : Pose ℝ) : ℝ := Quat.norm3 (pw - p.apply pm)

/-- ErrorEstimation.h l.77-111: mean and standard deviation of the distances. With a single pose the
division by `n - 1 = 0` (l.107) is undefined, with none the first one (l.98): `none`. -/
noncomputable def estimateError (pw pm : Vec ℝ 3) (poses : List (Pose ℝ)) : Option (ℝ × ℝ) :=
  let n := poses.length
  if n < 2 then none
  else
    let distances := poses.map (distance pw pm)
    let err : ℝ := distances.foldl (fun s d => s + d) (0 : ℝ) / n
    let stdDev : ℝ := distances.foldl (fun s d => s + (d - err) ^ 2) (0 : ℝ) / (n - 1 : ℕ)
    some (err, Real.sqrt stdDev)

/-- Optimization.h l.91-102: `evaluate`, the parameters are tip and offset. -/
noncomputable def evaluate (poses : List (Pose ℝ)) (input : Vec ℝ 6) : Vec ℝ poses.length :=
  fun i =>
    let vec1 := ![input 0, input 1, input 2]
    let vec2 := ![input 3, input 4, input 5]
    Quat.norm3 (vec1 - (poses.get i).apply vec2)

/-- Optimization.h l.125-191: one row of `jacobian`. `none` when one of the divisions of l.182-185
divides by zero (NaN in the code). -/
noncomputable def jacobianRow (p : Pose ℝ) (input : Vec ℝ 6) : Option (Vec ℝ 6) :=
  let x1 := input 0
  let y1 := input 1
  let z1 := input 2
  let x2 := input 3
  let y2 := input 4
  let z2 := input 5
  let qx := p.rotation.x
  let qy := p.rotation.y
  let qz := p.rotation.z
  let qw := p.rotation.w
  let tx := p.translation 0
  let ty := p.translation 1
  let tz := p.translation 2
  let t2 := qy*qy
  let t3 := t2*2
  let t4 := qz*qz
  let t5 := t4*2
  let t6 := t3+t5-1
  let t7 := t6*x2
  let t8 := qw*qz*2
  let t15 := qx*qy*2
  let t9 := t8-t15
  let t10 := t9*y2
  let t11 := qw*qy*2
  let t12 := qx*qz*2
  let t13 := t11+t12
  let t16 := t13*z2
  let t14 := t7+t10-t16-tx+x1
  let t17 := |t14|
  let t19 := qx*qx
  let t20 := t19*2
  let t21 := qw*qx*2
  let t22 := qy*qz*2
  let t24 := t5+t20-1
  let t25 := t24*y2
  let t26 := t8+t15
  let t27 := t26*x2
  let t28 := t21-t22
  let t29 := t28*z2
  let t30 := t25-t27+t29-ty+y1
  let t18 := |t30|
  let t33 := t3+t20-1
  let t34 := t33*z2
  let t35 := t11-t12
  let t36 := t35*x2
  let t37 := t21+t22
  let t38 := t37*y2
  let t39 := t34+t36-t38-tz+z1
  let t23 := |t39|
  let t31 := t17*t17
  let t32 := t18*t18
  let t40 := t23*t23
  let t41 := t31+t32+t40
  let t42 := 1/Real.sqrt t41
  let t43 := t14/|t14|
  let t44 := t30/|t30|
  let t45 := t39/|t39|
  if t14 = 0 ∨ t30 = 0 ∨ t39 = 0 then none
  else some ![t17*t42*t43, t18*t42*t44, t23*t42*t45,
    t42*(t6*t17*t43*2-t18*t26*t44*2+t23*t35*t45*2)*(1/2),
    t42*(t9*t17*t43*2+t18*t24*t44*2-t23*t37*t45*2)*(1/2),
    t42*(t13*t17*t43*(-2)+t18*t28*t44*2+t23*t33*t45*2)*(1/2)]

/-- Optimization.h l.199-244: estimate, then Levenberg-Marquardt on the distances with target zero
and no normalisation. The Jacobian that the problem class hands to the optimiser and the optimiser's
other settings are left open (`jac`, `settings`); real arithmetic, so the NaN case of `jacobianRow`
is not covered. Inner `none`: the optimiser throws; outer: failure of the estimate, or not finished. -/
noncomputable def estimateOptimized (poses : List (Pose ℝ))
    (jac : Vec ℝ 6 → Mat ℝ poses.length 6)
    (terminate : ℕ → ℝ → ℝ → Bool) (solver : LM.Solver) (stepSize stepFactor : ℝ)
    (lapack : LM.Lapack 6) (fuel : ℕ) : Option (Vec ℝ 3 × Vec ℝ 3) :=
  match estimate gels poses with
  | none => none
  | some (pw, pm) =>
    let call : LM.Call 6 poses.length :=
      { problem := fun x => (evaluate poses x, jac x)
        measurement := 0
        terminate := terminate
        normalize := id
        weight := none
        solver := solver
        stepSize := stepSize
        stepFactor := stepFactor
        lapack := lapack }
    match LM.levenbergMarquardt call ![pw 0, pw 1, pw 2, pm 0, pm 1, pm 2] fuel with
    | some (x, some _) => some (![x 0, x 1, x 2], ![x 3, x 4, x 5])
    | _ => none

/-- Ransac.h l.59-79: the estimator, writing tip and offset into a 6-vector. -/
def ransacEstimator (poses : List (Pose ℝ)) (result : Vec ℝ 6) : Vec ℝ 6 × Bool :=
  match estimate gels poses with
  | none => (result, false)
  | some (pw, pm) => (![pw 0, pw 1, pw 2, pm 0, pm 1, pm 2], true)

/-- Ransac.h l.84-95: the evaluator. -/
noncomputable def ransacEvaluator (toolTip : Vec ℝ 6) (p : Pose ℝ) : ℝ :=
  let tip := p.apply ![toolTip 3, toolTip 4, toolTip 5]
  let offset := ![toolTip 0, toolTip 1, toolTip 2]
  Quat.norm3 (offset - tip)

/-- Ransac.h l.98-112: `none` stands for undefined behaviour in `ransac`, otherwise tip, offset and the
return value. `d0` is the default-constructed 6-vector. -/
noncomputable def estimateRansac (poses : List (Pose ℝ)) (params : Ransac.Params ℝ) (shuffles : List (List ℕ))
    (d0 : Vec ℝ 6) : Option ((Vec ℝ 3 × Vec ℝ 3) × Bool) :=
  match Ransac.ransac (ransacEstimator gels) d0 ransacEvaluator params poses shuffles d0 with
  | none => none
  | some (inlier, r) => some ((![r 0, r 1, r 2], ![r 3, r 4, r 5]), decide (inlier > 0))

end Ubitrack.ToolTip
