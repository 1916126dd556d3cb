import Verif.Model.Quaternion
import Mathlib.Data.Real.Basic

/-!
# Gauss-Newton optimization and numerical Jacobians

`src/utMath/Optimization/GaussNewton.h` and `src/utMath/Optimization/Function/DiscreteJacobianApproximation.h`. `double` is exact
reals. LAPACK's `gels` is a parameter that gets the rows of the matrix with the right-hand sides.
-/

namespace Ubitrack.GaussNewton

open scoped Matrix

variable {m n : ℕ}

/-- A problem: what `evaluateWithJacobian` stores, the estimated measurement and the Jacobian; `none` if it cannot. -/
abbrev Problem (m n : ℕ) := Vec ℝ n → Option (Vec ℝ m × Mat ℝ m n)

/-- One pass of the loop of `gaussNewton`, GaussNewton.h l.86-114. The residual `fRes` is only logged. `none`: the status of
`gels` is not zero (exception), or the problem could not be evaluated. -/
def step (gels : List (Vec ℝ n × ℝ) → Option (Vec ℝ n)) (problem : Problem m n) (measurement : Vec ℝ m)
    (normalize : Vec ℝ n → Vec ℝ n) (params : Vec ℝ n) : Option (Vec ℝ n) := do
  let (estimatedMeasurement, matJacobian) ← problem params
  let measurementDiff := measurement - estimatedMeasurement
  let matJacobiSquare := matJacobianᵀ * matJacobian
  let paramDiff := matJacobianᵀ *ᵥ measurementDiff
  let paramDiff ← gels ((List.finRange n).map fun i => (matJacobiSquare i, paramDiff i))
  some (normalize (params + paramDiff))

/-- `gaussNewton`, GaussNewton.h l.68-115: the parameters afterwards. -/
def gaussNewton (gels : List (Vec ℝ n × ℝ) → Option (Vec ℝ n)) (problem : Problem m n) (measurement : Vec ℝ m)
    (normalize : Vec ℝ n → Vec ℝ n) : (nIterations : ℕ) → Vec ℝ n → Option (Vec ℝ n)
  | 0, params => some params
  | k + 1, params => do
    let params ← step gels problem measurement normalize params
    gaussNewton gels problem measurement normalize k params

/-- The distance of the differencing points, DiscreteJacobianApproximation.h l.102-106. -/
noncomputable def eps (width x : ℝ) : ℝ := if x ≠ 0 then x * width else width

/-- The loop of `evaluateWithJacobian`, DiscreteJacobianApproximation.h l.99-117, over the columns that are left. The state is
`testInput` and the matrix. `none`: division by zero. -/
noncomputable def discreteLoop (f : Vec ℝ n → Vec ℝ m) (width : ℝ) (input : Vec ℝ n) (result : Vec ℝ m) :
    List (Fin n) → Vec ℝ n → Mat ℝ m n → Option (Mat ℝ m n)
  | [], _, J => some J
  | i :: rest, testInput, J =>
    let eps := eps width (testInput i)
    let testInput := Function.update testInput i (input i + eps)
    let testResult := f testInput
    if eps = 0 then none
    else
      let J : Mat ℝ m n := fun r c => if c = i then (testResult r - result r) / eps else J r c
      discreteLoop f width input result rest (Function.update testInput i (input i)) J

/-- `evaluateWithJacobian`, DiscreteJacobianApproximation.h l.88-118; `J` is the matrix of the caller. -/
noncomputable def discreteJacobian (f : Vec ℝ n → Vec ℝ m) (width : ℝ) (input : Vec ℝ n) (J : Mat ℝ m n) :
    Option (Vec ℝ m × Mat ℝ m n) :=
  let result := f input
  (discreteLoop f width input result (List.finRange n) input J).map fun J => (result, J)

end Ubitrack.GaussNewton
