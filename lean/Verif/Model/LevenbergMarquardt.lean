import Verif.Model.Quaternion

/-!
# Levenberg-Marquardt, Gauss-Newton and the termination criterion

Models `utMath/Optimization/LevenbergMarquardt.h`, `GaussNewton.h`, `Optimization.h` and
`TukeyWeightFunction.h`, over exact reals (no rounding, no NaN).
-/

namespace Ubitrack.LM

open scoped Matrix

variable {n m : ℕ}

/-- The problem class: `evaluateWithJacobian` writes the predicted measurement and its Jacobian, for any
parameters. Models the requirement in LevenbergMarquardt.h l.67-69. -/
abbrev Problem (n m : ℕ) := Vec ℝ n → Vec ℝ m × Mat ℝ m n

/-- `LmSolverType`, LevenbergMarquardt.h l.61. -/
inductive Solver | cholesky | qr | svd
  deriving DecidableEq

/-- The three lapack routines (l.151 `posv`, l.160 `gels`, l.168 `gelss`): given matrix and right-hand
side, `none` for a non-zero `info`, otherwise the vector left in `paramDiff`. Nothing is assumed about the
vector: it stands for every behaviour of the linear solver. The model passes the full matrix where
the code fills only the lower triangle for Cholesky (l.137, `syrk('L', …)`, which `posv('L', …)` reads). -/
abbrev Lapack (n : ℕ) := Solver → Mat ℝ n n → Vec ℝ n → Option (Vec ℝ n)

/-- The weight function: `none` for `noWeights()`, otherwise `computeWeights`. l.111-114. -/
abbrev Weight (m : ℕ) := Option (Vec ℝ m → Vec ℝ m)

/-- The measurement difference, multiplied with the square root of the weights, l.107 and l.111-122
(and l.186-200). -/
noncomputable def weightedDiff (wf : Weight m) (d : Vec ℝ m) : Vec ℝ m :=
  match wf with
  | none => d
  | some w => fun i => d i * Real.sqrt (w d i)

/-- The Jacobian, rows multiplied with the square root of the weights, l.119 and l.197. -/
noncomputable def weightedJac (wf : Weight m) (d : Vec ℝ m) (J : Mat ℝ m n) : Mat ℝ m n :=
  match wf with
  | none => J
  | some w => fun i j => J i j * Real.sqrt (w d i)

/-- `ublas::inner_prod( d, d )`, l.124 and l.202. -/
def innerSelf (d : Vec ℝ m) : ℝ := ∑ i, d i * d i

/-- The local variables of `weightedLevenbergMarquardt` that live across iterations, l.80-130:
`params`, `*pJacobian`, `*pMeasurementDiff`, `fErrPrev`, `fLambda`, `iteration`, `solver`. -/
structure St (n m : ℕ) where
  params : Vec ℝ n
  jacobian : Mat ℝ m n
  diff : Vec ℝ m
  errPrev : ℝ
  lambda : ℝ
  iteration : ℕ
  solver : Solver

/-- Everything the function is called with, l.80-84. -/
structure Call (n m : ℕ) where
  problem : Problem n m
  measurement : Vec ℝ m
  /-- `terminationCriteria( iteration, fErr, fErrPrev )` -/
  terminate : ℕ → ℝ → ℝ → Bool
  normalize : Vec ℝ n → Vec ℝ n
  weight : Weight m
  solver : Solver
  stepSize : ℝ
  stepFactor : ℝ
  lapack : Lapack n

/-- Initial error and state, l.105-130. -/
noncomputable def init (c : Call n m) (params : Vec ℝ n) : St n m :=
  let e := c.problem params
  let d := c.measurement - e.1
  let diff := weightedDiff c.weight d
  { params := params
    jacobian := weightedJac c.weight d e.2
    diff := diff
    errPrev := innerSelf diff
    lambda := c.stepSize
    iteration := 0
    solver := c.solver }

/-- What an iteration of the loop ends with. -/
inductive Outcome (σ : Type)
  | throws
  | next (s : σ) (bTerminate : Bool)

/-- The normal equations matrix with lambda on the diagonal, l.136-145. -/
def normalMatrix (s : St n m) : Mat ℝ n n :=
  s.jacobianᵀ * s.jacobian + Matrix.diagonal (fun _ => s.lambda)

/-- The right-hand side, l.141. -/
def rhs (s : St n m) : Vec ℝ n := s.jacobianᵀ *ᵥ s.diff

/-- Trial parameters, their evaluation, termination test and update, l.179-225. `s` already has the
incremented iteration number. -/
noncomputable def evaluateStep (c : Call n m) (s : St n m) (paramDiff : Vec ℝ n) : Outcome (St n m) :=
  let newParams := c.normalize (s.params + paramDiff)
  let e := c.problem newParams
  let d := c.measurement - e.1
  let jacobian2 := weightedJac c.weight d e.2
  let diff2 := weightedDiff c.weight d
  let fErr := innerSelf diff2
  let bTerminate := c.terminate s.iteration fErr s.errPrev
  if fErr ≥ s.errPrev then
    .next { s with lambda := s.lambda * c.stepFactor } bTerminate
  else
    .next { s with
      lambda := s.lambda / c.stepFactor
      params := newParams
      diff := diff2
      jacobian := jacobian2
      errPrev := fErr } bTerminate

/-- One pass through the loop body, l.132-226. -/
noncomputable def step (c : Call n m) (s : St n m) : Outcome (St n m) :=
  let s := { s with iteration := s.iteration + 1 }
  match c.lapack s.solver (normalMatrix s) (rhs s) with
  | some paramDiff => evaluateStep c s paramDiff
  | none =>
    match s.solver with
    | .cholesky => .next { s with solver := .svd } false
    | _ => .throws

/-- The loop, l.131-226, with a bound on the passes: `none` when it has not stopped by then. Otherwise the
state at the end of the loop and whether it was left by an exception. -/
noncomputable def loop (c : Call n m) : ℕ → St n m → Option (St n m × Bool)
  | 0, _ => none
  | fuel + 1, s =>
    match step c s with
    | .throws => some (s, true)
    | .next s' true => some (s', false)
    | .next s' false => loop c fuel s'

/-- `weightedLevenbergMarquardt`, l.80-229: `params` on exit and the return value (`none`: thrown). The
outer `none`: not finished within `fuel` passes. -/
noncomputable def levenbergMarquardt (c : Call n m) (params : Vec ℝ n) (fuel : ℕ) :
    Option (Vec ℝ n × Option ℝ) :=
  match loop c fuel (init c params) with
  | none => none
  | some (s, true) => some (s.params, none)
  | some (s, false) => some (s.params, some s.errPrev)

/-- `OptTerminate::operator()`, Optimization.h l.72-76. -/
noncomputable def optTerminate (maxIterations : ℕ) (precision : ℝ) (iterations : ℕ) (resPrev resNow : ℝ) : Bool :=
  open Classical in
  decide ((maxIterations > 0 ∧ iterations ≥ maxIterations) ∨
    (precision ≠ 0 ∧ |resPrev - resNow| < precision * resNow))

/-- `TukeyWeightFunction::computeWeights`, TukeyWeightFunction.h l.60-75: the weight of one measurement as
function of its squared error. -/
noncomputable def tukeyWeight (c e : ℝ) : ℝ :=
  if e ≠ 0 then
    let ro := if ¬ e > c * c then c ^ 2 / 6 * (1 - (1 - e / (c * c)) ^ 3) else c * c / 6
    Real.sqrt ro / ro
  else 0

end Ubitrack.LM
