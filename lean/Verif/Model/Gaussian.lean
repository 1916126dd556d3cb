import Verif.Model.Quaternion
import Mathlib.LinearAlgebra.Matrix.NonsingularInverse
import Mathlib.Analysis.SpecialFunctions.Log.Basic
import Mathlib.Analysis.SpecialFunctions.Pow.Real

/-!
# Gaussian distributions, Mahalanobis distance and expectation maximization

src/utMath/Stochastic/Gaussian.h, MahalanobisDistance.h and expectation_maximization.h, with real numbers. The array
`covariance` of `N * N` numbers is a matrix: entry `(a, b)` is the element `a*N+b`. The functors for the determinant and the
inverse (src/utMath/Functors/MatrixFunctors.h) are Mathlib's determinant and inverse; C48 and C60 show that they compute these.
`none` stands for a result that is not a number, a thrown exception, or a logarithm of zero.
-/

namespace Ubitrack.Gaussian

/-- `struct Gaussian`, src/utMath/Stochastic/Gaussian.h l.38-61. -/
structure Gaussian (N : ℕ) where
  mean : Vec ℝ N
  covariance : Mat ℝ N N
  variance : ℝ
  standardDeviation : ℝ

/-- `reset`, Gaussian.h l.64-71. -/
def reset (N : ℕ) : Gaussian N := ⟨0, 0, 0, 0⟩

/-- The two inner loops of the covariance, Gaussian.h l.96-98 (and l.135-137, l.205-207 with weight one): for `i1 ≤ i2` the element
`(i1, i2)` is increased and copied to `(i2, i1)`. Every pair of indices is visited once, so the loops are one function. -/
def addOuter {N : ℕ} (mean : Vec ℝ N) (covariance : Mat ℝ N N) (weight : ℝ) (value : Vec ℝ N) : Mat ℝ N N :=
  Matrix.of fun a b =>
    let i1 := min a b
    let i2 := max a b
    covariance i1 i2 + weight * (value i1 - mean i1) * (value i2 - mean i2)

/-- The sum of the diagonal elements and its root, Gaussian.h l.101-106, l.145-150 and l.213-219. -/
noncomputable def setVariance {N : ℕ} (g : Gaussian N) : Gaussian N :=
  let variance := (List.finRange N).foldl (fun s i => s + g.covariance i i) g.variance
  { g with variance := variance, standardDeviation := Real.sqrt variance }

/-- `estimate_gaussian` with weights, Gaussian.h l.74-108; the list holds the weights and the values. The result is the boolean and
the distribution. -/
noncomputable def estimateWeighted {N : ℕ} (l : List (ℝ × Vec ℝ N)) : Bool × Gaussian N :=
  let g := reset N
  let mean := l.foldl (fun m p => fun i => m i + p.1 * p.2 i) g.mean
  if l.length < 1 then (false, { g with mean := mean })
  else
    let covariance := l.foldl (fun c p => addOuter mean c p.1 p.2) g.covariance
    (true, setVariance { g with mean := mean, covariance := covariance })

/-- `estimate_gaussian` without weights, Gaussian.h l.110-152. -/
noncomputable def estimate {N : ℕ} (l : List (Vec ℝ N)) : Bool × Gaussian N :=
  let g := reset N
  let sum := l.foldl (fun m x => fun i => m i + x i) g.mean
  if l.length < 1 then (false, { g with mean := sum })
  else
    let mean : Vec ℝ N := fun i => sum i / l.length
    let covariance := l.foldl (fun c x => addOuter mean c 1 x) g.covariance
    (true, setVariance { g with mean := mean, covariance := Matrix.of fun a b => covariance a b / l.length })

/-- `estimate_gaussian_index`, Gaussian.h l.181-221; the list holds the values and their indices. `none`: the number of values with
the index is zero, so that the mean is not a number. -/
noncomputable def estimateIndex {N : ℕ} {I : Type*} [DecidableEq I] (l : List (Vec ℝ N × I)) (comp : I) : Option (Bool × Gaussian N) :=
  let g := reset N
  let r := l.foldl (fun (s : Vec ℝ N × ℕ) p => if p.2 = comp then (fun i => s.1 i + p.1 i, s.2 + 1) else s) (g.mean, 0)
  let count := r.2
  if count = 0 then none
  else
    let mean : Vec ℝ N := fun i => r.1 i / count
    let covariance := l.foldl (fun c p => if p.2 = comp then addOuter mean c 1 p.1 else c) g.covariance
    some (true, setVariance { g with mean := mean, covariance := Matrix.of fun a b => covariance a b / count })

/-- The loops that multiply the difference vector with the inverse covariance from both sides, MahalanobisDistance.h l.78-95 and
expectation_maximization.h l.98-111. -/
def quadratic {N : ℕ} (inv : Mat ℝ N N) (mean vec : Vec ℝ N) : ℝ :=
  let value : Vec ℝ N := fun i => vec i - mean i
  let sol : Vec ℝ N := fun i1 => (List.finRange N).foldl (fun s i2 => s + inv i1 i2 * value i2) 0
  (List.finRange N).foldl (fun s i => s + sol i * value i) 0

/-- `MahalanobisDistance`: the constructor and the call, MahalanobisDistance.h l.55-98. `none`: the constructor throws because the
determinant is zero, or the root of a negative number. -/
noncomputable def mahalanobis {N : ℕ} (g : Gaussian N) (vec : Vec ℝ N) : Option ℝ :=
  let det := g.covariance.det
  if det = 0 then none
  else
    let d := quadratic g.covariance⁻¹ g.mean vec
    if d < 0 then none else some (Real.sqrt d)

/-! ## Expectation maximization -/

/-- `Weighted< Gaussian >`, src/utMath/Stochastic/Weighted.h l.57-105. -/
structure Weighted (N : ℕ) where
  gaussian : Gaussian N
  weight : ℝ

/-- The constant and the matrix computed by the constructor of `Probability`, expectation_maximization.h l.63-89. -/
noncomputable def probabilityConstant {N : ℕ} (g : Gaussian N) : ℝ × Mat ℝ N N :=
  let det := g.covariance.det
  if |det| > 1e-10 then
    (1 / Real.sqrt ((2 * 3.14159 : ℝ) ^ ((N : ℝ) * 0.5) * |det|), g.covariance⁻¹)
  else (0, g.covariance)

/-- `Probability::operator()`, expectation_maximization.h l.91-116. -/
noncomputable def probability {N : ℕ} (g : Gaussian N) (vec : Vec ℝ N) : ℝ :=
  let c := probabilityConstant g
  if c.1 = 0 then 0 else c.1 * Real.exp (-0.5 * quadratic c.2 g.mean vec)

/-- `log_likelihood`, expectation_maximization.h l.119-145; `none`: no values, or a logarithm of a number that is not positive. -/
noncomputable def logLikelihood {N : ℕ} (gs : List (Weighted N)) (values : List (Vec ℝ N)) : Option ℝ :=
  let sums := values.map fun v => gs.foldl (fun s g => s + g.weight * probability g.gaussian v) 0
  if values.length = 0 ∨ ∃ s ∈ sums, s ≤ 0 then none
  else some ((sums.map Real.log).foldl (· + ·) 0 / values.length)

/-- One pass through the expectation and the maximization step, expectation_maximization.h l.209-251; `none`: a division by a norm
that is zero. The norms are zero at the beginning (l.190, l.269). -/
noncomputable def emStep {N : ℕ} (gs : List (Weighted N)) (values : List (Vec ℝ N)) : Option (List (Weighted N)) :=
  let gamma (g : Weighted N) (v : Vec ℝ N) : ℝ := g.weight * probability g.gaussian v
  let norm (v : Vec ℝ N) : ℝ := gs.foldl (fun s g => s + gamma g v) 0
  if ∃ v ∈ values, norm v = 0 then none
  else some (gs.map fun g =>
    let gammas := values.map fun v => gamma g v / norm v
    let summe := gammas.foldl (· + ·) 0
    if summe = 0 then { g with weight := 0 }
    else
      let scaled := gammas.map fun x => x * (1 / summe)
      { gaussian := (estimateWeighted (scaled.zip values)).2, weight := summe / values.length })

/-- The loop of `expectation_maximization`, expectation_maximization.h l.204-275, with the number of passes that are left. The
result is the returned likelihood and the distributions. -/
noncomputable def emLoop {N : ℕ} (values : List (Vec ℝ N)) : ℕ → List (Weighted N) → ℝ → Option (ℝ × List (Weighted N))
  | 0, gs, likelihood => some (likelihood, gs)
  | k + 1, gs, likelihood => do
    let gs' ← emStep gs values
    let newLikelihood ← logLikelihood gs' values
    if |likelihood - newLikelihood| < 1e-5 * |likelihood| then return (newLikelihood, gs')
    emLoop values k gs' newLikelihood

/-- `expectation_maximization`, expectation_maximization.h l.161-276. -/
noncomputable def expectationMaximization {N : ℕ} (gs : List (Weighted N)) (values : List (Vec ℝ N)) :
    Option (ℝ × List (Weighted N)) := do
  let likelihood ← logLikelihood gs values
  emLoop values 100 gs likelihood

end Ubitrack.Gaussian
