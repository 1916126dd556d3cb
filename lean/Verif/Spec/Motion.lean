import Verif.Spec.Rotation
import Mathlib.Analysis.Normed.Algebra.QuaternionExponential
import Mathlib.Analysis.Calculus.IteratedDeriv.Defs
import Mathlib.Data.Nat.Factorial.Basic

/-!
# Specification: motions and the layout of the state vector

The state vector holds `np` 3-vectors (position and its time derivatives), then, if `nr > 0`, an orientation quaternion
`x, y, z, w` and `nr - 1` 3-vectors (angular velocity and its time derivatives).
-/

namespace Ubitrack.Spec

/-- The motion with value and derivatives `d 0, d 1, .., d (n-1)` at time 0 and no further derivatives. -/
noncomputable def polyMotion (n : ℕ) (d : ℕ → ℝ) (t : ℝ) : ℝ := ∑ m ∈ Finset.range n, t ^ m / (m.factorial : ℝ) * d m

/-- The orientation reached from `q` by turning with the constant angular velocity `w` (in the rotating frame) for the time
`t`: `q exp( t w / 2 )`. -/
noncomputable def turnedBy (q : Quat ℝ) (w : Vec ℝ 3) (t : ℝ) : Quaternion ℝ := toH q * NormedSpace.exp ((t / 2) • pure w)

/-- The parts of a state vector. -/
inductive Part where
  | position (derivative : ℕ)
  | orientation (derivative : ℕ)
deriving DecidableEq

/-- Which part of the state vector an index belongs to. -/
def partOf (np i : ℕ) : Part :=
  if i < 3 * np then .position (i / 3)
  else if i < 3 * np + 4 then .orientation 0
  else .orientation ((i - (3 * np + 4)) / 3 + 1)

end Ubitrack.Spec
