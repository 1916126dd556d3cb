import Verif.Model.Quaternion
import Mathlib.Analysis.SpecialFunctions.Trigonometric.Basic
import Mathlib.LinearAlgebra.CrossProduct

/-!
# Turning a point about an axis
-/

namespace Ubitrack.Spec
open scoped Matrix

/-- Rodrigues' formula: the point `v` after a right-handed turn by the angle `θ` about the unit axis `n`. -/
noncomputable def turn (n : Vec ℝ 3) (θ : ℝ) (v : Vec ℝ 3) : Vec ℝ 3 :=
  Real.cos θ • v + Real.sin θ • crossProduct n v + ((1 - Real.cos θ) * (n ⬝ᵥ v)) • n

/-- The coordinate axes. -/
def axisX : Vec ℝ 3 := ![1, 0, 0]
@[inherit_doc axisX] def axisY : Vec ℝ 3 := ![0, 1, 0]
@[inherit_doc axisX] def axisZ : Vec ℝ 3 := ![0, 0, 1]

/-- The turn described by a rotation vector: about its direction, by its length. -/
noncomputable def turnVector (r : Vec ℝ 3) (v : Vec ℝ 3) : Vec ℝ 3 :=
  if r = 0 then v else turn (fun i => r i / Real.sqrt (r ⬝ᵥ r)) (Real.sqrt (r ⬝ᵥ r)) v

/-- Three turns about fixed axes one after the other: first about `a` by `α`, then about `b` by `β`, then about `c` by `γ`. -/
noncomputable def threeTurns (a b c : Vec ℝ 3) (angles : Vec ℝ 3) (v : Vec ℝ 3) : Vec ℝ 3 :=
  turn c (angles 2) (turn b (angles 1) (turn a (angles 0) v))

end Ubitrack.Spec
