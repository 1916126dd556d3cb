import Verif.Spec.Rotation
import Mathlib.Analysis.SpecialFunctions.Pow.Real

/-!
# Hand-eye calibration of the rotation
-/

namespace Ubitrack.Spec
open Matrix

/-- The vector part of the representative of a rotation whose scalar part is not negative. -/
noncomputable def axisPart (q : Quat ℝ) : Vec ℝ 3 := if q.w < 0 then ![-q.x, -q.y, -q.z] else ![q.x, q.y, q.z]

/-- The axis of a rotation times the tangent of half its angle. -/
noncomputable def tangent (q : Quat ℝ) : Vec ℝ 3 := ![q.x / q.w, q.y / q.w, q.z / q.w]

/-- Squared deviations of `x` from the equations `r - q = (q + r) × x` of all pairs, with a small term that prefers short vectors. -/
noncomputable def onlineCost (pairs : List (Quat ℝ × Quat ℝ)) (x : Vec ℝ 3) : ℝ :=
  1e-6 * lenSq x + (pairs.map fun p => lenSq (axisPart p.2 - axisPart p.1 - (axisPart p.1 + axisPart p.2) ⨯₃ x)).sum

/-- How strongly the pairs determine the direction `v`. -/
noncomputable def excitation (pairs : List (Quat ℝ × Quat ℝ)) (v : Vec ℝ 3) : ℝ :=
  (pairs.map fun p => lenSq ((axisPart p.1 + axisPart p.2) ⨯₃ v)).sum

/-- The relative rotations of hand and eye belong to the mounting `X`: `q X = X r`, as rotations. -/
def ExactPair (X : Quat ℝ) (p : Quat ℝ × Quat ℝ) : Prop := SameRotation (p.1.mul X) (X.mul p.2)

/-- The inner product of two quaternions: plus or minus one for the same rotation, zero for rotations that differ by a half turn. -/
def inner4 (p q : Quat ℝ) : ℝ := p.x * q.x + p.y * q.y + p.z * q.z + p.w * q.w

end Ubitrack.Spec
