import Verif.Spec.Rotation

/-!
# Specification vocabulary for point-set alignment
-/

namespace Ubitrack.Spec
open scoped Matrix

/-- Sum of the squared distances between the left points and the moved right points. -/
def alignError (left right : List (Vec ℝ 3)) (move : Vec ℝ 3 → Vec ℝ 3) : ℝ :=
  ((left.zip right).map fun p => lenSq (p.1 - move p.2)).sum

/-- A proper rotation matrix. -/
def IsRotation (R : Mat ℝ 3 3) : Prop := Rᵀ * R = 1 ∧ R.det = 1

/-- The mean of a non-empty list of points. -/
noncomputable def mean (points : List (Vec ℝ 3)) : Vec ℝ 3 := fun i => points.sum i / points.length

/-- Three of the points are not on one line. -/
def NotCollinear (points : List (Vec ℝ 3)) : Prop :=
  ∃ a ∈ points, ∃ b ∈ points, ∃ c ∈ points, crossProduct (b - a) (c - a) ≠ 0

end Ubitrack.Spec
