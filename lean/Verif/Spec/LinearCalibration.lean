import Verif.Model.Quaternion

/-!
# Specification: projective maps between points
-/

namespace Ubitrack.Spec

/-- Homogeneous coordinates of a point, `[p 1]`. -/
def homogeneous {n : ℕ} (p : Vec ℝ n) : Vec ℝ (n + 1) := Fin.snoc p 1

/-- In homogeneous coordinates, the matrix sends the point to a multiple of the other point. -/
def MapsTo {m n : ℕ} (H : Mat ℝ (m + 1) (n + 1)) (p : Vec ℝ n) (q : Vec ℝ m) : Prop :=
  ∃ w : ℝ, H.mulVec (homogeneous p) = w • homogeneous q

/-- Three points of the plane lie on a line: the doubled area of their triangle is zero. -/
def Collinear2 (a b c : Vec ℝ 2) : Prop := (b 0 - a 0) * (c 1 - a 1) - (b 1 - a 1) * (c 0 - a 0) = 0

end Ubitrack.Spec
