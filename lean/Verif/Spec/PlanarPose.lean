import Verif.Spec.Rotation
import Verif.Model.Pose
import Mathlib.LinearAlgebra.CrossProduct

/-!
# Images of points, and the singular value decomposition with square factors
-/

namespace Ubitrack.Spec

open scoped Matrix

/-- The point in front of the lens: coordinates of the world point `x` in the camera, multiplied with the camera matrix. -/
def seen (K : Mat ℝ 3 3) (p : Pose ℝ) (x : Vec ℝ 3) : Vec ℝ 3 := K *ᵥ (p.rotation.rotate x + p.translation)

/-- The image of a world point in a camera with matrix `K` whose pose (world to camera) is `p`. -/
noncomputable def image (K : Mat ℝ 3 3) (p : Pose ℝ) (x : Vec ℝ 3) : Vec ℝ 2 :=
  ![seen K p x 0 / seen K p x 2, seen K p x 1 / seen K p x 2]

/-- The same pose: the same translation and the same rotation (the quaternion up to its sign). -/
def SamePose (p q : Pose ℝ) : Prop := SameRotation p.rotation q.rotation ∧ p.translation = q.translation

/-- LAPACK `gesvd('A', 'A', ...)` on a matrix with at least as many rows as columns: both factors are orthogonal, the values
non-negative and in descending order, and the product with the values on the diagonal is the matrix. -/
def FullSVD {n m : ℕ} (gesvd : Mat ℝ n m → Vec ℝ m × Mat ℝ n n × Mat ℝ m m) : Prop :=
  ∀ A, Antitone (gesvd A).1 ∧ (∀ i, 0 ≤ (gesvd A).1 i) ∧ (gesvd A).2.1ᵀ * (gesvd A).2.1 = 1 ∧
    (gesvd A).2.2 * (gesvd A).2.2ᵀ = 1 ∧
    A = (gesvd A).2.1 * (Matrix.of fun i j => if i.val = j.val then (gesvd A).1 j else 0) * (gesvd A).2.2

/-- The sum of the squared distances between the measured points and the images of the world points. -/
noncomputable def squaredImageError (K : Mat ℝ 3 3) (p : Pose ℝ) (p2d : List (Vec ℝ 2)) (p3d : List (Vec ℝ 3)) : ℝ :=
  ((p3d.zip p2d).map fun a => (image K p a.1 0 - a.2 0) ^ 2 + (image K p a.1 1 - a.2 1) ^ 2).sum

open Quaternion in
/-- The product `q v q*` of quaternions: for a quaternion of any length, the rotation times the square of the length. -/
noncomputable def sandwich (q : Quat ℝ) (v : Vec ℝ 3) : Vec ℝ 3 :=
  ![(toH q * pure v * star (toH q)).imI, (toH q * pure v * star (toH q)).imJ, (toH q * pure v * star (toH q)).imK]

/-- Three points of space lie on a line. -/
def Collinear3 (a b c : Vec ℝ 3) : Prop := crossProduct (b - a) (c - a) = 0

/-- Four points of space lie in a plane. -/
def Coplanar4 (a b c d : Vec ℝ 3) : Prop := crossProduct (b - a) (c - a) ⬝ᵥ (d - a) = 0

end Ubitrack.Spec
