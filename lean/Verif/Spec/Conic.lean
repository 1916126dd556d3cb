import Verif.Model.Quaternion
import Mathlib.Analysis.Complex.Trigonometric

/-!
# Specification: conics and ellipsoids as sets of points
-/

namespace Ubitrack.Spec

/-- The six coefficients `(a, b, c, d, e, f)` stand for the polynomial `a x² + b x y + c y² + d x + e y + f`. -/
def conicAt {K : Type*} [CommRing K] (v : Vec K 6) (x y : K) : K := v 0 * x ^ 2 + v 1 * (x * y) + v 2 * y ^ 2 + v 3 * x + v 4 * y + v 5

/-- The point `(x, y)` lies on the conic. -/
def OnConic {K : Type*} [CommRing K] (v : Vec K 6) (x y : K) : Prop := conicAt v x y = 0

/-- The derivative of the polynomial in x, and in y. -/
def gradient {K : Type*} [CommRing K] (v : Vec K 6) (x y : K) : K × K := (2 * v 0 * x + v 1 * y + v 3, v 1 * x + 2 * v 2 * y + v 4)

/-- A direction in which the conic goes to infinity: the quadratic part vanishes. -/
def Asymptotic (v : Vec ℝ 6) (x y : ℝ) : Prop := (x ≠ 0 ∨ y ≠ 0) ∧ v 0 * x ^ 2 + v 1 * (x * y) + v 2 * y ^ 2 = 0

/-- The point `(x : y : w)` in homogeneous coordinates, at infinity for `w = 0`, is a singular point of the conic: all three derivatives
of the homogeneous polynomial vanish there. The conic is a pair of lines crossing in it (possibly complex, or one line twice). -/
def Singular (v : Vec ℝ 6) (x y w : ℝ) : Prop :=
  (x ≠ 0 ∨ y ≠ 0 ∨ w ≠ 0) ∧ 2 * v 0 * x + v 1 * y + v 3 * w = 0 ∧ v 1 * x + 2 * v 2 * y + v 4 * w = 0 ∧
    v 3 * x + v 4 * y + 2 * v 5 * w = 0

/-- The coordinate of `(x, y)` along an axis through `p` in the direction of the angle `θ`. -/
noncomputable def alongFirst (p : Vec ℝ 2) (θ x y : ℝ) : ℝ := (x - p 0) * Real.cos θ + (y - p 1) * Real.sin θ

/-- The coordinate along the axis perpendicular to it. -/
noncomputable def alongSecond (p : Vec ℝ 2) (θ x y : ℝ) : ℝ := -(x - p 0) * Real.sin θ + (y - p 1) * Real.cos θ

/-- The surface of an axis-parallel ellipsoid with semi-axes `(s 0, s 1, s 2)` around `(s 3, s 4, s 5)`. -/
def OnEllipsoid (s : Vec ℝ 6) (x : Vec ℝ 3) : Prop :=
  ((x 0 - s 3) / s 0) ^ 2 + ((x 1 - s 4) / s 1) ^ 2 + ((x 2 - s 5) / s 2) ^ 2 = 1

/-- The plane `n·x + d = 0`, for `p = (n, d)`, touches the ellipsoid in the point `x`: the point is on the surface and on the plane,
and all of the surface is on one side of the plane. -/
def TouchesEllipsoidAt (s : Vec ℝ 6) (p : Vec ℝ 4) (x : Vec ℝ 3) : Prop :=
  OnEllipsoid s x ∧ p 0 * x 0 + p 1 * x 1 + p 2 * x 2 + p 3 = 0 ∧
  ((∀ z, OnEllipsoid s z → 0 ≤ p 0 * z 0 + p 1 * z 1 + p 2 * z 2 + p 3) ∨
   (∀ z, OnEllipsoid s z → p 0 * z 0 + p 1 * z 1 + p 2 * z 2 + p 3 ≤ 0))

end Ubitrack.Spec
