import Verif.Model.Containers
import Mathlib.Analysis.InnerProductSpace.PiL2
import Mathlib.Geometry.Euclidean.Angle.Unoriented.Basic

/-!
# Opening angles of a camera
-/

namespace Ubitrack.Spec

/-- The direction of the ray through the pixel with offset `(u, v)` from the image centre, for a camera without skew whose
principal point is the image centre and whose focal lengths are `f0` and `f1` pixels. -/
noncomputable def ray (f0 f1 u v : ℝ) : EuclideanSpace ℝ (Fin 3) := !₂[u / f0, v / f1, 1]

/-- The angle between two directions in degrees. -/
noncomputable def degrees (p q : EuclideanSpace ℝ (Fin 3)) : ℝ := InnerProductGeometry.angle p q * 180 / Real.pi

/-- The intrinsics say how many radial parameters there are, the others are zero and the type fits the number. -/
structure Consistent {K : Type*} [Zero K] (c : CameraIntrinsics K) : Prop where
  type : (c.radialSize = 2 ∧ c.calibType = 1) ∨ (c.radialSize = 3 ∧ c.calibType = 2) ∨ (c.radialSize = 4 ∧ c.calibType = 4) ∨
    (c.radialSize = 6 ∧ c.calibType = 3)
  unused : ∀ i : Fin 6, c.radialSize ≤ i.val → c.radialParams i = 0

end Ubitrack.Spec
