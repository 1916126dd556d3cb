import Verif.Spec.LinearCalibration
import Verif.Spec.Assignment

/-!
# Specification: corresponding points of two images
-/

namespace Ubitrack.Spec

/-- The point `y` of the second image is on the epipolar line of the point `x` of the first image. -/
def OnEpipolarLine (F : Mat ℝ 3 3) (x y : Vec ℝ 2) : Prop := homogeneous y ⬝ᵥ F.mulVec (homogeneous x) = 0

/-- `d` is the squared distance of `y` to the epipolar line of `x`. -/
def IsLineDistance (F : Mat ℝ 3 3) (x y : Vec ℝ 2) (d : ℝ) : Prop :=
  (∀ z, OnEpipolarLine F x z → d ≤ (z 0 - y 0) ^ 2 + (z 1 - y 1) ^ 2) ∧
    ∃ z, OnEpipolarLine F x z ∧ d = (z 0 - y 0) ^ 2 + (z 1 - y 1) ^ 2

/-- The epipolar line of `x` is a line of the image: not the line at infinity, and `x` is not the epipole. -/
def HasEpipolarLine (F : Mat ℝ 3 3) (x : Vec ℝ 2) : Prop :=
  F.mulVec (homogeneous x) 0 ≠ 0 ∨ F.mulVec (homogeneous x) 1 ≠ 0

/-- `F` is a fundamental matrix of the two cameras: the two images of a point satisfy the epipolar constraint. -/
def IsFundamental (P1 P2 : Mat ℝ 3 4) (F : Mat ℝ 3 3) : Prop :=
  ∀ X x y, MapsTo P1 X x → MapsTo P2 X y → (P1.mulVec (homogeneous X) ≠ 0) → (P2.mulVec (homogeneous X) ≠ 0) →
    OnEpipolarLine F x y

end Ubitrack.Spec
