import Verif.Model.ImageLookup
import Mathlib.Algebra.BigOperators.Group.Finset.Basic

/-!
# Specification: interpolation in a picture
-/

namespace Ubitrack.Spec

/-- The image shows a picture of `w` columns and `h` rows: column `x`, row `y` is found at `y * widthStep + x`. The size fits into the type
`int`. -/
structure Shows (image : ImageLookup.Image) (w h : ℕ) (pic : ℕ → ℕ → ℝ) : Prop where
  width : image.width = w
  height : image.height = h
  width_int : w < 2 ^ 31
  height_int : h < 2 ^ 31
  step : 0 ≤ image.widthStep
  pixel : ∀ x y : ℕ, x < w → y < h → image.imageData[y * image.widthStep.toNat + x]? = some (pic x y)

/-- A roof of height one over the points at distance at most one from zero. -/
noncomputable def tent (t : ℝ) : ℝ := max 0 (1 - |t|)

/-- Bilinear interpolation of a picture of `w` columns and `h` rows: the average of all pixels, weighted by their distance in both
coordinates. -/
noncomputable def bilinear (w h : ℕ) (pic : ℕ → ℕ → ℝ) (p : Vec ℝ 2) : ℝ :=
  ∑ y ∈ Finset.range h, ∑ x ∈ Finset.range w, tent (p 0 - x) * tent (p 1 - y) * pic x y

/-- The point has four neighbours in the picture, the last row and column are not counted. -/
def Inside (w h : ℕ) (p : Vec ℝ 2) : Prop := (0 ≤ p 0 ∧ p 0 < w - 1) ∧ (0 ≤ p 1 ∧ p 1 < h - 1)

/-- The coordinates, rounded down, are values of the type `int`. -/
def FitsInt (p : Vec ℝ 2) : Prop := ∀ i, -2 ^ 31 ≤ p i ∧ p i < 2 ^ 31

/-- `n` is the nearest whole number to `v`, the smaller of two. -/
def Nearest (v : ℝ) (n : ℤ) : Prop := -(1 / 2) < v - n ∧ v - n ≤ 1 / 2

/-- Slope of the picture at a pixel along a row: half the difference of both neighbours, averaged over three rows with weights 1, 2, 1. -/
noncomputable def slopeX (pic : ℕ → ℕ → ℝ) (x y : ℕ) : ℝ :=
  ((pic (x + 1) (y - 1) - pic (x - 1) (y - 1)) / 2 + 2 * ((pic (x + 1) y - pic (x - 1) y) / 2) + (pic (x + 1) (y + 1) - pic (x - 1) (y + 1)) / 2) / 4

/-- The same along a column. -/
noncomputable def slopeY (pic : ℕ → ℕ → ℝ) (x y : ℕ) : ℝ :=
  ((pic (x - 1) (y + 1) - pic (x - 1) (y - 1)) / 2 + 2 * ((pic x (y + 1) - pic x (y - 1)) / 2) + (pic (x + 1) (y + 1) - pic (x + 1) (y - 1)) / 2) / 4

end Ubitrack.Spec
