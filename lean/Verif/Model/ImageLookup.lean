import Mathlib.Data.Real.Basic
import Mathlib.Algebra.Order.Floor.Ring
import Mathlib.Algebra.Order.Archimedean.Real.Basic
import Verif.Model.Quaternion

/-!
# Model: interpolated pixels of an image

src/utMath/Optimization/NewFunction/ImageLookup.h. The number type of the result is modelled by exact reals, the pixel type by its values
(also reals). Lines of the image are `widthStep` bytes apart; here `widthStep` counts pixels, so a line is a whole number of pixels.
-/

namespace Ubitrack.ImageLookup

/-- The fields of the image that are used: size, distance of lines, and the pixels in memory, ImageLookup.h l.49-51, l.73. -/
structure Image where
  width : ℤ
  height : ℤ
  widthStep : ℤ
  imageData : List ℝ

/-- A read from memory, `i[ k ]`. `none`: outside the memory of the image, undefined behaviour. -/
def Image.read (image : Image) (k : ℤ) : Option ℝ :=
  if k < 0 then none else image.imageData[k.toNat]?

/-- `static_cast< int >( std::floor( v ) )`, l.61, l.62, l.84, l.85. `none`: the value does not fit, undefined behaviour. -/
noncomputable def floorInt (v : ℝ) : Option ℤ :=
  if -2 ^ 31 ≤ ⌊v⌋ ∧ ⌊v⌋ < 2 ^ 31 then some ⌊v⌋ else none

/-- `evaluate`, l.57-78. -/
noncomputable def evaluate (image : Image) (p : Vec ℝ 2) : Option ℝ := do
  let x ← floorInt (p 0)
  let y ← floorInt (p 1)
  if x < 0 ∨ x ≥ image.width - 1 ∨ y < 0 ∨ y ≥ image.height - 1 then
    return 0
  let dx := p 0 - x
  let dy := p 1 - y
  let i := y * image.widthStep + x
  let i0 ← image.read i
  let i1 ← image.read (i + 1)
  let a := i0 + dx * (i1 - i0)
  let i := i + image.widthStep
  let i0 ← image.read i
  let i1 ← image.read (i + 1)
  let b := i0 + dx * (i1 - i0)
  return a + dy * (b - a)

/-- The rounding in `multiplyJacobian1`, l.84-90. -/
noncomputable def roundInt (v : ℝ) : Option ℤ := do
  let x ← floorInt v
  return if v - x > 1 / 2 then x + 1 else x

/-- `multiplyJacobian1`, l.80-119: `l` has one column and any number `m + 1` of rows; the result is the destination `j` afterwards. -/
noncomputable def multiplyJacobian1 {m : ℕ} (image : Image) (l : Mat ℝ (m + 1) 1) (j : Mat ℝ (m + 1) 2) (p : Vec ℝ 2) :
    Option (Mat ℝ (m + 1) 2) := do
  let x ← roundInt (p 0)
  let y ← roundInt (p 1)
  if x < 1 ∨ x ≥ image.width - 2 ∨ y < 1 ∨ y ≥ image.height - 2 then
    return Matrix.updateRow j 0 ![0, 0]
  let i := (y - 1) * image.widthStep + x - 1
  let a0 ← image.read i
  let a1 ← image.read (i + 1)
  let a2 ← image.read (i + 2)
  let i := i + image.widthStep
  let b0 ← image.read i
  let b2 ← image.read (i + 2)
  let i := i + image.widthStep
  let c0 ← image.read i
  let c1 ← image.read (i + 1)
  let c2 ← image.read (i + 2)
  let sobX := (a2 - a0) + 2 * (b2 - b0) + (c2 - c0)
  let sobY := -(a0 + 2 * a1 + a2) + (c0 + 2 * c1 + c2)
  return Matrix.updateRow j 0 ![l 0 0 * (sobX / 8), l 0 0 * (sobY / 8)]

end Ubitrack.ImageLookup
