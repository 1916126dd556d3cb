import Verif.Model.Quaternion

/-!
# Specification: projections of many points
-/

namespace Ubitrack.Spec

/-- The first two coordinates over the third. -/
noncomputable def dehom (v : Vec ℝ 3) : Vec ℝ 2 := ![v 0 / v 2, v 1 / v 2]

/-- Two numbers for each of `n` measurements, one after the other: elements `2i` and `2i+1` belong to measurement `i`. -/
def stack2 {n : ℕ} {α : Type*} (f : Fin n → Fin 2 → α) : Fin (2 * n) → α := fun r =>
  f ⟨r.val / 2, by omega⟩ ⟨r.val % 2, by omega⟩

/-- Two matrices with the same number of rows, side by side. -/
def hcat {m a b : ℕ} (A : Mat ℝ m a) (B : Mat ℝ m b) : Mat ℝ m (a + b) := fun r => Fin.append (A r) (B r)

/-- Multiplication of a point by a 3x4 camera matrix, in homogeneous coordinates. -/
def camMul (P : Mat ℝ 3 4) (x : Vec ℝ 3) : Vec ℝ 3 := P.mulVec ![x 0, x 1, x 2, 1]

end Ubitrack.Spec
