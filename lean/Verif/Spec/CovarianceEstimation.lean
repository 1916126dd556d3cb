import Verif.Spec.BackwardPropagation
import Verif.Model.Pose

/-!
# The covariance of a pose: what it describes and how it depends on the unit of length
-/

namespace Ubitrack.Spec

/-- `n` vectors of length three (or rows of three-row matrices) below each other. -/
def stack3 {n : ℕ} {α : Type*} (f : Fin n → Fin 3 → α) : Fin (3 * n) → α := fun r =>
  f ⟨r.val / 3, by omega⟩ ⟨r.val % 3, by omega⟩

/-- A change of the unit of length: a pose covariance `C` (translation first) becomes `D C D`, because the translation is
multiplied by `c` and the rotation stays the same. -/
def unitChange (c : ℝ) : Mat ℝ (3 + 3) (3 + 3) := Matrix.diagonal (Fin.append (fun _ : Fin 3 => c) (fun _ : Fin 3 => 1))

end Ubitrack.Spec
