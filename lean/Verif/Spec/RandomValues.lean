import Verif.Model.RandomValues
import Mathlib.MeasureTheory.Measure.Lebesgue.Basic

/-! # Specification: random values -/

namespace Ubitrack.RandomValues.Spec

open MeasureTheory

/-- The three numbers from which a rotation is made: each from 0 to 1. -/
def cube : Set (ℝ × ℝ × ℝ) := Set.Ico 0 1 ×ˢ Set.Ico 0 1 ×ˢ Set.Ico 0 1

/-- The probability of an event that depends on a random rotation, when the three numbers are independent and uniformly distributed. -/
noncomputable def probability (event : Quat ℝ → Prop) : ENNReal := volume {t : ℝ × ℝ × ℝ | t ∈ cube ∧ event (quaternionOf t.1 t.2.1 t.2.2)}

/-- An event is described by a Borel set of quaternions, as vectors (x, y, z, w). -/
def Measurable (event : Quat ℝ → Prop) : Prop := MeasurableSet {v : Vec ℝ 4 | event ⟨v 0, v 1, v 2, v 3⟩}

end Ubitrack.RandomValues.Spec
