import Verif.Model.Pose
import Verif.Spec.Solver
import Mathlib.LinearAlgebra.CrossProduct

/-!
# Hand-eye calibration from pairs of poses
-/

namespace Ubitrack.Spec

/-- LAPACK `gels` for a caller that ignores its status: on a system with independent columns the result minimises the squared
residual; on other systems the result is anything. -/
def SolvesFullRank {n : ℕ} (gels : List (Vec ℝ n × ℝ) → Vec ℝ n) : Prop :=
  ∀ rows, FullRank rows → ∀ y, systemError rows (gels rows) ≤ systemError rows y

/-- The pairs of pose numbers below `n` that the calibration compares: all pairs, or only neighbours. -/
def UsedPair (n : ℕ) (useAllPairs : Bool) (i k : ℕ) : Prop := i < k ∧ k < n ∧ (useAllPairs = false → k = i + 1)

/-- The rotation of the hand from its pose `i` to its pose `k`. -/
def handTurn {n : ℕ} (hand : Fin n → Pose ℝ) (i k : Fin n) : Quat ℝ := (hand k).rotation.conj.mul (hand i).rotation

/-- The axis of a rotation, of any length. -/
def axis (q : Quat ℝ) : Vec ℝ 3 := ![q.x, q.y, q.z]

/-- Two of the compared pairs turn the hand about axes that are not parallel. -/
def TwoAxes {n : ℕ} (hand : Fin n → Pose ℝ) (useAllPairs : Bool) : Prop :=
  ∃ i k i' k' : Fin n, UsedPair n useAllPairs i k ∧ UsedPair n useAllPairs i' k' ∧
    crossProduct (axis (handTurn hand i k)) (axis (handTurn hand i' k')) ≠ 0

/-- The camera is mounted on the hand with the pose `X`, and the camera always looks at the same fixed object. -/
def RigidlyMounted {n : ℕ} (hand eye : Fin n → Pose ℝ) (X : Pose ℝ) : Prop :=
  ∃ W, ∀ i, (hand i).toMatrix4 * X.toMatrix4 * (eye i).toMatrix4 = W

end Ubitrack.Spec
