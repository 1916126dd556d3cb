import Verif.Model.Quaternion
import Mathlib.Algebra.Quaternion
import Mathlib.LinearAlgebra.CrossProduct
import Mathlib.Data.Matrix.Mul

/-!
# Specification vocabulary for rotations

Only uses Mathlib's quaternions `ℍ[K]`, `dotProduct` (`⬝ᵥ`) and `crossProduct`.
-/

namespace Ubitrack.Spec
open Quaternion

variable {K : Type*} [CommRing K]

/-- The mathematical quaternion `w + x i + y j + z k` stored in a Ubitrack quaternion. -/
def toH (q : Quat K) : ℍ[K] := ⟨q.w, q.x, q.y, q.z⟩

/-- A 3-vector seen as a pure quaternion. -/
def pure (v : Vec K 3) : ℍ[K] := ⟨0, v 0, v 1, v 2⟩

@[simp] theorem toH_re (q : Quat K) : (toH q).re = q.w := rfl
@[simp] theorem toH_imI (q : Quat K) : (toH q).imI = q.x := rfl
@[simp] theorem toH_imJ (q : Quat K) : (toH q).imJ = q.y := rfl
@[simp] theorem toH_imK (q : Quat K) : (toH q).imK = q.z := rfl
@[simp] theorem pure_re (v : Vec K 3) : (pure v).re = 0 := rfl
@[simp] theorem pure_imI (v : Vec K 3) : (pure v).imI = v 0 := rfl
@[simp] theorem pure_imJ (v : Vec K 3) : (pure v).imJ = v 1 := rfl
@[simp] theorem pure_imK (v : Vec K 3) : (pure v).imK = v 2 := rfl

/-- A unit quaternion: `x² + y² + z² + w² = 1`. -/
def UnitQ (q : Quat K) : Prop := q.x ^ 2 + q.y ^ 2 + q.z ^ 2 + q.w ^ 2 = 1

/-- Two quaternions that represent the same rotation: equal or opposite. -/
def SameRotation (p q : Quat K) : Prop :=
  p = q ∨ (p.x = -q.x ∧ p.y = -q.y ∧ p.z = -q.z ∧ p.w = -q.w)

/-- Squared Euclidean length of a 3-vector. -/
def lenSq (v : Vec K 3) : K := v 0 ^ 2 + v 1 ^ 2 + v 2 ^ 2

/-- Squared four-dimensional distance of two quaternions. -/
def distSq (p q : Quat K) : K :=
  (p.x - q.x) ^ 2 + (p.y - q.y) ^ 2 + (p.z - q.z) ^ 2 + (p.w - q.w) ^ 2

end Ubitrack.Spec
