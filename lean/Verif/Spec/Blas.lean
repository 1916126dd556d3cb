import Verif.Model.Quaternion
import Mathlib.Data.Matrix.Mul

/-!
# Specification: arrays and the vectors and matrices they hold
-/

namespace Ubitrack.Spec

/-- The array holds the vector in its first elements. -/
def HoldsVec {K : Type*} {n : ℕ} (a : ℕ → K) (v : Vec K n) : Prop := ∀ i : Fin n, a i = v i

/-- The array holds the matrix, column after column. -/
def HoldsMat {K : Type*} {m n : ℕ} (a : ℕ → K) (A : Mat K m n) : Prop := ∀ (i : Fin m) (j : Fin n), a (j * m + i) = A i j

/-- The second array differs from the first at most in its first `n` elements. -/
def SameFrom {K : Type*} (n : ℕ) (a b : ℕ → K) : Prop := ∀ i, n ≤ i → b i = a i

end Ubitrack.Spec
