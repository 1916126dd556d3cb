import Verif.Model.Quaternion
import Mathlib.Analysis.Real.Sqrt

/-!
# Backward propagation of covariance

`src/utMath/Stochastic/BackwardPropagation.h`. Numbers are exact reals, LAPACK's `gesvd` and `syev` are parameters, a result
that is not a number is `none`. There is at least one parameter (the code reads the first singular value).
-/

namespace Ubitrack.BackwardPropagation
open scoped Matrix

variable {m n : ℕ} [NeZero n]

/-- BackwardPropagation.h l.110-116, l.165-171 and l.246-252: the singular values of the pseudo-inverse, multiplied by `c`.
When the largest value is zero the cut-off is zero as well and the code divides by zero. -/
noncomputable def pseudoValues (c : ℝ) (v : Vec ℝ n) : Option (Vec ℝ n) :=
  if v 0 = 0 then none
  else
    let precision := v 0 * 1e-8
    some fun i => if v i < precision then 0 else c / v i

/-- `ublas::row( A, i ) *= w( i )` for all `i` below the size of `w`. -/
def scaleRows {a b : ℕ} (w : Vec ℝ a) (A : Mat ℝ a b) : Mat ℝ a b := fun r c => A r c * w r

/-- `ublas::row( A, i ) *= w( i )` for all `i < n`; the rows from `n` on are left as they are. -/
def scaleFirstRows (n : ℕ) {a b : ℕ} (w : Vec ℝ a) (A : Mat ℝ a b) : Mat ℝ a b := fun r c =>
  if r.val < n then A r c * w r else A r c

/-- BLAS `syrk( 'U', 'T', 1, A, 0, R )`: the upper half of `R` becomes that of the product, the rest is kept. -/
def syrkUpper (A R : Mat ℝ n n) : Mat ℝ n n := fun r c => if r ≤ c then (Aᵀ * A) r c else R r c

/-- BackwardPropagation.h l.128-131, l.180-183 and l.261-264: the lower half is copied from the upper half. -/
def fillLower (R : Mat ℝ n n) : Mat ℝ n n := fun r c => if c < r then R c r else R r c

/-- `backwardPropagationIdentity`, BackwardPropagation.h l.149-184. `gesvd( 'N', 'O', ... )` leaves the rows of the right
factor in the first `n` rows of the Jacobian; only these are read afterwards. `result` is the previous content of the
output matrix. The square root of a negative factor is not a number. -/
noncomputable def backwardPropagationIdentity (gesvd : Mat ℝ m n → Vec ℝ n × Mat ℝ m n × Mat ℝ n n) (result : Mat ℝ n n)
    (s : ℝ) (jacobian : Mat ℝ m n) : Option (Mat ℝ n n) :=
  let (v, _, vt) := gesvd jacobian
  if s < 0 then none
  else
    (pseudoValues (Real.sqrt s) v).map fun w => fillLower (syrkUpper (scaleRows w vt) result)

/-- `backwardPropagationDiagonal`, BackwardPropagation.h l.227-265. The loop that scales the rows of the Jacobian runs to
the size of the result, not to the number of measurements. -/
noncomputable def backwardPropagationDiagonal (gesvd : Mat ℝ m n → Vec ℝ n × Mat ℝ m n × Mat ℝ n n) (result : Mat ℝ n n)
    (input : Vec ℝ m) (jacobian : Mat ℝ m n) : Option (Mat ℝ n n) :=
  if ∃ i : Fin m, i.val < n ∧ input i ≤ 0 then none
  else
    let (s, _, vt) := gesvd (scaleFirstRows n (fun i => 1 / Real.sqrt (input i)) jacobian)
    (pseudoValues 1 s).map fun w => fillLower (syrkUpper (scaleRows w vt) result)

/-- `backwardPropagation`, BackwardPropagation.h l.70-132, with the Jacobian of the function given. `syev` overwrites the
covariance with its eigenvectors, as columns; the code multiplies by this matrix, not by its transpose, and scales only the
first rows. `hm` says that there are at least as many measurements as parameters. -/
noncomputable def backwardPropagation (syev : Mat ℝ m m → Option (Vec ℝ m × Mat ℝ m m))
    (gesvd : Mat ℝ m n → Vec ℝ n × Mat ℝ m n × Mat ℝ n n) (hm : n ≤ m) (result : Mat ℝ n n) (input : Mat ℝ m m)
    (jacobian : Mat ℝ m n) : Option (Mat ℝ n n) := do
  let (t, Q) ← syev input
  let QJ := Q * jacobian
  let precision := t (Fin.castLE hm 0) * 1e-8
  if ∃ i : Fin m, i.val < n ∧ ¬ t i < precision ∧ t i ≤ 0 then none
  else
    let t' : Vec ℝ m := fun i => if t i < precision then 0 else 1 / Real.sqrt (t i)
    let (s, _, vt) := gesvd (scaleFirstRows n t' QJ)
    (pseudoValues 1 s).map fun w => fillLower (syrkUpper (scaleRows w vt) result)

end Ubitrack.BackwardPropagation
