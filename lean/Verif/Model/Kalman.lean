import Verif.Model.Containers
import Mathlib.LinearAlgebra.Matrix.NonsingularInverse

/-!
# Covariance propagation and Kalman measurement update

Models `utMath/Stochastic/CovarianceTransform.h` and `utMath/Stochastic/Kalman.h`. A function object with
`evaluateWithJacobian` is a function returning the value and the Jacobian matrix. Numbers are exact.
-/

namespace Ubitrack.Stochastic

variable {K : Type*} {k l m n : ℕ}

/-- A function object with `evaluateWithJacobian( result, input, jacobian )`. -/
abbrev Functor (K : Type*) (m n : ℕ) := Vec K n → Vec K m × Mat K m n

/-- `ublas::subrange`: index `b + i` of the whole. The bound is the precondition of the ublas call. -/
def sub (b : ℕ) (h : b + k ≤ n) (i : Fin k) : Fin n := ⟨b + i, by omega⟩

/-- The position of an index of the whole in the range `[b, b + k)`, if it lies in it. -/
def loc (b k : ℕ) (i : Fin n) : Option (Fin k) :=
  if h : b ≤ i.val ∧ i.val < b + k then some ⟨i.val - b, by omega⟩ else none

section Ring
variable [CommRing K]

open scoped Matrix

/-- `transformWithCovariance`, CovarianceTransform.h l.71-85. -/
def transformWithCovariance (f : Functor K m n) (inp : ErrorVector K n) : ErrorVector K m :=
  let r := f inp.value
  let im := r.2 * inp.covariance
  ⟨r.1, im * r.2ᵀ⟩

/-- `binarytransformWithCovariance`, CovarianceTransform.h l.174-193. -/
def binarytransformWithCovariance (f : Vec K n → Vec K k → Vec K m × Mat K m n × Mat K m k) (in1 : ErrorVector K n)
    (in2 : ErrorVector K k) : ErrorVector K m :=
  let r := f in1.value in2.value
  let im1 := r.2.1 * in1.covariance
  let c1 := im1 * r.2.1ᵀ
  let im2 := r.2.2 * in2.covariance
  ⟨r.1, c1 + im2 * r.2.2ᵀ⟩

/-- `transformRangeInternalWithCovariance`, CovarianceTransform.h l.117-158, with `iOutBegin = ob`,
`iOutEnd = ob + m`, `iInBegin = ib`, `iInEnd = ib + k`. -/
def transformRange (f : Functor K m k) (v : ErrorVector K n) (ob ib : ℕ) (hi : ib + k ≤ n) :
    ErrorVector K n :=
  let r := f (fun i => v.value (sub ib hi i))
  let jacobian := r.2
  -- l.132
  let value : Vec K n := fun i => match loc ob m i with
    | some a => r.1 a
    | none => v.value i
  -- l.135
  let im : Mat K m n := jacobian * v.covariance.submatrix (sub ib hi) id
  -- l.138-144
  let c0 := v.covariance
  let c1 : Mat K n n := fun i j => match loc ob m i with
    | some a => if j.val < ob then im a j else c0 i j
    | none => c0 i j
  let c2 : Mat K n n := fun i j => match loc ob m j with
    | some b => if i.val < ob then im b i else c1 i j
    | none => c1 i j
  -- l.147-148
  let diag : Mat K m m := im.submatrix id (sub ib hi) * jacobianᵀ
  let c3 : Mat K n n := fun i j => match loc ob m i, loc ob m j with
    | some a, some b => diag a b
    | _, _ => c2 i j
  -- l.151-157
  let c4 : Mat K n n := fun i j => match loc ob m i with
    | some a => if ob + m ≤ j.val then im a j else c3 i j
    | none => c3 i j
  let c5 : Mat K n n := fun i j => match loc ob m j with
    | some b => if ob + m ≤ i.val then im b i else c4 i j
    | none => c4 i j
  ⟨value, c5⟩

/-- `blas::symm( 'R', 'U', a, b, c )`: `c = b * a`, reading only the upper triangle of the symmetric matrix `a`.
Modelled from the BLAS documentation. -/
def symmRU (a : Mat K m m) (b : Mat K n m) : Mat K n m :=
  b * (Matrix.of fun i j => if i ≤ j then a i j else a j i)

/-- `kalmanMeasurementUpdate`, Kalman.h l.71-136, with `iBegin = ib`, `iEnd = ib + k`. The inversion l.103-118
(`potrf`/`potri` writing the upper triangle, or `getrf`/`getri`) is the matrix inverse. -/
noncomputable def kalmanUpdate (f : Functor K m k) (state : ErrorVector K n) (meas : ErrorVector K m) (ib : ℕ)
    (hi : ib + k ≤ n) : ErrorVector K n :=
  let r := f (fun i => state.value (sub ib hi i))
  let predicted := r.1
  let jacobian := r.2
  let im := jacobian * state.covariance.submatrix (sub ib hi) (sub ib hi)
  let matInv := (im * jacobianᵀ + meas.covariance)⁻¹
  let matTemp := state.covariance.submatrix id (sub ib hi) * jacobianᵀ
  let kalmanGain := symmRU matInv matTemp
  ⟨state.value + kalmanGain.mulVec (meas.value - predicted), state.covariance - kalmanGain * matTempᵀ⟩

/-- `kalmanMeasurementUpdateIdentity`, Kalman.h l.163-219. -/
noncomputable def kalmanUpdateIdentity (state : ErrorVector K n) (meas : ErrorVector K m) (ib : ℕ)
    (hi : ib + m ≤ n) : ErrorVector K n :=
  let predicted : Vec K m := fun i => state.value (sub ib hi i)
  let matInv := (state.covariance.submatrix (sub ib hi) (sub ib hi) + meas.covariance)⁻¹
  let matTemp := state.covariance.submatrix id (sub ib hi)
  let kalmanGain := symmRU matInv matTemp
  ⟨state.value + kalmanGain.mulVec (meas.value - predicted), state.covariance - kalmanGain * matTempᵀ⟩

end Ring

end Ubitrack.Stochastic
