import Verif.Model.RotationFunction

/-!
# Function objects with Jacobians and their composition

src/utMath/Optimization/NewFunction (`Binder`, `Parameter`, `FixedParameterRef`, `FixedParameterCopy` and the functions),
src/utMath/Optimization/Function, src/utAlgorithm/Function and src/utAlgorithm/NewFunction.

An expression `func << arg1 << arg2` of the code is a chain `Binder< Binder< Func, Arg1 >, Arg2 >`; arguments are parameters,
constants or other such chains. The chain of binders of one function is modelled as one node `bind1` or `bind2`; each node
holds the result vector `m_result` of its outermost binder, which is the one read by `value`. Functions of three parameters are
handled in the same way by the code and are not modelled; no function of the library has three parameters.
-/

namespace Ubitrack

namespace FunctionComposition

variable {K : Type*} [Field K]

/-- A function of one vector, MultiVariateFunction.h l.44-145: `evaluate` and `multiplyJacobian1`. -/
structure Fun1 (K : Type*) (a m : ℕ) where
  evaluate : Vec K a → Vec K m
  multiplyJacobian1 : ∀ {k : ℕ}, Mat K k m → Vec K a → Mat K k a

/-- A function of two vectors, MultiVariateFunction.h l.44-145: `evaluate`, `multiplyJacobian1`, `multiplyJacobian2`. -/
structure Fun2 (K : Type*) (a b m : ℕ) where
  evaluate : Vec K a → Vec K b → Vec K m
  multiplyJacobian1 : ∀ {k : ℕ}, Mat K k m → Vec K a → Vec K b → Mat K k a
  multiplyJacobian2 : ∀ {k : ℕ}, Mat K k m → Vec K a → Vec K b → Mat K k b

/-- Detail/Parameter.h l.50-85, Detail/FixedParameterRef.h l.41-70, Detail/FixedParameterCopy.h l.43-73,
Detail/Binder.h l.46-219 (`m_result` l.218). -/
inductive Node (K : Type*) (N : ℕ) : ℕ → Type _
  | param (start size : ℕ) (h : start + size ≤ N) : Node K N size
  | fixed {n : ℕ} (v : Vec K n) : Node K N n
  | bind1 {a m : ℕ} (f : Fun1 K a m) (x : Node K N a) (result : Vec K m) : Node K N m
  | bind2 {a b m : ℕ} (f : Fun2 K a b m) (x : Node K N a) (y : Node K N b) (result : Vec K m) : Node K N m

namespace Node

variable {N : ℕ}

/-- `wantsJacobian`, Parameter.h l.66, FixedParameterRef.h l.55, MultiVariateFunction.h l.55, Binder.h l.62. -/
def wantsJacobian : ∀ {m : ℕ}, Node K N m → Bool
  | _, param _ _ _ => true
  | _, fixed _ => false
  | _, bind1 _ x _ => x.wantsJacobian
  | _, bind2 _ x y _ => x.wantsJacobian || y.wantsJacobian

/-- `value`, Parameter.h l.68-70, FixedParameterRef.h l.57-59, Binder.h l.64-66. -/
def value : ∀ {m : ℕ}, Node K N m → Vec K N → Vec K m
  | _, param start _ h, p => fun i => p ⟨start + i, by omega⟩
  | _, fixed v, _ => v
  | _, bind1 _ _ result, _ => result
  | _, bind2 _ _ _ result, _ => result

/-- `i_evaluateInternal`, Binder.h l.107-111 with `i_evaluate`, l.71-93; no effect for parameters, Parameter.h l.80-82.
Returns the node with the stored results updated. -/
def evaluateInternal : ∀ {m : ℕ}, Node K N m → Vec K N → Node K N m
  | _, param s n h, _ => param s n h
  | _, fixed v, _ => fixed v
  | _, bind1 f x _, p =>
    let x := x.evaluateInternal p
    bind1 f x (f.evaluate (x.value p))
  | _, bind2 f x y _, p =>
    let y := y.evaluateInternal p
    let x := x.evaluateInternal p
    bind2 f x y (f.evaluate (x.value p) (y.value p))

/-- `i_evaluate` of the outermost binder, Binder.h l.71-93: the arguments are evaluated and stored, the result is returned and
not stored. -/
def evaluateOuter : ∀ {m : ℕ}, Node K N m → Vec K N → Node K N m × Vec K m
  | _, param s n h, p => (param s n h, (param s n h : Node K N n).value p)
  | _, fixed v, _ => (fixed v, v)
  | _, bind1 f x result, p =>
    let x := x.evaluateInternal p
    (bind1 f x result, f.evaluate (x.value p))
  | _, bind2 f x y result, p =>
    let y := y.evaluateInternal p
    let x := x.evaluateInternal p
    (bind2 f x y result, f.evaluate (x.value p) (y.value p))

/-- `i_evaluateParameters`, Binder.h l.95-101. -/
def evaluateParameters {m : ℕ} (n : Node K N m) (p : Vec K N) : Node K N m := (n.evaluateOuter p).1

/-- `i_multiplyJacobian`, Binder.h l.116-146 with the pass-through functions l.164-183, and Parameter.h l.72-78. The destination
`j` is passed through; a parameter overwrites its columns. -/
def multiplyJacobian {k : ℕ} : ∀ {m : ℕ}, Node K N m → Vec K N → Mat K k m → Mat K k N → Mat K k N
  | _, param start size _, _, l, j => Matrix.of fun r c =>
    if h : start ≤ c.val ∧ c.val < start + size then l r ⟨c.val - start, by omega⟩ else j r c
  | _, fixed _, _, _, j => j
  | _, bind1 f x _, p, l, j =>
    if x.wantsJacobian then x.multiplyJacobian p (f.multiplyJacobian1 l (x.value p)) j else j
  | _, bind2 f x y _, p, l, j =>
    let j := if x.wantsJacobian then x.multiplyJacobian p (f.multiplyJacobian1 l (x.value p) (y.value p)) j else j
    if y.wantsJacobian then y.multiplyJacobian p (f.multiplyJacobian2 l (x.value p) (y.value p)) j else j

/-- `Binder::evaluate`, Binder.h l.189-194. -/
def evaluate {m : ℕ} (n : Node K N m) (p : Vec K N) : Vec K m := (n.evaluateOuter p).2

/-- `Binder::jacobian`, Binder.h l.196-203. -/
def jacobian {m : ℕ} (n : Node K N m) (p : Vec K N) (j : Mat K m N) : Mat K m N :=
  (n.evaluateParameters p).multiplyJacobian p 1 j

/-- `Binder::evaluateWithJacobian`, Binder.h l.205-212. -/
def evaluateWithJacobian {m : ℕ} (n : Node K N m) (p : Vec K N) (j : Mat K m N) : Vec K m × Mat K m N :=
  let (n, r) := n.evaluateOuter p
  (r, n.multiplyJacobian p 1 j)

end Node

/-- `Addition`, Addition.h l.42-65. -/
def addition (n : ℕ) : Fun2 K n n n where
  evaluate p1 p2 := p1 + p2
  multiplyJacobian1 l _ _ := l
  multiplyJacobian2 l _ _ := l

/-- `Subtraction`, Subtraction.h l.43-66. -/
def subtraction (n : ℕ) : Fun2 K n n n where
  evaluate p1 p2 := p1 - p2
  multiplyJacobian1 l _ _ := l
  multiplyJacobian2 l _ _ := -l

/-- `LinearTransformation`, LinearTransformation.h l.44-70; the same as `LinearFunction`, Function/LinearFunction.h l.42-102
with the identity on the left. -/
def linearTransformation {m n : ℕ} (rMatrix : Mat K m n) : Fun1 K n m where
  evaluate p1 := rMatrix.mulVec p1
  multiplyJacobian1 l _ := l * rMatrix

/-- `StoreIntermediate`, StoreIntermediate.h l.42-69. The copy stored in the referenced vector is not modelled. -/
def storeIntermediate (m : ℕ) : Fun1 K m m where
  evaluate p1 := p1
  multiplyJacobian1 l _ := l

/-- `Dehomogenization`, NewFunction/Dehomogenization.h l.43-80; `N = n + 1`. -/
def dehomogenization (n : ℕ) : Fun1 K (n + 1) n where
  evaluate input :=
    let f := 1 / input (Fin.last n)
    fun i => input i.castSucc * f
  multiplyJacobian1 l input :=
    let tz := 1 / input (Fin.last n)
    let tz2 := tz * tz
    Matrix.of fun r c =>
      if h : c.val < n then tz * l r ⟨c, h⟩ else -(∑ i : Fin n, l r i * input i.castSucc) * tz2

/-- `Dehomogenization::jacobian`, src/utAlgorithm/Function/Dehomogenization.h l.78-95 (`evaluate` l.54-60 is the same as above). -/
def dehomogenizationJacobian (n : ℕ) (input : Vec K (n + 1)) : Mat K n (n + 1) :=
  let tz := 1 / input (Fin.last n)
  let tz' := tz * tz
  Matrix.of fun i c =>
    if h : c.val < n then (1 : Mat K n n) i ⟨c, h⟩ * tz else -input i.castSucc * tz'

/-- `CameraIntrinsicsMultiplication`, src/utAlgorithm/NewFunction/CameraIntrinsicsMultiplication.h l.43-95. -/
def cameraIntrinsicsMultiplication : Fun2 K 5 2 2 where
  evaluate intr point :=
    ![-(intr 0 * point 0 + intr 1 * point 1 + intr 2), -(intr 3 * point 1 + intr 4)]
  multiplyJacobian1 l _ point := Matrix.of fun r =>
    ![-point 0 * l r 0, -point 1 * l r 0, -l r 0, -point 1 * l r 1, -l r 1]
  multiplyJacobian2 l intr _ := Matrix.of fun r =>
    ![-intr 0 * l r 0, -(intr 1 * l r 0 + intr 3 * l r 1)]

/-- `CameraIntrinsicsMultiplication::jacobian`, src/utAlgorithm/Function/CameraIntrinsicsMultiplication.h l.87-100 (`evaluate`
l.64-69 is the same as above). -/
def cameraIntrinsicsMultiplicationJacobian (m_p : Vec K 2) : Mat K 2 5 :=
  !![-m_p 0, -m_p 1, -1, 0, 0;
     0, 0, 0, -m_p 1, -1]

/-- `ublas::norm_2` -/
noncomputable def norm2 {n : ℕ} (v : Vec ℝ n) : ℝ := Real.sqrt (∑ i, v i * v i)

/-- `VectorNorm`, VectorNorm.h l.41-57. The code fills only the first row of the destination; the contents of the others are
unspecified (`junk`). -/
noncomputable def vectorNorm (n : ℕ) (junk : ℕ → ℕ → ℝ) : Fun1 ℝ n 1 where
  evaluate p1 := ![norm2 p1]
  multiplyJacobian1 l p1 := Matrix.of fun r i => if r.val = 0 then l r 0 / norm2 p1 * p1 i else junk r i

/-- `LieRotation`, NewFunction/LieRotation.h l.44-191: rotation and point. -/
noncomputable def lieRotationFun : Fun2 ℝ 3 3 3 where
  evaluate rotation point := RotationFunction.lieRotation point rotation
  multiplyJacobian1 l rotation point := l * RotationFunction.lieRotationJacobian point rotation
  multiplyJacobian2 l rotation _ := l * (Quat.fromLogarithm rotation).toMatrix

/-- `VectorNormalize::evaluate`, Function/VectorNormalize.h l.56-61. -/
noncomputable def vectorNormalize {n : ℕ} (input : Vec ℝ n) : Vec ℝ n :=
  fun i => input i * (1 / norm2 input)

/-- `VectorNormalize::jacobian`, Function/VectorNormalize.h l.71-98. -/
noncomputable def vectorNormalizeJacobian {n : ℕ} (input : Vec ℝ n) : Mat ℝ n n :=
  let norm := norm2 input
  let normSq := norm * norm
  let f := 1 / (normSq * norm)
  Matrix.of fun i j =>
    if i = j then (normSq - input i * input i) * f
    else if j < i then -input i * input j * f
    else -input j * input i * f

end FunctionComposition

end Ubitrack
