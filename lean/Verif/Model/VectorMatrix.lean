import Verif.Model.Blas
import Verif.Model.Quaternion
import Mathlib.Algebra.Order.Floor.Ring
import Mathlib.Algebra.Order.Archimedean.Real.Basic

/-!
# Vectors and matrices: order, equality, distance, handedness

`src/utMath/Vector.h`, `src/utMath/VectorFunctions.h` and `src/utMath/Matrix.h`.
-/

namespace Ubitrack.VectorMatrix

section order

variable {α : Type*} [LT α] [DecidableLT α] {n : ℕ}

/-- The loop of `Vector::operator<`, Vector.h l.194-199, over the indices that are left. -/
def lessLoop (a v : Vec α n) : List (Fin n) → Bool
  | [] => false
  | i :: rest => if a i < v i then true else if v i < a i then false else lessLoop a v rest

/-- `Vector::operator<`, Vector.h l.192-200. -/
def less (a v : Vec α n) : Bool := lessLoop a v (List.finRange n)

end order

/-- The loop of `operator==` of two vectors, Vector.h l.338-341. -/
def equalLoop {α : Type*} [BEq α] {n : ℕ} (a b : Vec α n) : List (Fin n) → Bool
  | [] => true
  | c :: rest => if a c != b c then false else equalLoop a b rest

/-- `operator==` of two vectors, Vector.h l.335-342. -/
def equal {α : Type*} [BEq α] {n : ℕ} (a b : Vec α n) : Bool := equalLoop a b (List.finRange n)

/-- The inner loop of `operator==` of two matrices, Matrix.h l.413-415: `false` is the early return. -/
def equalRow {α : Type*} [BEq α] {m n : ℕ} (a b : Mat α m n) (r : Fin m) : List (Fin n) → Bool
  | [] => true
  | c :: rest => if a r c != b r c then false else equalRow a b r rest

/-- `operator==` of two matrices, Matrix.h l.409-417. -/
def equalMatrix {α : Type*} [BEq α] {m n : ℕ} (a b : Mat α m n) : List (Fin m) → Bool
  | [] => true
  | r :: rest => if equalRow a b r (List.finRange n) then equalMatrix a b rest else false

/-- The conversion of a `double` to an integral element type. -/
noncomputable def truncate (x : ℝ) : ℤ := if 0 ≤ x then ⌊x⌋ else ⌈x⌉

/-- `linearInterpolate`, Vector.h l.325-332, for an integral element type: the weights are stored in this type. (For real
element types it is `Vec.linearInterpolate`.) -/
noncomputable def linearInterpolateInt {n : ℕ} (x y : Vec ℤ n) (t : ℝ) : Vec ℤ n :=
  let w1 := truncate (1 - t)
  let w2 := truncate t
  fun i => w1 * x i + w2 * y i

/-- The components of a vector as a sequence, zero after the end (never read). -/
def entries {n : ℕ} (v : Vec ℝ n) : ℕ → ℝ := fun i => if h : i < n then v ⟨i, h⟩ else 0

/-- `Distance` of a vector to the origin, VectorFunctions.h l.102-105 (`Norm_2` of the fixed size version). -/
noncomputable def length {n : ℕ} (vec : Vec ℝ n) : ℝ := Blas.norm2Fixed n (entries vec)

/-- `Distance` of two vectors, VectorFunctions.h l.116-120. -/
noncomputable def distance {n : ℕ} (vec1 vec2 : Vec ℝ n) : ℝ := length (vec1 - vec2)

/-- `SquaredDistance` of two vectors, VectorFunctions.h l.159-163. -/
def squaredDistance {n : ℕ} (vec1 vec2 : Vec ℝ n) : ℝ :=
  let vec := vec1 - vec2
  Blas.innerProductFixed n (entries vec) (entries vec)

open Classical in
/-- `Normalize`, VectorFunctions.h l.74-78. A division by zero is `none`. -/
noncomputable def normalize {n : ℕ} (vec : Vec ℝ n) : Option (Vec ℝ n) :=
  let norm := length vec
  if norm = 0 then none else some fun i => vec i / norm

/-- `cross_product`, VectorFunctions.h l.367-376. -/
def crossProductOf (lhs rhs : Vec ℝ 3) : Vec ℝ 3 :=
  let x := lhs 1 * rhs 2 - lhs 2 * rhs 1
  let y := lhs 2 * rhs 0 - lhs 0 * rhs 2
  let z := lhs 0 * rhs 1 - lhs 1 * rhs 0
  ![x, y, z]

/-- `matrix( r, c ) *= -1`. -/
def negateEntry (m : Mat ℝ 4 4) (r c : Fin 4) : Mat ℝ 4 4 := fun i j => if i = r ∧ j = c then m i j * -1 else m i j

/-- `leftHandToRightHandMatrix`, Matrix.h l.393-406. -/
def leftHandToRightHand (m : Mat ℝ 4 4) : Mat ℝ 4 4 :=
  let m := negateEntry m 2 0
  let m := negateEntry m 2 1
  let m := negateEntry m 2 3
  let m := negateEntry m 0 2
  let m := negateEntry m 1 2
  negateEntry m 3 2

/-- The constructor from an array, Matrix.h l.117-123. `p` is the array. -/
def fromArray {α : Type*} {m n : ℕ} (p : ℕ → α) : Mat α m n := fun i j => p (i.val * n + j.val)

/-- `Matrix::serialize`, Matrix.h l.253-259: the order in which the elements are visited. -/
def serialize {α : Type*} {m n : ℕ} (a : Mat α m n) : List α :=
  (List.finRange m).flatMap fun i => (List.finRange n).map fun j => a i j

end Ubitrack.VectorMatrix
