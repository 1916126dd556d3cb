import Verif.Model.Quaternion
import Mathlib.Analysis.SpecialFunctions.Trigonometric.Basic

/-!
# Model: random numbers, vectors, matrices and rotations

src/utMath/Random. `double` is modelled by exact reals. The random number generators of boost are modelled by sequences: `uniform` of numbers
from 0 (included) to 1 (excluded), `normal` of numbers with mean 0 and standard deviation 1. Distributions of integers and the branches
without boost are not modelled. Pose.h does not compile when used (`this.randRotations()`, l.130) and is not modelled.
-/

namespace Ubitrack.RandomValues

/-- `distribute_uniform< double >` and `< float >`, Scalar.h l.111-140, with boost's `uniform_real`; `u` is the number from the generator.
`none`: the lower limit is above the upper one, against the precondition of boost. -/
noncomputable def distributeUniform (min max u : ℝ) : Option ℝ := open Classical in if min ≤ max then some (u * (max - min) + min) else none

/-- `distribute_normal`, Scalar.h l.72-84, with boost's `normal_distribution`. `none`: a negative standard deviation, against the
precondition of boost. -/
noncomputable def distributeNormal (mu sigma g : ℝ) : Option ℝ := open Classical in if 0 ≤ sigma then some (g * sigma + mu) else none

/-- The loops over the elements, Vector.h l.126-127, l.169-170, Matrix.h l.87-89: `k` numbers have been drawn, `draw` makes an element
from its index and a number of the generator. The result is also the count of numbers drawn afterwards. -/
def fill {ι : Type} [DecidableEq ι] (draw : ι → ℝ → Option ℝ) (numbers : ℕ → ℝ) : List ι → ℕ → (ι → ℝ) → Option ((ι → ℝ) × ℕ)
  | [], k, v => some (v, k)
  | i :: rest, k, v => do
    let x ← draw i (numbers k)
    fill draw numbers rest (k + 1) (Function.update v i x)

/-- The members of `Vector::Uniform`, Vector.h l.150-151. -/
structure Limits (n : ℕ) where
  min_range : Vec ℝ n
  max_range : Vec ℝ n

/-- The constructor with two numbers, Vector.h l.154-158 (also Matrix.h l.78-82). -/
noncomputable def Limits.ofScalars (n : ℕ) (min_range max_range : ℝ) : Limits n :=
  ⟨fun _ => min min_range max_range, fun _ => max min_range max_range⟩

/-- The constructor with two vectors, Vector.h l.160-164. -/
def Limits.ofVectors {n : ℕ} (min_range max_range : Vec ℝ n) : Limits n := ⟨min_range, max_range⟩

/-- `Vector::Uniform::operator()`, Vector.h l.166-172. -/
noncomputable def uniformVector {n : ℕ} (l : Limits n) (uniform : ℕ → ℝ) (k : ℕ) : Option (Vec ℝ n × ℕ) :=
  fill (fun i u => distributeUniform (l.min_range i) (l.max_range i) u) uniform (List.finRange n) k 0

/-- `Matrix::Uniform`, Matrix.h l.78-91; the matrix as a function of the pair of indices. -/
noncomputable def uniformMatrix (m n : ℕ) (min_range max_range : ℝ) (uniform : ℕ → ℝ) (k : ℕ) : Option ((Fin m × Fin n → ℝ) × ℕ) :=
  fill (fun _ u => distributeUniform (min min_range max_range) (max min_range max_range) u) uniform
    ((List.finRange m).flatMap fun i => (List.finRange n).map fun j => (i, j)) k 0

/-- The members of `Vector::Normal`, Vector.h l.72-73. `none`: not initialised. -/
structure Normal (n : ℕ) where
  mu : Vec ℝ n
  sigma : Option (Vec ℝ n)

/-- The constructor with two numbers, Vector.h l.93-100. -/
def Normal.ofScalars (n : ℕ) (mu sigma : ℝ) : Normal n := ⟨fun _ => mu, some fun _ => sigma⟩

/-- The constructor with two vectors, Vector.h l.102-111. -/
def Normal.ofVectors {n : ℕ} (mu sigma : Vec ℝ n) : Normal n := ⟨mu, some sigma⟩

/-- The constructor with a covariance, Vector.h l.113-121: `m_sigma` is not initialised. -/
def Normal.ofCovariance {n : ℕ} (mu : Vec ℝ n) (_sigma : Mat ℝ n n) : Normal n := ⟨mu, none⟩

/-- `Vector::Normal::operator()`, Vector.h l.123-134. `none`: members that are not initialised are read. -/
noncomputable def normalVector {n : ℕ} (d : Normal n) (normal : ℕ → ℝ) (k : ℕ) : Option (Vec ℝ n × ℕ) := do
  let sigma ← d.sigma
  fill (fun i g => distributeNormal (d.mu i) (sigma i) g) normal (List.finRange n) k 0

/-- The body of `Quaternion::Uniform::operator()`, Rotation.h l.83-88, with the three numbers drawn. -/
noncomputable def quaternionOf (x y z : ℝ) : Quat ℝ :=
  let rootx := Real.sqrt x
  let rootxinv := Real.sqrt (1 - x)
  let piz2 := 2 * z * Real.pi
  let piy2 := 2 * y * Real.pi
  ⟨rootxinv * Real.sin piy2, rootxinv * Real.cos piy2, rootx * Real.sin piz2, rootx * Real.cos piz2⟩

/-- `Quaternion::Uniform::operator()`, Rotation.h l.77-89. -/
noncomputable def uniformQuaternion (uniform : ℕ → ℝ) (k : ℕ) : Option (Quat ℝ × ℕ) := do
  let x ← distributeUniform 0 1 (uniform k)
  let y ← distributeUniform 0 1 (uniform (k + 1))
  let z ← distributeUniform 0 1 (uniform (k + 2))
  return (quaternionOf x y z, k + 3)

/-- The generators of a program, Scalar.h l.61: `static` in a header, so every source file that includes it (here a number) has its own, and
all start in the same state. What is kept is how many numbers each has given; the result is the number drawn by source file `file`. -/
def drawIn (numbers : ℕ → ℝ) (state : ℕ → ℕ) (file : ℕ) : ℝ × (ℕ → ℕ) := (numbers (state file), Function.update state file (state file + 1))

/-- A program that draws numbers in the given source files, in this order: the files and the numbers they got. -/
def drawAll (numbers : ℕ → ℝ) : List ℕ → (ℕ → ℕ) → List (ℕ × ℝ)
  | [], _ => []
  | file :: rest, state => (file, (drawIn numbers state file).1) :: drawAll numbers rest (drawIn numbers state file).2

end Ubitrack.RandomValues
