import Verif.Model.Containers
import Mathlib.Analysis.SpecialFunctions.Trigonometric.Arctan
import Mathlib.Analysis.Real.Sqrt

/-!
# Camera intrinsics as objects: constructors, persistence, opening angles, handedness

`src/utMath/CameraIntrinsics.h`. The enumeration `CalibType` (l.74) is its integer value. `std::size_t` is ℕ (no overflow of
the squared diagonal), the numbers are field elements or reals.
-/

namespace Ubitrack.Intrinsics

/-- `CalibType`, CameraIntrinsics.h l.74. -/
def UNKNOWN : ℕ := 0
def OPENCV_2_2 : ℕ := 1
def OPENCV_3_2 : ℕ := 2
def OPENCV_6_2 : ℕ := 3
def OPENCV_4_0_FISHEYE : ℕ := 4

/-- `radial`, CameraIntrinsics.h l.77-81; `none`: the index is outside of the table. -/
def radial (idx : ℕ) : Option ℕ := [0, 2, 3, 6, 4][idx]?

/-- `tangential`, CameraIntrinsics.h l.84-88. -/
def tangential (idx : ℕ) : Option ℕ := [0, 2, 2, 2, 0][idx]?

section field

variable {K : Type*} [Field K]

/-- The standard constructor, CameraIntrinsics.h l.131-138. -/
def default : CameraIntrinsics K := ⟨UNKNOWN, ![0, 0], 1, 0, 0, 0⟩

/-- The constructor with two radial parameters, CameraIntrinsics.h l.141-151. -/
def ofRadial2 (m : Mat K 3 3) (r : Vec K 2) (t : Vec K 2) (width height : ℕ) : CameraIntrinsics K :=
  ⟨OPENCV_2_2, ![width, height], m, 2, ![r 0, r 1, 0, 0, 0, 0], t⟩

/-- The constructor with three radial parameters, CameraIntrinsics.h l.154-165: `radial_size( 2 )`. -/
def ofRadial3 (m : Mat K 3 3) (r : Vec K 3) (t : Vec K 2) (width height : ℕ) : CameraIntrinsics K :=
  ⟨OPENCV_3_2, ![width, height], m, 2, ![r 0, r 1, r 2, 0, 0, 0], t⟩

/-- The constructor with six radial parameters, CameraIntrinsics.h l.168-176. -/
def ofRadial6 (m : Mat K 3 3) (r : Vec K 6) (t : Vec K 2) (width height : ℕ) : CameraIntrinsics K :=
  ⟨OPENCV_6_2, ![width, height], m, 6, r, t⟩

/-- The fish-eye constructor, CameraIntrinsics.h l.179-190. The initializer list leaves `radial_params` out, the elements 4
and 5 keep what is in `memory`. -/
def ofFisheye (memory : Vec K 6) (m : Mat K 3 3) (r : Vec K 4) (width height : ℕ) : CameraIntrinsics K :=
  ⟨OPENCV_4_0_FISHEYE, ![width, height], m, 4, ![r 0, r 1, r 2, r 3, memory 4, memory 5], 0⟩

/-- `reset`, CameraIntrinsics.h l.217-234. -/
def reset (c : CameraIntrinsics K) : CameraIntrinsics K :=
  if c.radialSize = 2 then { c with calibType := OPENCV_2_2 }
  else if c.radialSize = 3 then { c with calibType := OPENCV_3_2 }
  else if c.radialSize = 4 then { c with calibType := OPENCV_4_0_FISHEYE }
  else if c.radialSize = 6 then { c with calibType := OPENCV_6_2 }
  else c

/-- The general constructor, CameraIntrinsics.h l.193-203: the argument `size` is not used. -/
def ofGeneral (_size : Vec ℤ 2) (m : Mat K 3 3) (radSize : ℕ) (r : Vec K 6) (t : Vec K 2) (width height : ℕ) :
    CameraIntrinsics K :=
  reset ⟨UNKNOWN, ![width, height], m, radSize, r, t⟩

/-- `flipHandiness`, CameraIntrinsics.h l.267-273 (a member that changes its argument). -/
def flipHandiness (c : CameraIntrinsics K) : CameraIntrinsics K :=
  { c with matrix := fun i j => if j = 2 then c.matrix i j * (-1) else c.matrix i j }

/-- What an archive holds: the numbers and sizes in the order in which they were written. -/
inductive Item (K : Type*) where
  | num (x : K)
  | size (n : ℕ)

def getNum : List (Item K) → Option (K × List (Item K))
  | .num x :: s => some (x, s)
  | _ => none

def getSize : List (Item K) → Option (ℕ × List (Item K))
  | .size n :: s => some (n, s)
  | _ => none

/-- `serialize` with an output archive, CameraIntrinsics.h l.280-300: what is appended to the archive and the object
afterwards, since `reset` (l.299) runs here as well. `none`: `radial_params[ i ]` is outside of the vector. -/
def save (c : CameraIntrinsics K) : Option (List (Item K) × CameraIntrinsics K) :=
  if h : c.radialSize ≤ 6 then
    some ((List.finRange 9).map (fun i => Item.num (c.matrix ⟨i.val / 3, by omega⟩ ⟨i.val % 3, by omega⟩)) ++
      [.size (c.dimension 0), .size (c.dimension 1), .size c.radialSize] ++
      (List.finRange c.radialSize).map (fun i => Item.num (c.radialParams (i.castLE h))) ++
      [.size 2, .num (c.tangentialParams 0), .num (c.tangentialParams 1)], reset c)
  else none

/-- The loop over the matrix elements, l.283-284, with an input archive. -/
def loadMatrix (m : Mat K 3 3) : List (Fin 9) → List (Item K) → Option (Mat K 3 3 × List (Item K))
  | [], s => some (m, s)
  | i :: l, s => do
    let (x, s) ← getNum s
    loadMatrix (fun a b => if a.val = i.val / 3 ∧ b.val = i.val % 3 then x else m a b) l s

/-- The loop over the radial parameters, l.290-291, with an input archive: `k` parameters are left, the next is `i`. -/
def loadRadial (r : Vec K 6) : (i k : ℕ) → List (Item K) → Option (Vec K 6 × List (Item K))
  | _, 0, s => some (r, s)
  | i, k + 1, s => if h : i < 6 then do
      let (x, s) ← getNum s
      loadRadial (Function.update r ⟨i, h⟩ x) (i + 1) k s
    else none

/-- `serialize` with an input archive, CameraIntrinsics.h l.280-300, into the object `d`: the object afterwards and what is
left of the archive. `none`: an exception of the archive or an access outside of the vector. -/
def load (d : CameraIntrinsics K) (s : List (Item K)) : Option (CameraIntrinsics K × List (Item K)) := do
  let (m, s) ← loadMatrix d.matrix (List.finRange 9) s
  let (w, s) ← getSize s
  let (h, s) ← getSize s
  let (n, s) ← getSize s
  let (r, s) ← loadRadial d.radialParams 0 n s
  let (_, s) ← getSize s
  let (t0, s) ← getNum s
  let (t1, s) ← getNum s
  some (reset ⟨d.calibType, ![w, h], m, n, r, ![t0, t1]⟩, s)

end field

/-- `angleVertical`, CameraIntrinsics.h l.237-243. -/
noncomputable def angleVertical (c : CameraIntrinsics ℝ) : ℝ :=
  (360 / Real.arccos (-1)) * Real.arctan (c.dimension 1 / (2 * c.matrix 1 1))

/-- `angleHorizontal`, CameraIntrinsics.h l.246-252. -/
noncomputable def angleHorizontal (c : CameraIntrinsics ℝ) : ℝ :=
  (360 / Real.arccos (-1)) * Real.arctan (c.dimension 0 / (2 * c.matrix 0 0))

/-- `angleDiagonal`, CameraIntrinsics.h l.255-263. -/
noncomputable def angleDiagonal (c : CameraIntrinsics ℝ) : ℝ :=
  let squaredDiag : ℕ := c.dimension 0 * c.dimension 0 + c.dimension 1 * c.dimension 1
  let squaredFocal := c.matrix 0 0 * c.matrix 0 0 + c.matrix 1 1 * c.matrix 1 1
  (360 / Real.arccos (-1)) * Real.arctan (Real.sqrt (squaredDiag / (4 * squaredFocal)))

end Ubitrack.Intrinsics
