import Verif.Model.Pose

/-!
# Hand-eye calibration with dual quaternions

Source: src/utAlgorithm/PoseEstimation6D6D/DataSelection.h (`pose_cast`, `relative_pose`,
`generate_relative_pose6D_impl`), DualQuaternion.cpp, HandEyeCalibration.h. `double` is modelled by exact reals,
LAPACK's `gesvd` is a parameter. The asserted preconditions (equal lengths, at least three poses) are not part of
the functions.
-/

namespace Ubitrack.HandEye

/-- `pose_cast` from a pose to a dual quaternion, DataSelection.h l.225-269. -/
noncomputable def toDual (p : Pose ℝ) : Vec ℝ 8 :=
  let qw := p.rotation.w
  let qx := p.rotation.x
  let qy := p.rotation.y
  let qz := p.rotation.z
  let tx := p.translation 0
  let ty := p.translation 1
  let tz := p.translation 2
  ![qw, qx, qy, qz,
    -0.5 * (tx*qx + ty*qy + tz*qz),
    0.5 * ((ty*qz - tz*qy) + qw*tx),
    0.5 * ((tz*qx - tx*qz) + qw*ty),
    0.5 * ((tx*qy - ty*qx) + qw*tz)]

/-- `pose_cast` from a dual quaternion to a pose, DataSelection.h l.115-124. -/
def ofDual (d : Vec ℝ 8) : Pose ℝ :=
  let quatRot : Quat ℝ := ⟨d 1, d 2, d 3, d 0⟩
  let qprime : Quat ℝ := ⟨d 5, d 6, d 7, d 4⟩
  let q_conj : Quat ℝ := ⟨-d 1, -d 2, -d 3, d 0⟩
  let t_final := qprime.mul q_conj
  ⟨quatRot, ![2 * t_final.x, 2 * t_final.y, 2 * t_final.z]⟩

/-- `relative_pose< pose_type, true >` before the cast, DataSelection.h l.345-347. -/
def relForward (pose1 pose2 : Pose ℝ) : Pose ℝ := pose2.inv.mul pose1

/-- `relative_pose< pose_type, false >` before the cast, DataSelection.h l.358-360. -/
def relBackward (pose1 pose2 : Pose ℝ) : Pose ℝ := pose2.mul pose1.inv

section Generate
variable {α β : Type*}

/-- `generate_relative_pose6D_impl` with `use_all_pairs`, DataSelection.h l.543-549: every pose against all later
ones. `std::transform` passes the later pose first and the fixed one (from the identity sequence) second. -/
def allPairs (op : α → α → β) : List α → List β
  | [] => []
  | p :: rest => rest.map (fun q => op q p) ++ allPairs op rest

/-- `Math::Util::adjacent_difference`, DataSelection.h l.373-389, for an inserting output iterator. -/
def adjacentDifference (op : α → α → β) : List α → List β
  | [] => []
  | first :: rest => go first rest
where
  /-- The loop of l.380-385; `prev` is the pose before. -/
  go (prev : α) : List α → List β
    | [] => []
    | val :: rest => op val prev :: go val rest

/-- `updateRelativePoses` with iterators, HandEyeCalibration.h l.116-125: the poses from `index` on, each against all
poses before it. -/
def newPairs (op : α → α → β) (poses : List α) (index : ℕ) : List β :=
  (poses.zipIdx.drop index).flatMap fun new => (poses.take new.2).map fun old => op old new.1

end Generate

/-- The six rows of the matrix for one pair of dual quaternions, DualQuaternion.cpp l.88-156. -/
def pairRows (a b : Vec ℝ 8) : List (Vec ℝ 8) :=
  let ax := a 1
  let ay := a 2
  let az := a 3
  let apx := a 5
  let apy := a 6
  let apz := a 7
  let bx := b 1
  let b_y := b 2
  let bz := b 3
  let bpx := b 5
  let bpy := b 6
  let bpz := b 7
  [![ax-bx, 0, -(az+bz), ay+b_y, 0, 0, 0, 0],
   ![ay-b_y, az+bz, 0, -(ax+bx), 0, 0, 0, 0],
   ![az-bz, -(ay+b_y), ax+bx, 0, 0, 0, 0, 0],
   ![apx-bpx, 0, -(apz+bpz), apy+bpy, ax-bx, 0, -(az+bz), ay+b_y],
   ![apy-bpy, apz+bpz, 0, -(apx+bpx), ay-b_y, az+bz, 0, -(ax+bx)],
   ![apz-bpz, -(apy+bpy), apx+bpx, 0, az-bz, -(ay+b_y), ax+bx, 0]]

/-- The matrix, DualQuaternion.cpp l.87-156, as a list of rows. -/
def system (eye hand : List (Vec ℝ 8)) : List (Vec ℝ 8) := (eye.zip hand).flatMap fun p => pairRows p.1 p.2

/-- `inner_product` of 4-vectors. -/
def inner4 (u v : Vec ℝ 4) : ℝ := u 0 * v 0 + u 1 * v 1 + u 2 * v 2 + u 3 * v 3

/-- `SolveQuadratic`, DualQuaternion.cpp l.47-63. `none` for a negative discriminant or a zero leading coefficient
(NaN or infinite in the code). -/
noncomputable def solveQuadratic (c b a : ℝ) : Option (ℝ × ℝ) :=
  let m2a := 2 * a
  let disc := b * b - 2 * m2a * c
  if m2a = 0 ∨ disc < 0 then none
  else
    let root := Real.sqrt disc
    some ((-b + root) / m2a, -(b + root) / m2a)

/-- DualQuaternion.cpp l.182-216: the pose from the last two rows of `Vt`. `none`: return value `false` because a factor
is not a number (l.201), or an infinite factor (both lengths zero). -/
noncomputable def solve (vt : Mat ℝ 8 8) : Option (Pose ℝ) :=
  let u1 : Vec ℝ 4 := ![vt 6 0, vt 6 1, vt 6 2, vt 6 3]
  let v1 : Vec ℝ 4 := ![vt 6 4, vt 6 5, vt 6 6, vt 6 7]
  let u2 : Vec ℝ 4 := ![vt 7 0, vt 7 1, vt 7 2, vt 7 3]
  let v2 : Vec ℝ 4 := ![vt 7 4, vt 7 5, vt 7 6, vt 7 7]
  let a := inner4 u1 v1
  let b := inner4 u1 v2 + inner4 u2 v1
  let c := inner4 u2 v2
  match solveQuadratic c b a with
  | none => none
  | some s12 =>
    let dotU1 := inner4 u1 u1
    let dotU1U2_2 := inner4 u1 u2 * 2
    let dotU2 := inner4 u2 u2
    let s1 := s12.1 * s12.1 * dotU1 + s12.1 * dotU1U2_2 + dotU2
    let s2 := s12.2 * s12.2 * dotU1 + s12.2 * dotU1U2_2 + dotU2
    let s := if s1 > s2 then s1 else s2
    let root := if s1 > s2 then s12.1 else s12.2
    if s ≤ 0 then none
    else
      let lambda2 := Real.sqrt (1 / s)
      let lambda1 := lambda2 * root
      let q : Vec ℝ 4 := fun i => lambda1 * u1 i + lambda2 * u2 i
      let qp : Vec ℝ 4 := fun i => lambda1 * v1 i + lambda2 * v2 i
      let qprime : Quat ℝ := ⟨qp 1, qp 2, qp 3, qp 0⟩
      let q_conj : Quat ℝ := ⟨-q 1, -q 2, -q 3, q 0⟩
      let t_final := qprime.mul q_conj
      some ⟨⟨q 1, q 2, q 3, q 0⟩, ![2 * t_final.x, 2 * t_final.y, 2 * t_final.z]⟩

variable (gesvd : List (Vec ℝ 8) → Option (Vec ℝ 8 × Mat ℝ 8 8))

/-- `estimatePose6D_6D6D_impl`, DualQuaternion.cpp l.72-217, and the overload for dual quaternions l.255-259. -/
noncomputable def estimateDual (eye hand : List (Vec ℝ 8)) : Option (Pose ℝ) :=
  match gesvd (system eye hand) with
  | none => none
  | some (s, vt) =>
    let epsilon : ℝ := 1e-2
    if s 7 > epsilon ∨ s 6 > epsilon ∨ s 5 < epsilon then none
    else solve vt

/-- `estimatePose6D_6D6D` for absolute poses, DualQuaternion.cpp l.221-252. -/
noncomputable def estimate (eyes hands : List (Pose ℝ)) : Option (Pose ℝ) :=
  let dualA := allPairs (fun p q => toDual (relForward p q)) eyes
  let dualB := allPairs (fun p q => toDual (relBackward p q)) hands
  estimateDual gesvd dualA dualB

/-! ### The incremental calibration -/

/-- The members of `HandEyeCalibration`, HandEyeCalibration.h l.59-67, without the data selection. -/
structure Calibration where
  lastIndex : ℕ
  allA : List (Vec ℝ 8)
  allB : List (Vec ℝ 8)

/-- HandEyeCalibration.h l.69-71. -/
def Calibration.fresh : Calibration := ⟨0, [], []⟩

/-- `updateRelativePoses`, HandEyeCalibration.h l.91-125, after the checks of `estimatePose6D` l.77-81 (which leave
everything as it is). `none`: the lists are shorter than before, so that the iterator is moved past the end. -/
noncomputable def Calibration.update (c : Calibration) (eyes hands : List (Pose ℝ)) : Option Calibration :=
  if eyes.length < 3 ∨ eyes.length ≠ hands.length then some c
  else if eyes.length < c.lastIndex then none
  else some
    { lastIndex := eyes.length
      allA := c.allA ++ newPairs (fun p q => toDual (relForward p q)) hands c.lastIndex
      allB := c.allB ++ newPairs (fun p q => toDual (relBackward p q)) eyes c.lastIndex }

end Ubitrack.HandEye
