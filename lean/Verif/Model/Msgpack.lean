import Verif.Model.Containers

/-!
# Model of `utSerialization/MsgpackSerializer.h`

The MessagePack library itself is modelled at the level of its item stream: packing appends items
(`pack_array n` announces `n` following items), unpacking parses one object. Scalars (`double`,
integers, time stamps) are stored exactly. The byte encoding of the items is the library's and is
not modelled.
-/

namespace Ubitrack.Msgpack

/-- Items of the stream. -/
inductive Tok (K : Type) where
  | nil
  | arr (n : ℕ)
  | num (x : K)
  | int (z : ℕ)

/-- Unpacked objects. -/
inductive Obj (K : Type) where
  | nil
  | arr (l : List (Obj K))
  | num (x : K)
  | int (z : ℕ)

/-- What can go wrong in a conversion: `msgpack::type_error`, or an access outside an array. -/
inductive Err where
  | typeError
  | oob

section
variable {K : Type}

/-- Parse `n` objects with the given parser. -/
def parseMany (p : List (Tok K) → Option (Obj K × List (Tok K))) :
    ℕ → List (Tok K) → Option (List (Obj K) × List (Tok K))
  | 0, ts => some ([], ts)
  | n + 1, ts =>
    match p ts with
    | none => none
    | some (o, ts') =>
      match parseMany p n ts' with
      | none => none
      | some (os, ts'') => some (o :: os, ts'')

/-- The library's parser (nesting limited by the first argument). -/
def parse : ℕ → List (Tok K) → Option (Obj K × List (Tok K))
  | 0, _ => none
  | _ + 1, [] => none
  | _ + 1, .nil :: ts => some (.nil, ts)
  | _ + 1, .num x :: ts => some (.num x, ts)
  | _ + 1, .int z :: ts => some (.int z, ts)
  | f + 1, .arr n :: ts =>
    match parseMany (parse f) n ts with
    | none => none
    | some (os, ts') => some (.arr os, ts')

/-- src/utSerialization/MsgpackSerializer.h l.70-80: `read`: `pac.next` then `convert`; if there is no
complete object the target is left unchanged. -/
def readInto {α : Type} (convert : Obj K → α → Except Err α) (ts : List (Tok K)) (target : α) :
    Except Err α :=
  match parse ts.length ts with
  | none => .ok target
  | some (o, _) => convert o target

/-- Conversion of a floating point element. -/
def getNum : Obj K → Except Err K
  | .num x => .ok x
  | _ => .error .typeError

/-- Conversion of an integer element. -/
def getInt : Obj K → Except Err ℕ
  | .int z => .ok z
  | _ => .error .typeError

/-- `o.via.array.ptr[ idx ]`. -/
def at' (l : List (Obj K)) (idx : ℕ) : Except Err (Obj K) :=
  match l[idx]? with
  | some o => .ok o
  | none => .error .oob

variable {α : Type}

/-- Collect the results of a loop over `Fin n`. -/
def collect {n : ℕ} {β : Type} (f : Fin n → Except Err β) : Except Err (Fin n → β) :=
  match n, f with
  | 0, _ => .ok Fin.elim0
  | _ + 1, f =>
    match f 0 with
    | .error e => .error e
    | .ok a =>
      match collect (fun i => f i.succ) with
      | .error e => .error e
      | .ok g => .ok (Fin.cons a g)

/-- src/utSerialization/MsgpackSerializer.h l.282-297: `pack` of a fixed-size vector (`N > 0`). -/
def packVec {n : ℕ} (pe : α → List (Tok K)) (v : Fin n → α) : List (Tok K) :=
  .arr n :: (List.ofFn v).flatMap pe

/-- src/utSerialization/MsgpackSerializer.h l.265-280: `convert` to a fixed-size vector (`N > 0`). -/
def convertVec {n : ℕ} (ce : Obj K → Except Err α) : Obj K → Except Err (Fin n → α)
  | .arr l =>
    if l.length ≠ n then .error .typeError
    else collect (fun i : Fin n => (at' l i).bind ce)
  | _ => .error .typeError

/-- src/utSerialization/MsgpackSerializer.h l.282-297: `pack` of a dynamically sized vector. -/
def packDyn (pe : α → List (Tok K)) (v : List α) : List (Tok K) :=
  .arr v.length :: v.flatMap pe

/-- Assigning `v( i )` for the elements of a range, one after the other; the target is not resized. -/
def assignAll (ce : Obj K → Except Err α) : List (Obj K) → ℕ → List α → Except Err (List α)
  | [], _, tgt => .ok tgt
  | o :: os, i, tgt =>
    if i < tgt.length then
      match ce o with
      | .error e => .error e
      | .ok a => assignAll ce os (i + 1) (tgt.set i a)
    else .error .oob

/-- src/utSerialization/MsgpackSerializer.h l.265-280 with `N = 0`: `convert` to a dynamically sized
vector; the target keeps its size. -/
def convertDyn (ce : Obj K → Except Err α) : Obj K → List α → Except Err (List α)
  | .arr l, tgt => assignAll ce l 0 tgt
  | _, _ => .error .typeError

/-- src/utSerialization/MsgpackSerializer.h l.369-388: `pack` of a fixed-size matrix, row by row.
A matrix with no elements throws. -/
def packMat {m n : ℕ} (pe : α → List (Tok K)) (A : Mat α m n) : Except Err (List (Tok K)) :=
  if m * n = 0 then .error .typeError
  else .ok (.arr (m * n) ::
    (List.ofFn fun i : Fin m => (List.ofFn fun j : Fin n => pe (A i j)).flatten).flatten)

/-- src/utSerialization/MsgpackSerializer.h l.346-367: `convert` to a fixed-size matrix. The element
index is `i*M + j`. -/
def convertMat {m n : ℕ} (ce : Obj K → Except Err α) : Obj K → Except Err (Mat α m n)
  | .arr l =>
    if m * n = 0 then .error .typeError
    else if l.length ≠ m * n then .error .typeError
    else
      collect (fun i : Fin m => collect (fun j : Fin n => (at' l (i * m + j)).bind ce))
  | _ => .error .typeError

def packNum (x : K) : List (Tok K) := [.num x]
def packInt (z : ℕ) : List (Tok K) := [.int z]

/-- src/utSerialization/MsgpackSerializer.h l.440-450: `pack` of a quaternion. -/
def packQuat (q : Quat K) : List (Tok K) := packVec packNum q.toVector

/-- src/utSerialization/MsgpackSerializer.h l.429-438: `convert` to a quaternion. -/
def convertQuat (o : Obj K) : Except Err (Quat K) :=
  (convertVec (n := 4) getNum o).map Quat.fromVector

/-- src/utSerialization/MsgpackSerializer.h l.553-563: `pack` of a pose. -/
def packPose (p : Pose K) : List (Tok K) :=
  .arr 2 :: (packQuat p.rotation ++ packVec packNum p.translation)

/-- src/utSerialization/MsgpackSerializer.h l.538-551: `convert` to a pose. -/
def convertPose : Obj K → Except Err (Pose K)
  | .arr l => do
    if l.length ≠ 2 then .error .typeError
    let quat ← (at' l 0).bind convertQuat
    let vec ← (at' l 1).bind (convertVec getNum)
    .ok ⟨quat, vec⟩
  | _ => .error .typeError

/-- src/utSerialization/MsgpackSerializer.h l.613-623: `pack` of an error vector. -/
def packErrorVector {n : ℕ} (v : ErrorVector K n) : Except Err (List (Tok K)) := do
  let c ← packMat packNum v.covariance
  .ok (.arr 2 :: (packVec packNum v.value ++ c))

/-- src/utSerialization/MsgpackSerializer.h l.598-611: `convert` to an error vector. -/
def convertErrorVector {n : ℕ} : Obj K → Except Err (ErrorVector K n)
  | .arr l => do
    if l.length ≠ 2 then .error .typeError
    let vec ← (at' l 0).bind (convertVec getNum)
    let cov ← (at' l 1).bind (convertMat getNum)
    .ok ⟨vec, cov⟩
  | _ => .error .typeError

/-- src/utSerialization/MsgpackSerializer.h l.676-687: `pack` of an error pose. -/
def packErrorPose (v : ErrorPose K) : Except Err (List (Tok K)) := do
  let c ← packMat packNum v.covariance
  .ok (.arr 3 :: (packQuat v.rotation ++ packVec packNum v.translation ++ c))

/-- src/utSerialization/MsgpackSerializer.h l.659-674: `convert` to an error pose. -/
def convertErrorPose : Obj K → Except Err (ErrorPose K)
  | .arr l => do
    if l.length ≠ 3 then .error .typeError
    let quat ← (at' l 0).bind convertQuat
    let vec ← (at' l 1).bind (convertVec getNum)
    let cov ← (at' l 2).bind (convertMat getNum)
    .ok ⟨⟨quat, vec⟩, cov⟩
  | _ => .error .typeError

/-- src/utSerialization/MsgpackSerializer.h l.744-758: `pack` of camera intrinsics. -/
def packIntrinsics (v : CameraIntrinsics K) : Except Err (List (Tok K)) := do
  let c ← packMat packNum v.matrix
  .ok (.arr 6 :: (packInt v.calibType ++ packVec packInt v.dimension ++ c ++ packInt v.radialSize ++
    packVec packNum v.radialParams ++ packVec packNum v.tangentialParams))

/-- src/utSerialization/MsgpackSerializer.h l.726-742: `convert` to camera intrinsics. -/
def convertIntrinsics : Obj K → Except Err (CameraIntrinsics K)
  | .arr l => do
    if l.length ≠ 6 then .error .typeError
    let ct ← (at' l 0).bind getInt
    let dim ← (at' l 1).bind (convertVec getInt)
    let mat ← (at' l 2).bind (convertMat getNum)
    let rs ← (at' l 3).bind getInt
    let rp ← (at' l 4).bind (convertVec getNum)
    let tp ← (at' l 5).bind (convertVec getNum)
    .ok ⟨ct, dim, mat, rs, rp, tp⟩
  | _ => .error .typeError

/-- A measurement as far as serialization is concerned: time stamp and payload (`none` for a null
pointer). -/
structure Meas (α : Type) where
  time : ℕ
  payload : Option α

/-- src/utSerialization/MsgpackSerializer.h l.167-182: `pack` of a measurement. -/
def packMeas (pe : α → Except Err (List (Tok K))) (v : Meas α) : Except Err (List (Tok K)) :=
  match v.payload with
  | some x => (pe x).map fun c => .arr 2 :: (packInt v.time ++ c)
  | none => .ok [.nil]

/-- src/utSerialization/MsgpackSerializer.h l.146-165: `convert` to a measurement. -/
def convertMeas (ce : Obj K → Except Err α) : Obj K → Except Err (Meas α)
  | .nil => .ok ⟨0, none⟩
  | .arr l => do
    if l.length ≠ 2 then .error .typeError
    let value ← (at' l 1).bind ce
    let ts ← (at' l 0).bind getInt
    .ok ⟨ts, some value⟩
  | _ => .error .typeError

/-- src/utSerialization/MsgpackSerializer.h l.131-143: the alternative reader `as` of a measurement,
which takes both the time stamp and the value from the first entry. -/
def asMeas (ce : Obj K → Except Err α) : Obj K → Except Err (Meas α)
  | .nil => .ok ⟨0, none⟩
  | .arr l => do
    if l.length ≠ 2 then .error .typeError
    let ts ← (at' l 0).bind getInt
    let value ← (at' l 0).bind ce
    .ok ⟨ts, some value⟩
  | _ => .error .typeError

/-- src/utSerialization/MsgpackSerializer.h l.299-315: `object_with_zone` of a vector: all elements
are stored to entry 0; the other entries stay uninitialised (`none`). -/
def zoneVec {n : ℕ} (mk : α → Obj K) (v : Fin n → α) : List (Option (Obj K)) :=
  (List.ofFn v).foldl (fun l x => l.set 0 (some (mk x))) (List.replicate n none)

end

end Ubitrack.Msgpack
