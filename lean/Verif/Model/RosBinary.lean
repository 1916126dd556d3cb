import Verif.Spec.Wire

/-!
# Model of `utSerialization/ROSBinarySerialization.h`

A stream is a buffer and a position (`data_` as an offset; `end_` is the length of the buffer).
An access outside the buffer is the distinct outcome `oob`; the exception thrown by `advance` is
`overrun`. State survives an exception, as in C++.

Simplifications: pointer arithmetic past the end of the buffer is plain arithmetic (no wrap-around
of 64-bit addresses); alignment is ignored; the host is little-endian; `resize` never throws.
`std::vector<bool>` can be written but its reader does not compile, the model treats it like the
other element-wise vectors.
-/

namespace Ubitrack.Ros

inductive Err where
  | overrun
  | oob
  deriving DecidableEq

/-- src/utSerialization/ROSBinarySerialization.h l.570-575: the stream; `pos` is `data_`, the end of
`buf` is `end_`. -/
structure Stream where
  buf : List Byte
  pos : Nat

/-- A computation on a stream that may throw. -/
def M (α : Type) : Type := Stream → Except Err α × Stream

namespace M
def pure {α : Type} (a : α) : M α := fun s => (.ok a, s)
def bind {α β : Type} (m : M α) (f : α → M β) : M β := fun s =>
  match m s with
  | (.ok a, s') => f a s'
  | (.error e, s') => (.error e, s')
instance : Monad M where
  pure := M.pure
  bind := M.bind
end M

/-- src/utSerialization/ROSBinarySerialization.h l.549-562: `Stream::advance`: the position moves
first, then the bounds are checked. -/
def advance (len : Nat) : M Nat := fun s =>
  let s' : Stream := { s with pos := s.pos + len }
  if s'.pos > s.buf.length then (.error .overrun, s') else (.ok s.pos, s')

/-- A store of `bs` at offset `off` of the buffer (memcpy target of l.127, 161, 192, 283, 442). -/
def store (off : Nat) (bs : List Byte) : M Unit := fun s =>
  if off + bs.length ≤ s.buf.length then
    (.ok (), { s with buf := s.buf.take off ++ bs ++ s.buf.drop (off + bs.length) })
  else (.error .oob, s)

/-- A load of `n` bytes at offset `off` of the buffer (memcpy source of l.132, 168, 202, 296, 449). -/
def load (off n : Nat) : M (List Byte) := fun s =>
  if off + n ≤ s.buf.length then (.ok ((s.buf.drop off).take n), s) else (.error .oob, s)

/-- An access outside the memory of a container. -/
def throwOob {α : Type} : M α := fun s => (.error .oob, s)

/-- `( uint32_t ) n`. -/
def u32 (n : Nat) : Nat := n % 2 ^ 32

/-- Object representation of a `uint32_t` (little-endian host). -/
def le32 (n : Nat) : List Byte :=
  [BitVec.ofNat 8 n, BitVec.ofNat 8 (n / 2 ^ 8), BitVec.ofNat 8 (n / 2 ^ 16),
    BitVec.ofNat 8 (n / 2 ^ 24)]

def fromLe : List Byte → Nat
  | [] => 0
  | b :: bs => b.toNat + 2 ^ 8 * fromLe bs

/-- src/utSerialization/ROSBinarySerialization.h l.125-128 for `uint32_t`. -/
def writeU32 (n : Nat) : M Unit := do
  let off ← advance 4
  store off (le32 n)

/-- src/utSerialization/ROSBinarySerialization.h l.130-133 for `uint32_t`. -/
def readU32 : M Nat := do
  let off ← advance 4
  let bs ← load off 4
  M.pure (fromLe bs)

/-- The loops `for (; it!=end; ++it) stream.next(*it);` (l.236-238, 324-326, 401-403, 475-477). -/
def writeAll {α : Type} (w : α → M Unit) : List α → M Unit
  | [] => M.pure ()
  | a :: as => do w a; writeAll w as

/-- The loops over freshly sized containers (l.249-251, 337-339, 411-413, 485-487). -/
def readAll {α : Type} (r : M α) : Nat → M (List α)
  | 0 => M.pure []
  | n + 1 => do
    let a ← r
    let as ← readAll r n
    M.pure (a :: as)

/-- Memory of `k` plain elements of `n` bytes that was zero-initialised by `resize` and then
overwritten from the start by `bs`. -/
def elements (n : Nat) : Nat → List Byte → List { l : List Byte // l.length = n }
  | 0, _ => []
  | k + 1, bs => ⟨(bs ++ List.replicate n 0).take n, by simp⟩ :: elements n k (bs.drop n)

theorem elements_length (n k : Nat) (bs : List Byte) : (elements n k bs).length = k := by
  induction k generalizing bs with
  | zero => rfl
  | succ k ih => simp [elements, ih]

/-- The memory of a container of plain elements. -/
def flat {n : Nat} (v : List { l : List Byte // l.length = n }) : List Byte :=
  v.flatMap (·.1)

/-- src/utSerialization/ROSBinarySerialization.h l.277-285 (plain element type), l.231-239 and
l.319-327 (other element types): `VectorSerializer::write`. -/
def writeVec (t : Ty) (w : Val t → M Unit) (v : List (Val t)) : M Unit :=
  match t, w, v with
  | .simple n, _, v => do
    let len := u32 v.length
    writeU32 len
    if v.isEmpty then M.pure () else do
      let dataLen := u32 (len * n)
      let off ← advance dataLen
      store off ((flat v).take dataLen)
  | _, w, v => do
    writeU32 (u32 v.length)
    writeAll w v

/-- src/utSerialization/ROSBinarySerialization.h l.439-443 (plain element type), l.397-404 and
l.471-478: `ArraySerializer::write`. -/
def writeArr (t : Ty) (w : Val t → M Unit) (v : List (Val t)) : M Unit :=
  match t, w, v with
  | .simple n, _, v => do
    let dataLen := u32 (v.length * n)
    let off ← advance dataLen
    store off ((flat v).take dataLen)
  | _, w, v => writeAll w v

/-- Writing a value: src/utSerialization/ROSBinarySerialization.h l.125-128 (plain), l.158-162
(bool), l.186-194 (string; the length is truncated to 32 bits, the copy is not). -/
def write : (t : Ty) → Val t → M Unit
  | .simple n, v => do
    let off ← advance n
    store off v.1
  | .bool, (b : Bool) => do
    let off ← advance 1
    store off [if b then 1 else 0]
  | .string, (s : List Byte) => do
    writeU32 (u32 s.length)
    if s.length > 0 then do
      let off ← advance (u32 s.length)
      store off s
    else M.pure ()
  | .vec t, v => writeVec t (write t) v
  | .arr t _, v => writeArr t (write t) v.1

/-- src/utSerialization/ROSBinarySerialization.h l.288-298 (plain element type), l.242-252 and
l.330-340: `VectorSerializer::read`. The copy into the vector must not exceed its memory. -/
def readVec (t : Ty) (r : M (Val t)) : M (List (Val t)) :=
  match t, r with
  | .simple n, _ => do
    let len ← readU32
    if len > 0 then do
      let dataLen := u32 (n * len)
      let off ← advance dataLen
      let bs ← load off dataLen
      if dataLen ≤ len * n then M.pure (elements n len bs) else throwOob
    else M.pure []
  | _, r => do
    let len ← readU32
    readAll r len

/-- src/utSerialization/ROSBinarySerialization.h l.446-450 (plain element type), l.407-414 and
l.481-488: `ArraySerializer::read`. -/
def readArr (t : Ty) (r : M (Val t)) (N : Nat) : M (List (Val t)) :=
  match t, r with
  | .simple n, _ => do
    let dataLen := u32 (N * n)
    let off ← advance dataLen
    let bs ← load off dataLen
    M.pure (elements n N bs)
  | _, r => readAll r N

/-- Turn a list read by `readArr` into an array value (the length is right by construction; the
other branch is never taken, see `readArr_length`). -/
def toArr (t : Ty) (N : Nat) (l : List (Val t)) : M (Val (.arr t N)) := fun s =>
  if h : l.length = N then (.ok ⟨l, h⟩, s) else (.error .oob, s)

/-- Turn loaded bytes into a plain value (the length is right by construction). -/
def toPlain (n : Nat) (l : List Byte) : M (Val (.simple n)) := fun s =>
  if h : l.length = n then (.ok ⟨l, h⟩, s) else (.error .oob, s)

/-- Reading a value: src/utSerialization/ROSBinarySerialization.h l.130-133 (plain), l.165-170
(bool), l.197-207 (string). -/
def read : (t : Ty) → M (Val t)
  | .simple n => do
    let off ← advance n
    let bs ← load off n
    toPlain n bs
  | .bool => do
    let off ← advance 1
    let bs ← load off 1
    M.pure (show Bool from (decide (fromLe bs ≠ 0)))
  | .string => do
    let len ← readU32
    if len > 0 then do
      let off ← advance len
      load off len
    else M.pure ([] : List Byte)
  | .vec t => readVec t (read t)
  | .arr t N => do
    let l ← readArr t (read t) N
    toArr t N l

/-- `maxSerializedLength`: src/utSerialization/ROSBinarySerialization.h l.135-138 (plain), l.172-175
(bool), l.209-212 (string), l.254-264, 300-303, 342-351 (vectors), l.416-426, 452-455, 490-493
(arrays), in 32-bit arithmetic. The free functions `maxSerializationLength` for vectors and arrays
(l.375-379, 517-521) call a member `serializedLength` that does not exist and hence do not compile;
the model takes the member functions `maxSerializedLength` they evidently mean. -/
def maxLen : (t : Ty) → Val t → Nat
  | .simple n, _ => u32 n
  | .bool, _ => 1
  | .string, s => u32 (4 + u32 s.length)
  | .vec t, v =>
    match t, maxLen t, v with
    | .simple n, _, v => u32 (4 + v.length * n)
    | .bool, m, v => match v with
      | [] => 4
      | x :: _ => u32 (4 + m x * u32 v.length)
    | _, m, v => v.foldl (fun size x => u32 (size + m x)) 4
  | .arr t N, v =>
    match t, maxLen t, v.1 with
    | .simple n, _, _ => u32 (N * n)
    | .bool, m, l => match l with
      | [] => 0
      | x :: _ => u32 (m x * N)
    | _, m, l => l.foldl (fun size x => u32 (size + m x)) 0

/-- src/utSerialization/ROSBinarySerialization.h l.642-674: `LStream::next` on a sequence of values
accumulates their lengths. -/
def lengthStream : List ((t : Ty) × Val t) → Nat :=
  List.foldl (fun c x => u32 (c + maxLen x.1 x.2)) 0

end Ubitrack.Ros
