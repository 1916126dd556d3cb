/-!
# Model of `utMeasurement/Measurement.h`

`Measurement< Type >` is a `boost::shared_ptr< Type >` plus a 64-bit timestamp. A program state is a
heap of payload cells and a list of live `Measurement` objects ("handles"). Deallocation is not
modelled (a cell is freed only when no handle points to it, so it is not observable).
Dereferencing an empty pointer, or naming an object that does not exist, has no result (`none`).
-/

namespace Ubitrack.Meas

/-- src/utMeasurement/Measurement.h l.134-152: the two members of a `Measurement`. `ptr` is the
address held by the `shared_ptr` base class. -/
structure Handle where
  ptr : Option Nat
  time : BitVec 64
deriving DecidableEq

/-- src/utMeasurement/Measurement.h l.152: `INVALID = 0`. -/
def INVALID : BitVec 64 := 0

/-- All payload cells ever allocated and all `Measurement` objects. -/
structure St (α : Type) where
  heap : List α
  hs : List Handle

/-- The operations of the class. `h`, `g` are indices of existing objects; constructors append the
new object at the end. -/
inductive Op (α : Type) where
  /-- l.160 `Measurement()` -/
  | mkDefault
  /-- l.165 `Measurement( t )` -/
  | mkTime (t : BitVec 64)
  /-- l.170 `Measurement( shared_ptr p )`, with the pointer held by object `h` -/
  | mkShared (h : Nat)
  /-- l.176 `Measurement( const Type& )` -/
  | mkValue (v : α)
  /-- l.182 `Measurement( t, shared_ptr p )` -/
  | mkTimeShared (t : BitVec 64) (h : Nat)
  /-- l.188 `Measurement( t, const Type& )` -/
  | mkTimeValue (t : BitVec 64) (v : α)
  /-- implicit copy constructor; also l.233 `constCast()` -/
  | copy (h : Nat)
  /-- implicit assignment `h = g` -/
  | assign (h g : Nat)
  /-- l.208 `clone()` -/
  | clone (h : Nat)
  /-- l.196 `time( t )` -/
  | setTime (h : Nat) (t : BitVec 64)
  /-- l.227 `invalidate()` -/
  | invalidate (h : Nat)
  /-- `*h = v` -/
  | write (h : Nat) (v : α)
  /-- `h.reset()` of the `shared_ptr` base class -/
  | reset (h : Nat)

variable {α : Type}

/-- src/utMeasurement/Measurement.h l.170-185: construct from pointer and timestamp. -/
def addPtr (s : St α) (t : BitVec 64) (p : Option Nat) : St α :=
  { s with hs := s.hs ++ [⟨p, t⟩] }

/-- src/utMeasurement/Measurement.h l.176-191: construct with a freshly allocated copy of the value. -/
def addVal (s : St α) (t : BitVec 64) (v : α) : St α :=
  ⟨s.heap ++ [v], s.hs ++ [⟨some s.heap.length, t⟩]⟩

/-- src/utMeasurement/Measurement.h l.160-235: the effect of one call. -/
def step (s : St α) : Op α → Option (St α)
  | .mkDefault => some (addPtr s INVALID none)
  | .mkTime t => some (addPtr s t none)
  | .mkShared h => do let m ← s.hs[h]?; some (addPtr s 0 m.ptr)
  | .mkValue v => some (addVal s 0 v)
  | .mkTimeShared t h => do let m ← s.hs[h]?; some (addPtr s t m.ptr)
  | .mkTimeValue t v => some (addVal s t v)
  | .copy h => do let m ← s.hs[h]?; some (addPtr s m.time m.ptr)
  | .assign h g => do
      let _ ← s.hs[h]?
      let m ← s.hs[g]?
      some { s with hs := s.hs.set h m }
  | .clone h => do
      let m ← s.hs[h]?
      match m.ptr with
      | some a => do let v ← s.heap[a]?; some (addVal s m.time v)
      | none => some (addPtr s m.time none)
  | .setTime h t => do let m ← s.hs[h]?; some { s with hs := s.hs.set h { m with time := t } }
  | .invalidate h => do
      let m ← s.hs[h]?
      some { s with hs := s.hs.set h { m with time := INVALID } }
  | .write h v => do
      let m ← s.hs[h]?
      let a ← m.ptr
      let _ ← s.heap[a]?
      some { s with heap := s.heap.set a v }
  | .reset h => do let m ← s.hs[h]?; some { s with hs := s.hs.set h { m with ptr := none } }

/-- A program: operations in sequence. -/
def run (s : St α) : List (Op α) → Option (St α)
  | [] => some s
  | op :: ops => do let s' ← step s op; run s' ops

/-- The start of a program: nothing allocated, no objects. -/
def init : St α := ⟨[], []⟩

/-- src/utMeasurement/Measurement.h l.202-203: `time()`. -/
def timeOf (s : St α) (h : Nat) : Option (BitVec 64) := (s.hs[h]?).map Handle.time

/-- src/utMeasurement/Measurement.h l.219-222: `invalid()`. -/
def invalid (s : St α) (h : Nat) : Option Bool := (s.hs[h]?).map (fun m => m.time == INVALID)

/-- `*h`: the payload seen through an object; `none` when the pointer is empty (undefined
behaviour in C++) or the object does not exist. -/
def payload (s : St α) (h : Nat) : Option α := do
  let m ← s.hs[h]?
  let a ← m.ptr
  s.heap[a]?

/-- src/utMeasurement/Measurement.h l.247-252: `serialize` when writing: timestamp then payload;
dereferences the pointer. -/
def serialize (s : St α) (h : Nat) : Option (BitVec 64 × α) := do
  let t ← timeOf s h
  let v ← payload s h
  some (t, v)

end Ubitrack.Meas
