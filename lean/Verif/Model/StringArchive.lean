/-!
# Model of `utUtil/SimpleStringOArchive.h` and `utUtil/SimpleStringIArchive.h`

Characters are their codes. `std::istringstream` extraction is modelled for the default flags (skip
white space, base ten): the leading white space is dropped; running out of characters before anything
is read sets `fail`; a number that ends with the string sets `eof`; a number out of range sets `fail`.
`double` and `float` items are not modelled (the stream prints six significant digits only), nor is
the recursion into composite classes, which writes their members one after the other.
-/

namespace Ubitrack.Arch

-- characters are `Nat` codes
abbrev Str := List Nat

/-- An item handed to the archive. -/
inductive Item where
  | int (z : Int)
  | uint (n : Nat)
  | ull (n : Nat)
  | char (c : Nat)
  deriving DecidableEq

/-- The type of the variable an item is read into. -/
inductive Kind where
  | int
  | uint
  | ull
  | char
  deriving DecidableEq

def Item.kind : Item → Kind
  | .int _ => .int
  | .uint _ => .uint
  | .ull _ => .ull
  | .char _ => .char

def space : Nat := 32
def minus : Nat := 45
def plus : Nat := 43

/-- `isspace` in the classic locale. -/
def isSpace (c : Nat) : Bool := c == 32 || (9 ≤ c && c ≤ 13)
def isDigit (c : Nat) : Bool := 48 ≤ c && c ≤ 57

/-- Decimal digits of a number, as printed by `operator<<`. -/
def showNat (n : Nat) : Str :=
  if n < 10 then [48 + n] else showNat (n / 10) ++ [48 + n % 10]
termination_by n

def showItem : Item → Str
  | .int z => if z < 0 then minus :: showNat z.natAbs else showNat z.natAbs
  | .uint n => showNat n
  | .ull n => showNat n
  | .char c => [c]

/-- src/utUtil/SimpleStringOArchive.h l.77-80: the output archive; `m_count` is `unsigned`. -/
structure OArch where
  str : Str
  count : BitVec 32

/-- src/utUtil/SimpleStringOArchive.h l.52-54. -/
def OArch.new : OArch := ⟨[], 0⟩

/-- src/utUtil/SimpleStringOArchive.h l.66-70, 97-111: `pre()` writes a separator unless this is the
first item, then the item is printed. -/
def OArch.put (a : OArch) (i : Item) : OArch :=
  ⟨(if a.count ≠ 0 then a.str ++ [space] else a.str) ++ showItem i, a.count + 1⟩

def writeAll (is : List Item) : Str := (is.foldl OArch.put OArch.new).str

/-- src/utUtil/SimpleStringIArchive.h l.77-80: the input archive: what is left of the string and the
stream state bits. -/
structure IArch where
  rest : Str
  eof : Bool
  fail : Bool

/-- src/utUtil/SimpleStringIArchive.h l.52-55. -/
def IArch.new (s : Str) : IArch := ⟨s, false, false⟩

def IArch.good (a : IArch) : Bool := !a.eof && !a.fail

/-- Value of a string of digits. -/
def value (ds : Str) : Nat := ds.foldl (fun a d => 10 * a + (d - 48)) 0

/-- `stream >> v` for an integer with the given range. Result: new stream, value if not failed. -/
def getInt (lo hi : Int) (a : IArch) : IArch × Int :=
  if !a.good then ({ a with fail := true }, 0)
  else
    let r := a.rest.dropWhile isSpace
    if r.isEmpty then (⟨[], true, true⟩, 0)
    else
      let neg := r.head? == some minus
      let r' := if r.head? == some minus || r.head? == some plus then r.tail else r
      let ds := r'.takeWhile isDigit
      let rest := r'.dropWhile isDigit
      let z : Int := if neg then - (value ds : Int) else (value ds : Int)
      let bad : Bool := ds.isEmpty || decide (z < lo) || decide (hi < z)
      (⟨rest, rest.isEmpty, bad⟩, z)

/-- `stream >> c` for a character. -/
def getChar (a : IArch) : IArch × Nat :=
  if !a.good then ({ a with fail := true }, 0)
  else
    match a.rest.dropWhile isSpace with
    | [] => (⟨[], true, true⟩, 0)
    | c :: cs => (⟨cs, false, false⟩, c)

/-- src/utUtil/SimpleStringIArchive.h l.63-74, 97-111: reading an item: `pre()`, extraction, `post()`.
`none` means an exception. -/
def IArch.get (a : IArch) (k : Kind) : Option (Item × IArch) :=
  if !a.good then none
  else
    match k with
    | .int =>
      let (a', z) := getInt (-2147483648) 2147483647 a
      if a'.fail then none else some (.int z, a')
    | .uint =>
      let (a', z) := getInt 0 4294967295 a
      if a'.fail then none else some (.uint z.toNat, a')
    | .ull =>
      let (a', z) := getInt 0 18446744073709551615 a
      if a'.fail then none else some (.ull z.toNat, a')
    | .char =>
      let (a', c) := getChar a
      if a'.fail then none else some (.char c, a')

/-- Reading a sequence of variables. -/
def IArch.getAll : List Kind → IArch → Option (List Item × IArch)
  | [], a => some ([], a)
  | k :: ks, a =>
    match a.get k with
    | none => none
    | some (i, a') =>
      match IArch.getAll ks a' with
      | none => none
      | some (is, a'') => some (i :: is, a'')

end Ubitrack.Arch
