import Verif.Model.XmlEdit
import Mathlib.Data.Rat.Floor

/-!
# Model: attributes of XML elements

3rd/tinyxml/tinyxml.cpp and tinyxml.h. Lists of attributes are in `Model/XmlEdit.lean`; here are numbers as values. `double` values are modelled by the rational numbers they
stand for; the rounding of a text to the next `double` is left out, as are infinities, NaN, exponents and hexadecimal texts.
-/

namespace Ubitrack.XmlAttribute

open XmlEdit

/-- `isspace`. -/
def isWhite (c : Char) : Bool := c = ' ' || (9 ≤ c.toNat && c.toNat ≤ 13)

/-- An optional sign. -/
def sign (s : Text) : Bool × Text :=
  match s with
  | '-' :: r => (true, r)
  | '+' :: r => (false, r)
  | r => (false, r)

/-- The results of the `Query` functions; `undefined`: the number does not fit into an `int`. -/
inductive Query (α : Type) where
  | success (v : α)
  | noAttribute
  | wrongType
  | undefined
deriving DecidableEq

/-- tinyxml.cpp l.1240-1245, `QueryIntValue`: `sscanf` with `%d`. -/
def queryInt (s : Text) : Query ℤ :=
  let r := sign (s.dropWhile isWhite)
  let digits := r.2.takeWhile Char.isDigit
  if digits = [] then .wrongType
  else
    let n : ℤ := Nat.ofDigitChars 10 digits 0
    let v := if r.1 then -n else n
    if -2 ^ 31 ≤ v ∧ v < 2 ^ 31 then .success v else .undefined

/-- tinyxml.cpp l.643-649, `QueryIntAttribute`. -/
def queryIntAttribute (as : List (Text × Text)) (name : Text) : Query ℤ :=
  match attributeOf as name with
  | none => .noAttribute
  | some s => queryInt s

/-- `%d`. -/
def showInt (v : ℤ) : Text := if v < 0 then '-' :: Nat.toDigits 10 v.natAbs else Nat.toDigits 10 v.natAbs

/-- tinyxml.cpp l.683-692, `SetAttribute` with an `int`. -/
def setInt (as : List (Text × Text)) (name : Text) (v : ℤ) : List (Text × Text) := setAttribute as name (showInt v)

/-- The next whole number, the even one of two. -/
def roundEven (q : ℚ) : ℕ :=
  if q - ⌊q⌋₊ < 1 / 2 then ⌊q⌋₊
  else if 1 / 2 < q - ⌊q⌋₊ then ⌊q⌋₊ + 1
  else if ⌊q⌋₊ % 2 = 0 then ⌊q⌋₊ else ⌊q⌋₊ + 1

/-- Six digits. -/
def six (k : ℕ) : Text := List.replicate (6 - (Nat.toDigits 10 k).length) '0' ++ Nat.toDigits 10 k

/-- `%f`. -/
def showFixed (q : ℚ) : Text :=
  let k := roundEven (|q| * 10 ^ 6)
  let s := Nat.toDigits 10 (k / 10 ^ 6) ++ '.' :: six (k % 10 ^ 6)
  if q < 0 then '-' :: s else s

/-- tinyxml.cpp l.705-714, `SetDoubleAttribute`: at most 255 characters (`snprintf`). -/
def setDouble (as : List (Text × Text)) (name : Text) (q : ℚ) : List (Text × Text) := setAttribute as name ((showFixed q).take 255)

/-- tinyxml.cpp l.1247-1252, `QueryDoubleValue`: `sscanf` with `%lf`. -/
def queryDouble (s : Text) : Query ℚ :=
  let r := sign (s.dropWhile isWhite)
  let whole := r.2.takeWhile Char.isDigit
  let fraction := match r.2.dropWhile Char.isDigit with
    | '.' :: f => f.takeWhile Char.isDigit
    | _ => []
  if whole ++ fraction = [] then .wrongType
  else
    let v : ℚ := (Nat.ofDigitChars 10 (whole ++ fraction) 0 : ℚ) / 10 ^ fraction.length
    .success (if r.1 then -v else v)

/-- tinyxml.cpp l.663-669, `QueryDoubleAttribute`. -/
def queryDoubleAttribute (as : List (Text × Text)) (name : Text) : Query ℚ :=
  match attributeOf as name with
  | none => .noAttribute
  | some s => queryDouble s

/-- tinyxml.h l.836, `SetName` of the attribute found under a name. -/
def rename : List (Text × Text) → Text → Text → List (Text × Text)
  | [], _, _ => []
  | a :: as, name, new => if a.1 = name then (new, a.2) :: as else a :: rename as name new

/-- Calls of an element. -/
inductive Op where
  | set (name value : Text)
  | remove (name : Text)
deriving DecidableEq

def step (as : List (Text × Text)) : Op → List (Text × Text)
  | .set n v => setAttribute as n v
  | .remove n => removeAttribute as n

/-- A history from a new element on. -/
def run (ops : List Op) : List (Text × Text) := ops.foldl step []

end Ubitrack.XmlAttribute
