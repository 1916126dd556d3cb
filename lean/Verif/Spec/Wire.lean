/-!
# Specification for the ROS style binary format: the type universe and the wire size

Independent of the serializer code: what values there are and how many bytes each takes.
-/

namespace Ubitrack.Ros

abbrev Byte := BitVec 8

/-- The serializable types: fixed-width plain types (`uint8_t` … `double`, given by their size in
bytes), `bool`, `std::string`, `std::vector<T>` and `boost::array<T, N>`. -/
inductive Ty where
  | simple (size : Nat)
  | bool
  | string
  | vec (t : Ty)
  | arr (t : Ty) (n : Nat)

/-- Values of a type. A fixed-width value is its object representation. -/
@[reducible] def Val : Ty → Type
  | .simple n => { l : List Byte // l.length = n }
  | .bool => Bool
  | .string => List Byte
  | .vec t => List (Val t)
  | .arr t n => { l : List (Val t) // l.length = n }

/-- Number of bytes of a value in the format: strings and vectors carry a four byte length,
arrays do not. -/
def wireSize : (t : Ty) → Val t → Nat
  | .simple n, _ => n
  | .bool, _ => 1
  | .string, s => 4 + s.length
  | .vec t, v => 4 + (v.map (wireSize t)).sum
  | .arr t _, v => (v.1.map (wireSize t)).sum

/-- All lengths in the value fit into 32 bits: string and vector lengths, and the byte counts of
vectors and arrays of plain types. -/
def Fits : (t : Ty) → Val t → Prop
  | .simple _, _ => True
  | .bool, _ => True
  | .string, s => s.length < 2 ^ 32
  | .vec t, (v : List (Val t)) => v.length < 2 ^ 32 ∧ (v.map (wireSize t)).sum < 2 ^ 32 ∧ ∀ x ∈ v, Fits t x
  | .arr t _, v => (v.1.map (wireSize t)).sum < 2 ^ 32 ∧ ∀ x ∈ v.1, Fits t x

/-- Every string in the value is shorter than 2^32 bytes. -/
def SmallStrings : (t : Ty) → Val t → Prop
  | .simple _, _ => True
  | .bool, _ => True
  | .string, s => s.length < 2 ^ 32
  | .vec t, (v : List (Val t)) => ∀ x ∈ v, SmallStrings t x
  | .arr t _, v => ∀ x ∈ v.1, SmallStrings t x

end Ubitrack.Ros
