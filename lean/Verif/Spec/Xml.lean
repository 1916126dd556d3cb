import Verif.Model.Xml

/-!
# Specification: characters, names, attributes and texts of XML files
-/

namespace Ubitrack.Xml

/-- The UTF-8 form of a Unicode character, one `char` per byte. -/
def utf8Bytes (c : Char) : Text := (String.utf8EncodeChar c).map (fun b => Char.ofNat b.toNat)

/-- The UTF-8 form of some sequence of Unicode characters. -/
def IsUtf8 (s : Text) : Prop := ∃ cs : List Char, s = cs.flatMap utf8Bytes

/-- A text that is complete in the encoding: any bytes, except for UTF-8. -/
def WellEncoded (e : Encoding) (s : Text) : Prop := e = .utf8 → IsUtf8 s

/-- The characters that introduce a hexadecimal reference do not occur. -/
def NoReference (s : Text) : Prop := ¬ ['&', '#', 'x'] <:+: s

/-- A name: a letter or an underscore, then letters, digits, underscores, hyphens, points, colons and characters beyond ASCII. -/
def IsName (n : Text) : Prop :=
  ∃ c s, n = c :: s ∧ (c.isAlpha = true ∨ c = '_') ∧ ∀ d ∈ s, d.isAlphanum = true ∨ d ∈ ['_', '-', '.', ':'] ∨ 127 ≤ d.toNat

/-- The byte order mark and the two codes that are no characters, in UTF-8. -/
def marks : List Text := ['\uFEFF', '\uFFFE', '\uFFFF'].map utf8Bytes

/-- The words of a text, separated by single blanks. -/
def condensed (s : Text) : Text := [' '].intercalate ((s.splitOn ' ').filter (· ≠ []))

/-- The value of a digit; letters count in both cases. -/
def digitValue (c : Char) : ℕ := "0123456789abcdef".toList.idxOf c.toLower

/-- The value of a numeral. -/
def numeralValue (base : ℕ) (ds : Text) : ℕ := ds.foldl (fun n c => n * base + digitValue c) 0

end Ubitrack.Xml
