import Verif.Spec.Xml
import Verif.Model.XmlCursor

/-!
# Specification: rows and columns of a text
-/

namespace Ubitrack.Xml

/-- The characters as they stand in the file: in UTF-8, or one byte each. -/
def stored (e : Encoding) (cs : List Char) : Text := if e = .utf8 then cs.flatMap utf8Bytes else cs

/-- The column after a character: the next tab stop after a tab, the same for the byte order mark and the two codes that are no characters,
otherwise the next. -/
def advance (tabsize col : ℕ) (c : Char) : ℕ :=
  if c = '\t' then (col / tabsize + 1) * tabsize else if c ∈ [Char.ofNat 0xfeff, Char.ofNat 0xfffe, Char.ofNat 0xffff] then col else col + 1

/-- The column after a text that begins at a column: its last line counts. -/
def columnAfter (tabsize col : ℕ) (cs : List Char) : ℕ :=
  ((cs.splitOn '\n').getLast?.getD []).foldl (advance tabsize) (if '\n' ∈ cs then 0 else col)

end Ubitrack.Xml
