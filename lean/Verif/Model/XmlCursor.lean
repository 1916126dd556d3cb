import Verif.Model.Xml

/-!
# Model: rows and columns in XML files

3rd/tinyxml/tinyxmlparser.cpp: `TiXmlParsingData`. A position is given by the characters that follow it, as in `Model/Xml.lean`;
`p < now` means that more characters follow `p`. A step beyond the end of the text is taken as a step to the end: nothing is read there,
because the loop ends.
-/

namespace Ubitrack.Xml

/-- tinyxmlparser.cpp l.190-191: the cursor (row and column from 0) and the position it belongs to. -/
structure Cursor where
  row : ℕ
  col : ℕ
  stamp : Text
  deriving DecidableEq, Repr

/-- tinyxmlparser.cpp l.232-234, 248-250: a character that belongs to the line break is skipped. -/
def eat (c : Char) : Text → Text
  | d :: s => if d = c then s else d :: s
  | [] => []

/-- tinyxmlparser.cpp l.214-303: one turn of the loop; the terminating null character is never reached there. -/
def stampStep (e : Encoding) (tabsize : ℕ) (k : Cursor) : Cursor :=
  match k.stamp with
  | [] => k
  | c :: s =>
    if c = '\r' then ⟨k.row + 1, 0, eat '\n' s⟩
    else if c = '\n' then ⟨k.row + 1, 0, eat '\r' s⟩
    else if c = '\t' then ⟨k.row, (k.col / tabsize + 1) * tabsize, s⟩
    else if c.toNat = 0xef then
      if e = .utf8 then
        match s with
        | b :: d :: t => ⟨k.row, if isMark c b d then k.col else k.col + 1, t⟩
        | _ => k
      else ⟨k.row, k.col + 1, s⟩
    else if e = .utf8 then ⟨k.row, k.col + 1, (c :: s).drop (byteCount c)⟩
    else ⟨k.row, k.col + 1, s⟩

/-- tinyxmlparser.cpp l.212-304: the loop up to the position that `now` characters follow. `none`: it is still running after that many
turns. -/
def stampLoop (e : Encoding) (tabsize now : ℕ) : ℕ → Cursor → Option Cursor
  | 0, _ => none
  | f + 1, k => if now < k.stamp.length then stampLoop e tabsize now f (stampStep e tabsize k) else some k

/-- tinyxmlparser.cpp l.196-311: `Stamp`, with a limit for the number of turns. -/
def stamp (e : Encoding) (tabsize : ℕ) (limit : ℕ) (k : Cursor) (now : Text) : Option Cursor :=
  if tabsize < 1 then some k else stampLoop e tabsize now.length limit k

end Ubitrack.Xml
