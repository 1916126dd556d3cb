import Verif.Spec.Xml
import Verif.Model.XmlTree

/-!
# Specification: XML documents that can be written and read back
-/

namespace Ubitrack.Xml

/-- White space. -/
def whiteSpace : List Char := [' ', '\t', '\n', '\x0b', '\x0c', '\r']

/-- No carriage return and no null character. -/
def NoReturn (v : Text) : Prop := '\r' ∉ v ∧ '\x00' ∉ v

/-- A text that is in condensed form, not blank, and does not begin with a byte order mark. -/
def IsPlainText (e : Encoding) (v : Text) : Prop :=
  NoReference v ∧ WellEncoded e v ∧ v.head? ≠ some ' ' ∧ v.getLast? ≠ some ' ' ∧ ¬ [' ', ' '] <:+: v ∧ (∃ c ∈ v, c ∉ whiteSpace) ∧
    (e = .utf8 → ∀ m ∈ marks, ¬ m <+: v)

/-- What can stand between '<' and '>' without being something else. -/
def IsOther (v : Text) : Prop :=
  '>' ∉ v ∧ NoReturn v ∧ (∀ c, v.head? = some c → c ≠ '/' ∧ c ≠ '_' ∧ c.isAlpha = false ∧ c.toNat < 127) ∧
    ¬ "?xml".toList <+: v.map Char.toLower ∧ ¬ "!--".toList <+: v ∧ ¬ "![CDATA[".toList <+: v

/-- A plain text node. -/
def Node.IsPlain : Node → Prop
  | .text false _ => True
  | _ => False

mutual
/-- A node with valid names and contents, in which no two plain texts are neighbours. -/
def WellFormed (e : Encoding) : Node → Prop
  | .element name attributes children =>
    IsName name ∧ (∀ a ∈ attributes, IsName a.1 ∧ NoReference a.2 ∧ WellEncoded e a.2) ∧ (attributes.map Prod.fst).Nodup ∧
      WellFormedAll e children ∧ children.IsChain (fun a b => ¬ (a.IsPlain ∧ b.IsPlain))
  | .text false v => IsPlainText e v
  | .text true v => NoReturn v ∧ ¬ "]]>".toList <:+: v
  | .comment v => NoReturn v ∧ ¬ "-->".toList <:+: v
  | .unknown v => IsOther v
  | .declaration _ _ _ => False
/-- All nodes of a list are well formed. -/
def WellFormedAll (e : Encoding) : List Node → Prop
  | [] => True
  | n :: ns => WellFormed e n ∧ WellFormedAll e ns
end

/-- A value in a declaration: printable characters, no quotation mark, no reference. -/
def IsDeclared (v : Text) : Prop := ∀ c ∈ v, 32 ≤ c.toNat ∧ c.toNat < 127 ∧ c ≠ '"' ∧ c ≠ '&'

/-- The encoding that a declaration names. -/
def namedEncoding (name : Text) : Encoding :=
  if name = [] ∨ "utf-8".toList <+: name.map Char.toLower ∨ "utf8".toList <+: name.map Char.toLower then .utf8 else .legacy

/-- A document with an optional declaration followed by elements, comments and the like; at least one node. -/
def IsDocument (d : Document) : Prop :=
  (∃ version encoding standalone nodes, d.nodes = .declaration version encoding standalone :: nodes ∧ IsDeclared version ∧
    IsDeclared encoding ∧ IsDeclared standalone ∧
    ∀ n ∈ nodes, WellFormed (if d.bom then .utf8 else namedEncoding encoding) n ∧ ¬ n.IsPlain) ∨
  (d.nodes ≠ [] ∧ ∀ n ∈ d.nodes, WellFormed (if d.bom then .utf8 else .unknown) n ∧ ¬ n.IsPlain)

end Ubitrack.Xml
