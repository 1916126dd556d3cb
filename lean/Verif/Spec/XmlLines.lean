import Verif.Model.XmlTree

/-!
# Specification: the lines of a printed XML document
-/

namespace Ubitrack.Xml

/-- Printable characters that are not escaped. -/
def Ordinary (t : Text) : Prop := ∀ c ∈ t, 32 ≤ c.toNat ∧ c.toNat < 127 ∧ c ≠ '&' ∧ c ≠ '<' ∧ c ≠ '>' ∧ c ≠ '"' ∧ c ≠ '\''

/-- `<name a="v" b="w"` and what it ends with. -/
def startTag (name : Text) (attributes : List (Text × Text)) (ending : Text) : Text :=
  "<".toList ++ name ++ attributes.flatMap (fun a => " ".toList ++ a.1 ++ "=\"".toList ++ a.2 ++ "\"".toList) ++ ending

/-- The text, if it is all there is. -/
def singleText : List Node → Option Text
  | [.text false value] => some value
  | _ => none

/-- One entry of a declaration, which is left out if it is empty. -/
def declared (name value : Text) : Text := if value = [] then [] else name ++ "=\"".toList ++ value ++ "\" ".toList

mutual
/-- The lines of a node, each with its level. An element without children or with a text only is on one line; of other elements the start
tag and the end tag are on lines of their own, and the children are in between, one level deeper. -/
def lines (level : ℕ) : Node → List (ℕ × Text)
  | .element name attributes children =>
    match singleText children with
    | some value => [(level, startTag name attributes ">".toList ++ value ++ "</".toList ++ name ++ ">".toList)]
    | none => if children.isEmpty then [(level, startTag name attributes " />".toList)]
      else (level, startTag name attributes ">".toList) :: linesAll (level + 1) children ++ [(level, "</".toList ++ name ++ ">".toList)]
  | .text _ value => [(level, value)]
  | .comment value => [(level, "<!--".toList ++ value ++ "-->".toList)]
  | .unknown value => [(level, "<".toList ++ value ++ ">".toList)]
  | .declaration version encoding standalone => [(level, "<?xml ".toList ++ declared "version".toList version ++
      declared "encoding".toList encoding ++ declared "standalone".toList standalone ++ "?>".toList)]
/-- The lines of several nodes. -/
def linesAll (level : ℕ) : List Node → List (ℕ × Text)
  | [] => []
  | n :: ns => lines level n ++ linesAll level ns
end

mutual
/-- Elements, comments and the like with ordinary contents; texts are only in elements without other children. -/
def Laid : Node → Prop
  | .element name attributes children => Ordinary name ∧ (∀ a ∈ attributes, Ordinary a.1 ∧ Ordinary a.2) ∧
      ((∃ value, children = [.text false value] ∧ Ordinary value) ∨ LaidAll children)
  | .text _ _ => False
  | .comment value => Ordinary value
  | .unknown value => Ordinary value
  | .declaration _ _ _ => False
/-- All of them are. -/
def LaidAll : List Node → Prop
  | [] => True
  | n :: ns => Laid n ∧ LaidAll ns
end

/-- A document of such nodes; it may begin with a declaration. -/
def LaidDocument (d : Document) : Prop :=
  LaidAll d.nodes ∨ ∃ version encoding standalone nodes, d.nodes = .declaration version encoding standalone :: nodes ∧
    Ordinary version ∧ Ordinary encoding ∧ Ordinary standalone ∧ LaidAll nodes

/-- Lines with an indentation for each level and a line break behind each. -/
def inLines (indentation lineBreak : Text) (ls : List (ℕ × Text)) : Text :=
  ls.flatMap fun l => (List.replicate l.1 indentation).flatten ++ l.2 ++ lineBreak

end Ubitrack.Xml
