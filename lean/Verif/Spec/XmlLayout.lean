import Verif.Spec.XmlTree

/-!
# Specification: white space in XML files

The texts that stand for the nodes of a document, with white space wherever XML allows it, except before the '>' of an end tag.
-/

namespace Ubitrack.Xml

/-- Nothing but white space. -/
def IsWhite (w : Text) : Prop := ∀ c ∈ w, c ∈ whiteSpace

/-- An attribute: its name, '=', and its value in quotation marks of either kind. -/
def AttributeText (a : Text × Text) (t : Text) : Prop :=
  ∃ v w q, IsWhite v ∧ IsWhite w ∧ (q = '"' ∨ q = '\'') ∧ t = a.1 ++ v ++ ['='] ++ w ++ [q] ++ encode a.2 ++ [q]

/-- Attributes, each after white space. -/
def AttributesText : List (Text × Text) → Text → Prop
  | [], t => t = []
  | a :: as, t => ∃ w u s, IsWhite w ∧ w ≠ [] ∧ AttributeText a u ∧ AttributesText as s ∧ t = w ++ u ++ s

mutual
/-- A node. An element without children may be written as one tag or as two. -/
def NodeText : Node → Text → Prop
  | .element name attributes children, t =>
    ∃ a w, AttributesText attributes a ∧ IsWhite w ∧
      ((children = [] ∧ t = ['<'] ++ name ++ a ++ w ++ "/>".toList) ∨
       ∃ b, NodesText children b ∧ t = ['<'] ++ name ++ a ++ w ++ ['>'] ++ b ++ "</".toList ++ name ++ ['>'])
  | .text false v, t => t = encode v
  | .text true v, t => t = "<![CDATA[".toList ++ v ++ "]]>".toList
  | .comment v, t => t = "<!--".toList ++ v ++ "-->".toList
  | .unknown v, t => t = ['<'] ++ v ++ ['>']
  | .declaration version encoding standalone, t => t = printDeclaration version encoding standalone
/-- Nodes with white space before, between and after them. -/
def NodesText : List Node → Text → Prop
  | [], t => IsWhite t
  | n :: ns, t => ∃ w u s, IsWhite w ∧ NodeText n u ∧ NodesText ns s ∧ t = w ++ u ++ s
end

end Ubitrack.Xml
