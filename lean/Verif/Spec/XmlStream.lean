import Verif.Spec.XmlLayout
import Verif.Model.XmlStream

/-!
# Specification: XML documents that can be read from a stream
-/

namespace Ubitrack.Xml

mutual
/-- No comment begins with '>' or '->', no declaration contains '>', and no other tag looks like an end tag. -/
def Streamable : Node → Prop
  | .element _ _ children => StreamableAll children
  | .comment v => ¬ ['>'] <+: v ∧ ¬ ['-', '>'] <+: v
  | .unknown v => (v.dropWhile (fun c => c ∈ '<' :: whiteSpace)).head? ≠ some '/'
  | .declaration version encoding standalone => '>' ∉ version ∧ '>' ∉ encoding ∧ '>' ∉ standalone
  | .text _ _ => True
/-- All nodes of a list. -/
def StreamableAll : List Node → Prop
  | [] => True
  | n :: ns => Streamable n ∧ StreamableAll ns
end

/-- An element. -/
def Node.IsElement : Node → Prop
  | .element _ _ _ => True
  | _ => False

/-- One element, and before it whatever else; nothing behind it. -/
def IsSingle (d : Document) : Prop := ∃ before root, d.nodes = before ++ [root] ∧ root.IsElement ∧ ∀ n ∈ before, ¬ n.IsElement

/-- Reading from the stream again and again gives these documents, without errors, and leaves the rest, the stream being good. -/
def ReadsAll (f : ℕ) : List Document → Text → Text → Prop
  | [], s, rest => s = rest
  | d :: ds, s, rest => ∃ s', streamIn f s = .ok (.ok ⟨d, []⟩, ⟨s', true⟩) ∧ ReadsAll f ds s' rest

end Ubitrack.Xml
