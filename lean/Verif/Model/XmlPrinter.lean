import Verif.Model.XmlTree

/-!
# Model: printing an XML document to memory

3rd/tinyxml/tinyxml.h l.1733-1794 and tinyxml.cpp l.1758-1887: `TiXmlPrinter`, with the traversal of `Accept` (tinyxml.cpp l.846-857,
1160-1171, 1317-1320, 1363-1366, 1452-1455, 1484-1487). All `Visit` functions return true, so that no traversal ends early.
-/

namespace Ubitrack.Xml

/-- tinyxml.h l.1789-1793: the members of a printer. -/
structure Printer where
  depth : ℕ
  simpleTextPrint : Bool
  buffer : Text
  indent : Text
  lineBreak : Text
  deriving Repr

namespace Printer

/-- tinyxml.h l.1736-1737: a new printer. -/
def new : Printer := ⟨0, false, [], "    ".toList, "\n".toList⟩

/-- tinyxml.h l.1753: `SetIndent`. -/
def setIndent (p : Printer) (s : Text) : Printer := { p with indent := cString s }

/-- tinyxml.h l.1760: `SetLineBreak`. -/
def setLineBreak (p : Printer) (s : Text) : Printer := { p with lineBreak := cString s }

/-- tinyxml.h l.1767-1769: `SetStreamPrinting`. -/
def setStreamPrinting (p : Printer) : Printer := { p with indent := [], lineBreak := [] }

/-- `buffer += s`. -/
def add (p : Printer) (s : Text) : Printer := { p with buffer := p.buffer ++ s }

/-- tinyxml.h l.1781-1784: `DoIndent`. -/
def doIndent (p : Printer) : Printer := p.add (List.replicate p.depth p.indent).flatten

/-- tinyxml.h l.1785-1787: `DoLineBreak`. -/
def doLineBreak (p : Printer) : Printer := p.add p.lineBreak

/-- tinyxml.cpp l.1214-1237: `TiXmlAttribute::Print` to a string. -/
def addAttribute (p : Printer) (a : Text × Text) : Printer :=
  if '"' ∉ a.2 then p.add (encode a.1 ++ "=\"".toList ++ encode a.2 ++ "\"".toList)
  else p.add (encode a.1 ++ "='".toList ++ encode a.2 ++ "'".toList)

/-- tinyxml.cpp l.1788-1790: there is one child, a text that is not CDATA. -/
def simpleChild : List Node → Bool
  | [.text false _] => true
  | _ => false

/-- tinyxml.cpp l.1768-1802: `VisitEnter` of an element. -/
def enter (p : Printer) (name : Text) (attributes : List (Text × Text)) (children : List Node) : Printer :=
  let p := (p.doIndent.add "<".toList).add (cString name)
  let p := attributes.foldl (fun p a => (p.add " ".toList).addAttribute a) p
  let p := if children.isEmpty then (p.add " />".toList).doLineBreak
    else if simpleChild children then { p.add ">".toList with simpleTextPrint := true }
    else (p.add ">".toList).doLineBreak
  { p with depth := p.depth + 1 }

/-- tinyxml.cpp l.1805-1828: `VisitExit` of an element. -/
def exit (p : Printer) (name : Text) (children : List Node) : Printer :=
  let p := { p with depth := p.depth - 1 }
  if children.isEmpty then p
  else
    let p := if p.simpleTextPrint then { p with simpleTextPrint := false } else p.doIndent
    (((p.add "</".toList).add (cString name)).add ">".toList).doLineBreak

/-- tinyxml.cpp l.1831-1856: `Visit` of a text. -/
def visitText (p : Printer) (cdata : Bool) (value : Text) : Printer :=
  if cdata then (((p.doIndent.add "<![CDATA[".toList).add (cString value)).add "]]>".toList).doLineBreak
  else if p.simpleTextPrint then p.add (encode value)
  else (p.doIndent.add (encode value)).doLineBreak

/-- tinyxml.cpp l.1420-1439: one attribute of a declaration, to a string. -/
def addDeclared (p : Printer) (name value : Text) : Printer :=
  if value = [] then p else ((p.add (name ++ "=\"".toList)).add value).add "\" ".toList

/-- tinyxml.cpp l.1859-1865 and 1420-1439: `Visit` of a declaration. -/
def visitDeclaration (p : Printer) (version encoding standalone : Text) : Printer :=
  let p := p.doIndent.add "<?xml ".toList
  let p := ((p.addDeclared "version".toList version).addDeclared "encoding".toList encoding).addDeclared "standalone".toList standalone
  (p.add "?>".toList).doLineBreak

/-- tinyxml.cpp l.1868-1876: `Visit` of a comment. -/
def visitComment (p : Printer) (value : Text) : Printer :=
  (((p.doIndent.add "<!--".toList).add (cString value)).add "-->".toList).doLineBreak

/-- tinyxml.cpp l.1879-1887: `Visit` of an unknown node. -/
def visitUnknown (p : Printer) (value : Text) : Printer :=
  (((p.doIndent.add "<".toList).add (cString value)).add ">".toList).doLineBreak

mutual
/-- tinyxml.cpp l.846-857, 1317-1320, 1363-1366, 1452-1455, 1484-1487: `Accept`. -/
def accept (p : Printer) : Node → Printer
  | .element name attributes children => (acceptAll (p.enter name attributes children) children).exit name children
  | .text cdata value => p.visitText cdata value
  | .comment value => p.visitComment value
  | .unknown value => p.visitUnknown value
  | .declaration version encoding standalone => p.visitDeclaration version encoding standalone
/-- tinyxml.cpp l.850-854 and 1164-1168: the children in order. -/
def acceptAll (p : Printer) : List Node → Printer
  | [] => p
  | n :: ns => acceptAll (p.accept n) ns
end

/-- tinyxml.cpp l.1160-1171 and 1758-1766: a document is visited; `VisitEnter` and `VisitExit` of a document do nothing. -/
def acceptDocument (p : Printer) (d : Document) : Printer := p.acceptAll d.nodes

end Printer

/-- tinyxml.cpp l.1611-1630: `operator<<`: what is appended to the stream or string. -/
def streamOut (d : Document) : Text := (Printer.new.setStreamPrinting.acceptDocument d).buffer

end Ubitrack.Xml
