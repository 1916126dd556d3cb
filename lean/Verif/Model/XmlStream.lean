import Verif.Model.XmlPrinter

/-!
# Model: reading an XML document from a stream

3rd/tinyxml/tinyxmlparser.cpp, `StreamIn`, and tinyxml.cpp l.1598-1606, `operator>>`. The functions copy characters from the stream into
`tag`, which is then parsed. The errors that they set are left out: `Parse` clears them (tinyxmlparser.cpp l.706). Characters are
bytes, and `peek` and `get` give no negative number but at the end.
-/

namespace Ubitrack.Xml

/-- A stream: the characters that have not been taken, and `good()`. -/
structure Input where
  rest : Text
  good : Bool
  deriving DecidableEq, Repr

/-- A loop that has not ended after the given number of steps, or an assertion. -/
inductive StreamFault
  | fuel
  | assertion
  deriving DecidableEq, Repr

/-- tinyxmlparser.cpp l.380-395: `StreamTo`, and whether the character has been found. -/
def streamTo (character : Char) (tag : Text) : Text → Text × Input × Bool
  | [] => (tag, ⟨[], false⟩, false)
  | c :: s =>
    if c = character then (tag, ⟨c :: s, true⟩, true)
    else if c = '\x00' then (tag, ⟨c :: s, true⟩, false)
    else streamTo character (tag ++ [c]) s

/-- tinyxmlparser.cpp l.365-378: `StreamWhiteSpace`. -/
def streamWhiteSpace (tag : Text) : Text → Text × Input
  | [] => (tag, ⟨[], false⟩)
  | c :: s => if isWhite c then streamWhiteSpace (tag ++ [c]) s else (tag, ⟨c :: s, true⟩)

/-- tinyxmlparser.cpp l.913-927, 1252-1269 and 1551-1568: up to '>', and whether it has been found. -/
def throughGreater (tag : Text) : Text → Text × Input × Bool
  | [] => (tag, ⟨[], false⟩, false)
  | c :: s =>
    if c = '\x00' then (tag, ⟨s, true⟩, false)
    else if c = '>' then (tag ++ [c], ⟨s, true⟩, true)
    else throughGreater (tag ++ [c]) s

/-- tinyxmlparser.cpp l.1308-1331: `TiXmlComment::StreamIn`. -/
def streamComment (tag : Text) : Text → Text × Input
  | [] => (tag, ⟨[], false⟩)
  | c :: s =>
    if c = '\x00' then (tag, ⟨s, true⟩)
    else if "-->".toList.isSuffixOf (tag ++ [c]) then (tag ++ [c], ⟨s, true⟩)
    else streamComment (tag ++ [c]) s

/-- tinyxmlparser.cpp l.1467-1495: `TiXmlText::StreamIn`. -/
def streamText (cdata : Bool) (tag : Text) : Text → Text × Input
  | [] => (tag, ⟨[], false⟩)
  | c :: s =>
    if !cdata && c == '<' then (tag, ⟨c :: s, true⟩)
    else if c = '\x00' then (tag, ⟨c :: s, true⟩)
    else if cdata && "]]>".toList.isSuffixOf (tag ++ [c]) then (tag ++ [c], ⟨s, true⟩)
    else streamText cdata (tag ++ [c]) s

/-- What the loop over a tag in an element ends with. -/
inductive PreRead
  | found (tag rest : Text) (closing : Bool)
  | stop (tag : Text) (input : Input)
  | assertion
  deriving DecidableEq, Repr

/-- tinyxmlparser.cpp l.969-1009: a tag in an element, up to '>' or the beginning of CDATA. -/
def preRead (tag : Text) (closing first : Bool) : Text → PreRead
  | [] => .stop tag ⟨[], false⟩
  | c :: s =>
    if c = '\x00' then .stop tag ⟨c :: s, true⟩
    else if c = '>' then .found tag (c :: s) closing
    else if c == '[' && "<![CDATA[".toList.isSuffixOf (tag ++ [c]) then
      if closing then .assertion else .found (tag ++ [c]) s closing
    else if !first && c ≠ '<' && !isWhite c then preRead (tag ++ [c]) (c == '/') true s
    else preRead (tag ++ [c]) closing first s

mutual
/-- `StreamIn` of the node that `Identify` makes: tinyxmlparser.cpp l.909-946 for elements, and the others. -/
def streamNode : ℕ → Kind → Text → Text → Except StreamFault (Text × Input)
  | 0, _, _, _ => .error .fuel
  | f + 1, .element, tag, s =>
    match throughGreater tag s with
    | (tag, i, false) => .ok (tag, i)
    | (tag, i, true) =>
      if tag.length < 3 then .ok (tag, i)
      else if "/>".toList.isSuffixOf tag then .ok (tag, i)
      else streamChildren f tag i
  | _ + 1, .comment, tag, s => .ok (streamComment tag s)
  | _ + 1, .cdata, tag, s => .ok (streamText true tag s)
  | _ + 1, .unknown, tag, s => .ok ((throughGreater tag s).1, (throughGreater tag s).2.1)
  | _ + 1, .declaration, tag, s => .ok ((throughGreater tag s).1, (throughGreater tag s).2.1)
/-- tinyxmlparser.cpp l.947-1044: the children of an element and its end tag. -/
def streamChildren : ℕ → Text → Input → Except StreamFault (Text × Input)
  | 0, _, _ => .error .fuel
  | f + 1, tag, i =>
    match (if i.good then streamWhiteSpace tag i.rest else (tag, i)) with
    | (tag, ⟨s, false⟩) => .ok (tag, ⟨s, false⟩)
    | (tag, ⟨[], true⟩) => streamChildren f tag ⟨[], false⟩
    | (tag, ⟨c :: s, true⟩) =>
      if c ≠ '<' then streamChildren f (streamText false tag (c :: s)).1 (streamText false tag (c :: s)).2
      else
        match preRead tag false false (c :: s) with
        | .stop tag i => .ok (tag, i)
        | .assertion => .error .assertion
        | .found tag' s' true => .ok (tag' ++ s'.take 1, ⟨s'.drop 1, true⟩)
        | .found tag' s' false =>
          match streamNode f (identify (tag'.drop tag.length)) tag' s' with
          | .error x => .error x
          | .ok (tag, i) => streamChildren f tag i
end

/-- tinyxmlparser.cpp l.659-668: up to '>'. -/
def readTag (tag : Text) : Text → Text × Input
  | [] => (tag, ⟨[], false⟩)
  | c :: s =>
    if c = '>' then (tag, ⟨c :: s, true⟩)
    else if c = '\x00' then (tag, ⟨s, true⟩)
    else readTag (tag ++ [c]) s

/-- tinyxmlparser.cpp l.656-697: the nodes up to the first element. -/
def streamNodes : ℕ → Text → Input → Except StreamFault (Text × Input)
  | 0, _, _ => .error .fuel
  | f + 1, tag, i =>
    if i.good = false then .ok (tag, i)
    else
      match readTag tag i.rest with
      | (tag', ⟨s, false⟩) => .ok (tag', ⟨s, false⟩)
      | (tag', ⟨s, true⟩) =>
        match skip .unknown (tag'.drop tag.length) with
        | '<' :: t =>
          match streamNode f (identify ('<' :: t)) tag' s with
          | .error x => .error x
          | .ok (tag, i) => if identify ('<' :: t) = .element then .ok (tag, i) else streamNodes f tag i
        | _ => .ok (tag', ⟨s, true⟩)

/-- tinyxmlparser.cpp l.641-700: `TiXmlDocument::StreamIn`, with a bound on the number of steps. -/
def streamDocument (f : ℕ) (s : Text) : Except StreamFault (Text × Input) :=
  match streamTo '<' [] s with
  | (tag, i, false) => .ok (tag, i)
  | (tag, i, true) => streamNodes f tag i

/-- tinyxml.cpp l.1598-1606: `operator>>` for a new document: what is read, and the stream afterwards. -/
def streamIn (f : ℕ) (s : Text) : Except StreamFault (Except Fault Loaded × Input) :=
  match streamDocument f s with
  | .error x => .error x
  | .ok (tag, i) => .ok (parse tag, i)

end Ubitrack.Xml
