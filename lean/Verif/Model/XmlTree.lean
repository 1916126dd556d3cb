import Verif.Model.Xml

/-!
# Model: XML documents

3rd/tinyxml/tinyxml.cpp and tinyxmlparser.cpp: writing a document to a file and reading it. Rows and columns (`Stamp`) are left out
here, see `Model/XmlCursor.lean`; so are `StreamIn` and the visitor interface. Errors are listed in the order in which `SetError` is
called; the document keeps the first one (tinyxmlparser.cpp l.800-802). Memory is never short.
-/

namespace Ubitrack.Xml

/-- tinyxml.h l.425-1100: the nodes of a document with their values. Attributes are in the order of the list that holds them. -/
inductive Node
  | element (name : Text) (attributes : List (Text × Text)) (children : List Node)
  | text (cdata : Bool) (value : Text)
  | comment (value : Text)
  | unknown (value : Text)
  | declaration (version encoding standalone : Text)
  deriving Repr

/-- tinyxml.h l.266-286: the errors that can be reported here. -/
inductive Err
  | parsingElement
  | failedToReadElementName
  | readingElementValue
  | readingAttributes
  | parsingEmpty
  | readingEndTag
  | documentEmpty
  deriving DecidableEq, Repr

/-! ## Writing -/

/-- tinyxml.cpp l.775-777: four blanks per level. -/
def indent (depth : ℕ) : Text := List.replicate (4 * depth) ' '

/-- tinyxml.cpp l.782-786. -/
def printAttributes (attributes : List (Text × Text)) : Text := attributes.flatMap (fun a => ' ' :: printAttribute a.1 a.2)

/-- tinyxml.cpp l.1335-1353: `TiXmlText::Print`. -/
def printText (depth : ℕ) (cdata : Bool) (value : Text) : Text :=
  if cdata then '\n' :: indent depth ++ "<![CDATA[".toList ++ cString value ++ "]]>\n".toList else cString (encode value)

/-- tinyxml.cpp l.1420-1439: one attribute of a declaration. -/
def printDeclared (name value : Text) : Text := if value = [] then [] else name ++ "=\"".toList ++ cString value ++ "\" ".toList

/-- tinyxml.cpp l.1420-1439: `TiXmlDeclaration::Print`. -/
def printDeclaration (version encoding standalone : Text) : Text :=
  "<?xml ".toList ++ printDeclared "version".toList version ++ printDeclared "encoding".toList encoding ++
    printDeclared "standalone".toList standalone ++ "?>".toList

/-- `ToText() != 0`. -/
def isText : Node → Bool
  | .text _ _ => true
  | _ => false

/-- tinyxml.cpp l.797: there is one child, and it is a text. -/
def onlyText : List Node → Bool
  | [n] => isText n
  | _ => false

mutual
/-- tinyxml.cpp l.771-821, 1300-1308, 1335-1353, 1420-1439, 1470-1475: `Print`. -/
def printNode (depth : ℕ) : Node → Text
  | .element name attributes children =>
    indent depth ++ '<' :: cString name ++ printAttributes attributes ++
      (if children.isEmpty then " />".toList
       else '>' :: printChildren (depth + 1) children ++ (if onlyText children then [] else '\n' :: indent depth) ++
         "</".toList ++ cString name ++ ">".toList)
  | .text cdata value => printText depth cdata value
  | .comment value => indent depth ++ "<!--".toList ++ cString value ++ "-->".toList
  | .unknown value => indent depth ++ '<' :: cString value ++ ">".toList
  | .declaration version encoding standalone => printDeclaration version encoding standalone
/-- tinyxml.cpp l.797-814: the children; a line break before those that are no texts. -/
def printChildren (depth : ℕ) : List Node → Text
  | [] => []
  | n :: ns => (if isText n then [] else ['\n']) ++ printNode depth n ++ printChildren depth ns
end

/-- tinyxml.cpp l.1149-1157: `TiXmlDocument::Print`. -/
def printDocument (nodes : List Node) : Text := nodes.flatMap (fun n => printNode 0 n ++ ['\n'])

/-- The bytes EF BB BF. -/
def byteOrderMark : Text := [Char.ofNat 0xef, Char.ofNat 0xbb, Char.ofNat 0xbf]

/-- A document: whether it has a byte order mark, and its nodes. -/
structure Document where
  bom : Bool
  nodes : List Node
  deriving Repr

/-- tinyxml.cpp l.1102-1116: `SaveFile`: the contents of the file. -/
def saveFile (d : Document) : Text := (if d.bom then byteOrderMark else []) ++ printDocument d.nodes

/-! ## Reading -/

/-- tinyxmlparser.cpp l.534-572: `StringEqual` without regard to case, for a tag of small letters and other characters. -/
def startsWithIgnoringCase (tag s : Text) : Bool := tag.isPrefixOf (s.map Char.toLower)

/-- tinyxmlparser.cpp l.1377-1385 and 1524-1534: everything up to the end tag, and the position behind it. -/
def readRaw (endTag : Text) : Text → Text × Ptr
  | [] => ([], .past endTag.length)
  | c :: s => if endTag.isPrefixOf (c :: s) then ([], .inside ((c :: s).drop endTag.length)) else
      (c :: (readRaw endTag s).1, (readRaw endTag s).2)

/-- tinyxmlparser.cpp l.1594-1628: the loop of `TiXmlDeclaration::Parse`. -/
def parseDeclared (e : Encoding) : ℕ → Text → Text → Text → Ptr → Except Fault (Node × Ptr)
  | 0, _, _, _, _ => .error .fuel
  | _ + 1, _, _, _, .past _ => .error .outside
  | _ + 1, version, encoding, standalone, .null => .ok (.declaration version encoding standalone, .null)
  | _ + 1, version, encoding, standalone, .inside [] => .ok (.declaration version encoding standalone, .null)
  | f + 1, version, encoding, standalone, .inside (c :: s) =>
    if c = '>' then .ok (.declaration version encoding standalone, .inside s)
    else if startsWithIgnoringCase "version".toList (skip e (c :: s)) then
      match parseAttribute e (skip e (c :: s)) with
      | .error x => .error x
      | .ok a => parseDeclared e f a.value encoding standalone a.ptr
    else if startsWithIgnoringCase "encoding".toList (skip e (c :: s)) then
      match parseAttribute e (skip e (c :: s)) with
      | .error x => .error x
      | .ok a => parseDeclared e f version a.value standalone a.ptr
    else if startsWithIgnoringCase "standalone".toList (skip e (c :: s)) then
      match parseAttribute e (skip e (c :: s)) with
      | .error x => .error x
      | .ok a => parseDeclared e f version encoding a.value a.ptr
    else parseDeclared e f version encoding standalone (.inside ((skip e (c :: s)).dropWhile (fun d => d ≠ '>' && !isWhite d)))

/-- What `Identify` makes of a position. -/
inductive Kind
  | declaration
  | comment
  | cdata
  | unknown
  | element
  deriving DecidableEq, Repr

/-- tinyxmlparser.cpp l.818-905: `Identify` at a '<'. -/
def identify (s : Text) : Kind :=
  if startsWithIgnoringCase "<?xml".toList s then .declaration
  else if "<!--".toList.isPrefixOf s then .comment
  else if "<![CDATA[".toList.isPrefixOf s then .cdata
  else if "<!".toList.isPrefixOf s then .unknown
  else match s with
    | _ :: c :: _ => if isAlpha c || c == '_' then .element else .unknown
    | _ => .unknown

/-- tinyxmlparser.cpp l.1289-1304: `TiXmlUnknown::Parse` behind the '<'. -/
def parseUnknown (s : Text) : Node × Ptr := (.unknown (s.takeWhile (· ≠ '>')), .inside ((s.dropWhile (· ≠ '>')).drop 1))

/-- tinyxmlparser.cpp l.1631-1637: `Blank`. -/
def blank (v : Text) : Bool := v.all isWhite

/-- tinyxmlparser.cpp l.1163-1165: the attribute of this name gets the value. -/
def replaceValue (name value : Text) (attributes : List (Text × Text)) : List (Text × Text) :=
  attributes.map (fun a => if a.1 = name then (a.1, value) else a)

mutual
/-- tinyxmlparser.cpp l.1049-1082, 1274-1305, 1335-1386, 1509-1535, 1572-1629: `Parse` of the node that `Identify` makes, at a '<'. -/
def parseNode : ℕ → Encoding → Text → Except Fault (Node × Ptr × List Err)
  | 0, _, _ => .error .fuel
  | f + 1, e, s =>
    match identify s with
    | .declaration =>
      match parseDeclared e (s.length + 1) [] [] [] (.inside (s.drop 5)) with
      | .error x => .error x
      | .ok (n, p) => .ok (n, p, [])
    | .comment => .ok (.comment (readRaw "-->".toList (s.drop 4)).1, (readRaw "-->".toList (s.drop 4)).2, [])
    | .cdata => .ok (.text true (readRaw "]]>".toList (s.drop 9)).1, (readRaw "]]>".toList (s.drop 9)).2, [])
    | .unknown => .ok ((parseUnknown (s.drop 1)).1, (parseUnknown (s.drop 1)).2, [])
    | .element =>
      match skipWhiteSpace e (.inside (s.drop 1)) with
      | .error x => .error x
      | .ok (.inside (c :: t)) =>
        match readName (c :: t) with
        | none => .ok (.element [] [] [], .null, [.failedToReadElementName])
        | some (name, []) => .ok (.element name [] [], .null, [.failedToReadElementName])
        | some (name, d :: rest) => parseAttributes f e name [] (d :: rest)
      | .ok _ => .ok (.element [] [] [], .null, [.failedToReadElementName])
/-- tinyxmlparser.cpp l.1084-1174: the loop over the attributes, and the rest of the element. -/
def parseAttributes : ℕ → Encoding → Text → List (Text × Text) → Text → Except Fault (Node × Ptr × List Err)
  | 0, _, _, _, _ => .error .fuel
  | f + 1, e, name, attributes, s =>
    match skip e s with
    | [] => .ok (.element name attributes [], .null, [.readingAttributes])
    | '/' :: '>' :: rest => .ok (.element name attributes [], .inside rest, [])
    | '/' :: _ => .ok (.element name attributes [], .null, [.parsingEmpty])
    | '>' :: t =>
      match readValue f e [] (.inside t) with
      | .error x => .error x
      | .ok (_, .past _, _) => .error .outside
      | .ok (children, .null, errs) => .ok (.element name attributes children, .null, errs ++ [.readingEndTag])
      | .ok (children, .inside u, errs) =>
        if ("</".toList ++ name ++ ">".toList).isPrefixOf u then
          .ok (.element name attributes children, .inside (u.drop (name.length + 3)), errs)
        else .ok (.element name attributes children, .null, errs ++ [.readingEndTag])
    | c :: t =>
      match parseAttribute e (c :: t) with
      | .error x => .error x
      | .ok a =>
        match a.ptr with
        | .past _ => .error .outside
        | .inside (d :: rest) =>
          if a.name ∈ attributes.map Prod.fst then
            .ok (.element name (replaceValue a.name a.value attributes) [], .null, if a.error then [.readingAttributes] else [])
          else parseAttributes f e name (attributes ++ [(a.name, a.value)]) (d :: rest)
        | _ => .ok (.element name attributes [], .null, (if a.error then [.readingAttributes] else []) ++ [.parsingElement])
/-- tinyxmlparser.cpp l.1177-1246: `ReadValue`: the children of an element. -/
def readValue : ℕ → Encoding → List Node → Ptr → Except Fault (List Node × Ptr × List Err)
  | 0, _, _, _ => .error .fuel
  | f + 1, e, children, p =>
    match skipWhiteSpace e p with
    | .error x => .error x
    | .ok (.past _) => .error .outside
    | .ok .null => .ok (children, .null, [.readingElementValue])
    | .ok (.inside []) => .ok (children, .inside [], [])
    | .ok (.inside (c :: s)) =>
      if c ≠ '<' then
        match parseText e (c :: s) with
        | .error x => .error x
        | .ok (v, p) => readValue f e (if blank v then children else children ++ [.text false v]) p
      else if "</".toList.isPrefixOf (c :: s) then .ok (children, .inside (c :: s), [])
      else
        match parseNode f e (c :: s) with
        | .error x => .error x
        | .ok (n, p, errs) =>
          match readValue f e (children ++ [n]) p with
          | .error x => .error x
          | .ok (children, p, errs') => .ok (children, p, errs ++ errs')
end

/-- tinyxmlparser.cpp l.767-783: the encoding after a node. -/
def nextEncoding (e : Encoding) : Node → Encoding
  | .declaration _ encoding _ =>
    if e ≠ .unknown then e
    else if encoding = [] then .utf8
    else if startsWithIgnoringCase "utf-8".toList encoding then .utf8
    else if startsWithIgnoringCase "utf8".toList encoding then .utf8
    else .legacy
  | _ => e

/-- tinyxmlparser.cpp l.754-786: the nodes of the document, from a position where white space is skipped. -/
def parseNodes : ℕ → Encoding → List Node → Ptr → Except Fault (List Node × List Err)
  | 0, _, _, _ => .error .fuel
  | _ + 1, _, _, .past _ => .error .outside
  | _ + 1, _, nodes, .null => .ok (nodes, [])
  | _ + 1, _, nodes, .inside [] => .ok (nodes, [])
  | f + 1, e, nodes, .inside (c :: s) =>
    if c ≠ '<' then .ok (nodes, [])
    else
      match parseNode f e (c :: s) with
      | .error x => .error x
      | .ok (n, p, errs) =>
        match skipWhiteSpace (nextEncoding e n) p with
        | .error x => .error x
        | .ok p =>
          match parseNodes f (nextEncoding e n) (nodes ++ [n]) p with
          | .error x => .error x
          | .ok (nodes, errs') => .ok (nodes, errs ++ errs')

/-- A document after reading, with the errors reported. -/
structure Loaded where
  document : Document
  errors : List Err
  deriving Repr

/-- tinyxmlparser.cpp l.788-792: a document without nodes is an error. -/
def finishDocument (bom : Bool) : Except Fault (List Node × List Err) → Except Fault Loaded
  | .error x => .error x
  | .ok ([], errs) => .ok ⟨⟨bom, []⟩, errs ++ [.documentEmpty]⟩
  | .ok (n :: ns, errs) => .ok ⟨⟨bom, n :: ns⟩, errs⟩

/-- tinyxmlparser.cpp l.704-796: `TiXmlDocument::Parse` with an empty document and `TIXML_ENCODING_UNKNOWN`, which is the default. -/
def parse (s : Text) : Except Fault Loaded :=
  if s = [] then .ok ⟨⟨false, []⟩, [.documentEmpty]⟩
  else
    let bom := byteOrderMark.isPrefixOf s
    let e := if bom then Encoding.utf8 else Encoding.unknown
    match skipWhiteSpace e (.inside s) with
    | .error x => .error x
    | .ok .null => .ok ⟨⟨bom, []⟩, [.documentEmpty]⟩
    | .ok p => finishDocument bom (parseNodes (2 * s.length + 3) e [] p)

/-- tinyxml.cpp l.1033-1075: the contents of the file up to the first null character, with line breaks as single line feeds. -/
def normalize : Text → Text
  | [] => []
  | '\x00' :: _ => []
  | '\r' :: '\n' :: s => '\n' :: normalize s
  | '\r' :: s => '\n' :: normalize s
  | c :: s => c :: normalize s

/-- tinyxml.cpp l.973-1085: `LoadFile`: the document read from the contents of a file. -/
def loadFile (contents : Text) : Except Fault Loaded :=
  if contents = [] then .ok ⟨⟨false, []⟩, [.documentEmpty]⟩ else parse (normalize contents)

end Ubitrack.Xml
