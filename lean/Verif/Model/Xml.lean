import Mathlib.Data.List.Basic

/-!
# Model: characters, names, attributes and texts of XML files

3rd/tinyxml/tinyxml.cpp, tinyxml.h and tinyxmlparser.cpp (built with `TIXML_USE_STL`, assertions compiled out). A `char` is a
character with a code below 256; a C string is the list of its characters before the terminating null character, and a position in
it is the list of the characters that follow. The "C" locale is in force, `int` has 32 bits and texts are shorter than 2^31
characters. Rows and columns of positions (`Stamp`) are modelled in `Model/XmlCursor.lean`.
-/

namespace Ubitrack.Xml

/-- Characters of a C string. -/
abbrev Text := List Char

/-- tinyxml.h l.164-169. -/
inductive Encoding
  | unknown
  | utf8
  | legacy
  deriving DecidableEq, Repr

/-- A `const char*`: null, a position in the text given by the characters that follow, or `k` characters behind the terminating
null character. Reading through the last one is reading memory that does not belong to the text. -/
inductive Ptr
  | null
  | inside (s : Text)
  | past (k : ℕ)
  deriving DecidableEq, Repr

/-- Why a run has no result: memory outside of the text was read, or the bound on the number of steps of the model was reached
(`Props/XmlEnd.lean` proves that it never is). -/
inductive Fault
  | outside
  | fuel
  deriving DecidableEq, Repr

/-- tinyxml.h l.291-294: `isspace`. -/
def isWhite (c : Char) : Bool :=
  c == ' ' || c == '\n' || c == '\r' || c == '\t' || c == '\x0b' || c == '\x0c'

/-- tinyxmlparser.cpp l.129-147: `IsAlpha`. -/
def isAlpha (c : Char) : Bool := if c.toNat < 127 then c.isAlpha else true

/-- tinyxmlparser.cpp l.150-168: `IsAlphaNum`. -/
def isAlphaNum (c : Char) : Bool := if c.toNat < 127 then c.isAlphanum else true

/-- tinyxmlparser.cpp l.43-50: `entity`. -/
def entities : List (Text × Char) :=
  [("&amp;".toList, '&'), ("&lt;".toList, '<'), ("&gt;".toList, '>'), ("&quot;".toList, '"'), ("&apos;".toList, '\'')]

/-- tinyxmlparser.cpp l.66-85: `utf8ByteTable`, written as ranges. -/
def byteCount (c : Char) : ℕ :=
  if 0xc2 ≤ c.toNat ∧ c.toNat ≤ 0xdf then 2
  else if 0xe0 ≤ c.toNat ∧ c.toNat ≤ 0xef then 3
  else if 0xf0 ≤ c.toNat ∧ c.toNat ≤ 0xf4 then 4
  else 1

/-- `(char)n`. -/
def toByte (n : ℕ) : Char := Char.ofNat (n % 256)

/-- tinyxmlparser.cpp l.112, 116, 120: `(input | BYTE_MARK) & BYTE_MASK`. -/
def followByte (input : ℕ) : Char := toByte ((input ||| 0x80) &&& 0xBF)

/-- tinyxmlparser.cpp l.88-126: `ConvertUTF32ToUTF8`. -/
def convertUTF32ToUTF8 (input : ℕ) : Text :=
  if input < 0x80 then [toByte (input ||| 0x00)]
  else if input < 0x800 then [toByte (input >>> 6 ||| 0xC0), followByte input]
  else if input < 0x10000 then [toByte (input >>> 6 >>> 6 ||| 0xE0), followByte (input >>> 6), followByte input]
  else if input < 0x200000 then
    [toByte (input >>> 6 >>> 6 >>> 6 ||| 0xF0), followByte (input >>> 6 >>> 6), followByte (input >>> 6), followByte input]
  else []

/-- tinyxml.cpp l.114: a digit of `%02X`. -/
def upperHex (n : ℕ) : Char := if n < 10 then Char.ofNat (48 + n) else Char.ofNat (55 + n)

/-- tinyxml.cpp l.74-80: the loop that passes a hexadecimal reference through. The first text is what it appends, the second what is
left for the loop outside. -/
def passThrough : Text → Text × Text
  | c :: d :: rest => if d = ';' then ([c], d :: rest) else
      let r := passThrough (d :: rest)
      (c :: r.1, r.2)
  | s => ([], s)

/-- tinyxml.cpp l.82-130: what is appended for one character. -/
def encodeChar (c : Char) : Text :=
  if c = '&' then "&amp;".toList
  else if c = '<' then "&lt;".toList
  else if c = '>' then "&gt;".toList
  else if c = '"' then "&quot;".toList
  else if c = '\'' then "&apos;".toList
  else if c.toNat < 32 then "&#x".toList ++ [upperHex (c.toNat / 16), upperHex (c.toNat % 16), ';']
  else [c]

/-- tinyxml.cpp l.51-132: `EncodeString`. The first argument bounds the number of steps; `encode` gives the length of the text. -/
def encodeLoop : ℕ → Text → Text
  | 0, _ => []
  | _ + 1, [] => []
  | f + 1, c :: rest =>
    if c = '&' ∧ "#x".toList.isPrefixOf rest then (passThrough (c :: rest)).1 ++ encodeLoop f (passThrough (c :: rest)).2
    else encodeChar c ++ encodeLoop f rest

/-- tinyxml.cpp l.51-132: `EncodeString`. -/
def encode (s : Text) : Text := encodeLoop s.length s

/-- tinyxmlparser.cpp l.327-347: the three marks that are skipped in UTF-8 texts. -/
def isMark (a b c : Char) : Bool :=
  a.toNat == 0xef && (b.toNat == 0xbb && c.toNat == 0xbf || b.toNat == 0xbf && c.toNat == 0xbe || b.toNat == 0xbf && c.toNat == 0xbf)

/-- tinyxmlparser.cpp l.322-353. -/
def skipUtf8 : Text → Text
  | a :: b :: c :: rest =>
    if isMark a b c then skipUtf8 rest else if isWhite a then skipUtf8 (b :: c :: rest) else a :: b :: c :: rest
  | a :: b :: [] => if isWhite a then skipUtf8 [b] else [a, b]
  | a :: [] => if isWhite a then [] else [a]
  | [] => []

/-- tinyxmlparser.cpp l.320-359: `SkipWhiteSpace` from a position in the text. -/
def skip (e : Encoding) (s : Text) : Text := if e = .utf8 then skipUtf8 s else s.dropWhile isWhite

/-- tinyxmlparser.cpp l.314-362: `SkipWhiteSpace`. At the end of the text the result is null. -/
def skipWhiteSpace (e : Encoding) : Ptr → Except Fault Ptr
  | .null => .ok .null
  | .past _ => .error .outside
  | .inside [] => .ok .null
  | .inside (c :: s) => .ok (.inside (skip e (c :: s)))

/-- tinyxmlparser.cpp l.421-425: a character of a name. -/
def isNameChar (c : Char) : Bool := isAlphaNum c || c == '_' || c == '-' || c == '.' || c == ':'

/-- tinyxmlparser.cpp l.401-436: `ReadName`: the name and the position behind it. -/
def readName : Text → Option (Text × Text)
  | [] => none
  | c :: s => if isAlpha c || c == '_' then some ((c :: s).takeWhile isNameChar, (c :: s).dropWhile isNameChar) else none

/-- tinyxmlparser.cpp l.466-471. -/
def hexDigit (c : Char) : Option ℕ :=
  if 48 ≤ c.toNat ∧ c.toNat ≤ 57 then some (c.toNat - 48)
  else if 97 ≤ c.toNat ∧ c.toNat ≤ 102 then some (c.toNat - 97 + 10)
  else if 65 ≤ c.toNat ∧ c.toNat ≤ 70 then some (c.toNat - 65 + 10)
  else none

/-- tinyxmlparser.cpp l.493-494. -/
def decDigit (c : Char) : Option ℕ := if 48 ≤ c.toNat ∧ c.toNat ≤ 57 then some (c.toNat - 48) else none

/-- tinyxmlparser.cpp l.464-476 and 491-499: the digits from the last one backwards to `stop`. `mult` has 32 bits, and so has its
product with a digit. The sum (`unsigned long`) has 64 bits and cannot overflow for texts of the lengths considered. -/
def number (base : ℕ) (digit : Char → Option ℕ) (stop : Char) : Text → ℕ → ℕ → Option ℕ
  | [], ucs, _ => some ucs
  | c :: cs, ucs, mult =>
    if c = stop then some ucs
    else match digit c with
      | none => none
      | some d => number base digit stop cs (ucs + mult * d % 2 ^ 32) (mult * base % 2 ^ 32)

/-- tinyxmlparser.cpp l.501-510: the characters for a code. -/
def fromCode (e : Encoding) (ucs : ℕ) : Text := if e = .utf8 then convertUTF32ToUTF8 ucs else [toByte ucs]

/-- tinyxmlparser.cpp l.456-511 and 483-511: a numeric reference whose digits start with `body`; `body` is not empty. -/
def numericEntity (e : Encoding) (base : ℕ) (digit : Char → Option ℕ) (stop : Char) (body : Text) : Text × Ptr :=
  match body.dropWhile (· ≠ ';') with
  | [] => ([], .null)
  | _ :: rest =>
    match number base digit stop (body.takeWhile (· ≠ ';')).reverse 0 1 with
    | none => ([], .null)
    | some ucs => (fromCode e ucs, .inside rest)

/-- tinyxmlparser.cpp l.514-530: one of the five names. What is no reference disappears: `*length` is still 0. -/
def namedEntity (s : Text) : Text × Ptr :=
  match entities.find? (fun n => n.1.isPrefixOf s) with
  | some n => ([n.2], .inside (s.drop n.1.length))
  | none => ([], .inside (s.drop 1))

/-- tinyxmlparser.cpp l.438-531: `GetEntity` for a text that starts with '&'. -/
def getEntity (e : Encoding) : Text → Text × Ptr
  | _ :: '#' :: 'x' :: body =>
    if body = [] then ([], .null) else numericEntity e 16 hexDigit 'x' body
  | _ :: '#' :: c :: body => numericEntity e 10 decDigit '#' (c :: body)
  | s => namedEntity s

/-- tinyxml.h l.328-362: `GetChar`: the characters read and the position behind them. -/
def getChar (e : Encoding) (c : Char) (s : Text) : Text × Ptr :=
  if e = .utf8 ∧ byteCount c ≠ 1 then
    if byteCount c ≤ s.length + 1 then ((c :: s).take (byteCount c), .inside ((c :: s).drop (byteCount c)))
    else (c :: s, .past (byteCount c - (s.length + 1)))
  else if c = '&' then getEntity e (c :: s)
  else ([c], .inside s)

/-- tinyxmlparser.cpp l.585-594 and 634-636: the loop of `ReadText` that keeps white space. -/
def readKeep (e : Encoding) (endTag : Text) : ℕ → Text → Text → Except Fault (Text × Ptr)
  | 0, _, _ => .error .fuel
  | _ + 1, text, [] => .ok (text, .past endTag.length)
  | f + 1, text, c :: s =>
    if endTag.isPrefixOf (c :: s) then .ok (text, .inside ((c :: s).drop endTag.length))
    else match getChar e c s with
      | (v, .inside rest) => readKeep e endTag f (text ++ v) rest
      | (v, .null) => .ok (text ++ v, .null)
      | (_, .past _) => .error .outside

/-- tinyxmlparser.cpp l.602-632 and 634-636: the loop of `ReadText` that condenses white space. -/
def readTrim (e : Encoding) (endTag : Text) : ℕ → Bool → Text → Text → Except Fault (Text × Ptr)
  | 0, _, _, _ => .error .fuel
  | _ + 1, _, text, [] => .ok (text, .past endTag.length)
  | f + 1, white, text, c :: s =>
    if endTag.isPrefixOf (c :: s) then .ok (text, .inside ((c :: s).drop endTag.length))
    else if isWhite c then readTrim e endTag f true text s
    else match getChar e c s with
      | (v, .inside rest) => readTrim e endTag f false (text ++ (if white then [' '] else []) ++ v) rest
      | (v, .null) => .ok (text ++ (if white then [' '] else []) ++ v, .null)
      | (_, .past _) => .error .outside

/-- tinyxmlparser.cpp l.574-637: `ReadText` with `trimWhiteSpace = false`. -/
def readText (e : Encoding) (endTag s : Text) : Except Fault (Text × Ptr) := readKeep e endTag (s.length + 1) [] s

/-- tinyxmlparser.cpp l.574-637: `ReadText` with `trimWhiteSpace = true` and `condenseWhiteSpace = true`, which is the default
(tinyxml.cpp l.35). -/
def readTextTrimmed (e : Encoding) (endTag : Text) : Text → Except Fault (Text × Ptr)
  | [] => .ok ([], .null)
  | c :: s => readTrim e endTag ((skip e (c :: s)).length + 1) false [] (skip e (c :: s))

/-- tinyxml.cpp l.1223, 1307, ...: `%s` writes the characters before the first null character. -/
def cString (s : Text) : Text := s.takeWhile (· ≠ '\x00')

/-- tinyxml.cpp l.1214-1237: `TiXmlAttribute::Print`. -/
def printAttribute (name value : Text) : Text :=
  if '"' ∈ value then cString (encode name) ++ "='".toList ++ cString (encode value) ++ "'".toList
  else cString (encode name) ++ "=\"".toList ++ cString (encode value) ++ "\"".toList

/-- tinyxmlparser.cpp l.1447-1461: a value without quotes; `none`: there is a quote in it. -/
def readUnquoted : Text → Text → Option Text × Text × Text
  | value, [] => (some value, value, [])
  | value, c :: s =>
    if isWhite c || c == '/' || c == '>' then (some value, value, c :: s)
    else if c = '\'' ∨ c = '"' then (none, value, c :: s)
    else readUnquoted (value ++ [c]) s

/-- What `TiXmlAttribute::Parse` leaves: name, value, position, and whether it reported an error. -/
structure AttributeRead where
  name : Text
  value : Text
  ptr : Ptr
  error : Bool
  deriving DecidableEq, Repr

/-- tinyxmlparser.cpp l.1430-1463: the value, after '=' and white space, at a character. -/
def readAttributeValue (e : Encoding) (name : Text) (c : Char) (s : Text) : Except Fault AttributeRead :=
  if c = '\'' then
    match readText e ['\''] s with
    | .ok (v, p) => .ok ⟨name, v, p, false⟩
    | .error f => .error f
  else if c = '"' then
    match readText e ['"'] s with
    | .ok (v, p) => .ok ⟨name, v, p, false⟩
    | .error f => .error f
  else
    match readUnquoted [] (c :: s) with
    | (some v, _, rest) => .ok ⟨name, v, .inside rest, false⟩
    | (none, v, _) => .ok ⟨name, v, .null, true⟩

/-- tinyxmlparser.cpp l.1411-1463: the '=' and the value. -/
def readAttributeRest (e : Encoding) (name : Text) (s : Text) : Except Fault AttributeRead :=
  match skipWhiteSpace e (.inside s) with
  | .error f => .error f
  | .ok (.inside ('=' :: t)) =>
    match skipWhiteSpace e (.inside t) with
    | .error f => .error f
    | .ok (.inside (c :: u)) => readAttributeValue e name c u
    | .ok _ => .ok ⟨name, [], .null, true⟩
  | .ok _ => .ok ⟨name, [], .null, true⟩

/-- tinyxmlparser.cpp l.1389-1464: `TiXmlAttribute::Parse` at a character. -/
def parseAttribute (e : Encoding) (s : Text) : Except Fault AttributeRead :=
  match skipWhiteSpace e (.inside s) with
  | .error f => .error f
  | .ok (.inside (c :: t)) =>
    match readName (c :: t) with
    | none => .ok ⟨[], [], .null, true⟩
    | some (name, []) => .ok ⟨name, [], .null, true⟩
    | some (name, d :: rest) => readAttributeRest e name (d :: rest)
  | .ok _ => .ok ⟨[], [], .null, false⟩

/-- tinyxmlparser.cpp l.1536-1545: `TiXmlText::Parse` for a text that is not CDATA. `p-1` is the '<' that ended the text. -/
def parseText (e : Encoding) (s : Text) : Except Fault (Text × Ptr) :=
  match readTextTrimmed e ['<'] s with
  | .error f => .error f
  | .ok (v, .inside rest) => .ok (v, .inside ('<' :: rest))
  | .ok (v, .past _) => .ok (v, .inside [])
  | .ok (v, .null) => .ok (v, .null)

end Ubitrack.Xml
