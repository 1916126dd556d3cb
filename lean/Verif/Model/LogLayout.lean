import Mathlib.Data.List.Basic
import Mathlib.Data.Int.Notation

/-!
# Model: layout of log lines

3rd/log4cpp/src/PatternLayout.cpp, 3rd/log4cpp/src/Priority.cpp and the pattern of src/utUtil/Logging.cpp. Texts are lists of
characters without the null character. Lengths of texts are below 2^31 (l.253 converts a difference to `int`).
-/

namespace Ubitrack.LogLayout

/-- Characters. -/
abbrev Text := List Char

/-- 3rd/log4cpp/include/log4cpp/LoggingEvent.hh l.25-79, with what the components make of the rest: the conversions of
`strftime` for the local time of the event (l.176-177), the milliseconds since the start (l.213-217) and `clock()` (l.146). Numbers
are given by their decimal notation. -/
structure Event where
  categoryName : Text
  message : Text
  ndc : Text
  priority : ℤ
  file : Text
  line : Text
  threadName : Text
  seconds : Text
  milliSeconds : ℕ
  sinceStart : Text
  processorTime : Text
  conv : Char → Text

/-- 3rd/log4cpp/src/Priority.cpp l.18-31. -/
def names : List (String × ℤ) :=
  [("TRACE", 750), ("DEBUG", 700), ("INFO", 600), ("NOTICE", 500), ("WARN", 400), ("ERROR", 300), ("CRIT", 200), ("ALERT", 100),
   ("FATAL", 0), ("EMERG", 0), ("NOTSET", 800)]

/-- 3rd/log4cpp/src/Priority.cpp l.34-38. -/
def priorityName (priority : ℤ) : Text :=
  match names.find? (fun n => decide (n.2 = priority)) with
  | some n => n.1.toList
  | none => "UNKNOWN".toList

/-- Two and three digits with zeros, l.183-184: `setw(3)`, `setfill('0')` for a number below 1000. -/
def threeDigits (n : ℕ) : Text := [Char.ofNat (48 + n / 100 % 10), Char.ofNat (48 + n / 10 % 10), Char.ofNat (48 + n % 10)]

/-- The text made by `strftime`; `conv` gives the texts of the conversions. -/
def expand (conv : Char → Text) : Text → Text
  | [] => []
  | '%' :: c :: rest => conv c ++ expand conv rest
  | c :: rest => c :: expand conv rest

/-- `strftime` into 100 characters, l.190. `none`: the text does not fit and the characters are indeterminate. -/
def strftime (conv : Char → Text) (format : Text) : Option Text :=
  if (expand conv format).length < 100 then some (expand conv format) else none

/-- `find("%l")`: the texts before and after the first occurrence. -/
def findMillis : Text → Option (Text × Text)
  | [] => none
  | '%' :: 'l' :: rest => some ([], rest)
  | c :: rest => (findMillis rest).map fun r => (c :: r.1, r.2)

/-- `TimeStampComponent`, l.155-192. -/
def timeStamp (timeFormat : Text) (e : Event) : Option Text :=
  let f := if timeFormat = [] ∨ timeFormat = "ISO8601".toList then "%Y-%m-%d %H:%M:%S,%l".toList
    else if timeFormat = "ABSOLUTE".toList then "%H:%M:%S,%l".toList
    else if timeFormat = "DATE".toList then "%d %b %Y %H:%M:%S,%l".toList
    else timeFormat
  match findMillis f with
  | none => strftime e.conv f
  | some (f1, f2) => strftime e.conv (f1 ++ threeDigits e.milliSeconds ++ f2)

/-- `rfind('.', pos)`: the last index up to `pos` with a dot. -/
def rfind (s : Text) : ℕ → Option ℕ
  | 0 => if s[0]? = some '.' then some 0 else none
  | pos + 1 => if s[pos + 1]? = some '.' then some (pos + 1) else rfind s pos

/-- The loop l.81-88, `i` steps before its end; `begin_` is `none` for `npos`. The difference `begin - 2` wraps around: for `npos` and for 1 the whole
name is searched. -/
def categoryLoop (s : Text) : ℕ → Option ℕ → Option ℕ
  | 0, begin_ => begin_
  | i + 1, begin_ =>
    match rfind s (match begin_ with
      | none => s.length
      | some b => if b < 2 then s.length else b - 2) with
    | none => some 0
    | some b => categoryLoop s i (some (b + 1))

/-- `CategoryNameComponent::append`, l.76-91. `none`: `substr( npos )` throws. -/
def categoryName (precision : ℤ) (s : Text) : Option Text :=
  if precision = -1 then some s
  else (categoryLoop s precision.toNat none).map fun b => s.drop b

/-- `FilenameComponent::append`, l.122-129. -/
def filename (file : Text) : Text := (file.reverse.takeWhile fun c => decide (c ≠ '/' ∧ c ≠ '\\')).reverse

/-- Components, l.49-231. -/
inductive Comp where
  | literal (s : Text)
  | category (precision : ℤ)
  | message
  | ndc
  | priority
  | fullFile
  | file
  | line
  | thread
  | processorTime
  | time (format : Text)
  | seconds
  | millis
  | modified (c : Comp) (minWidth maxWidth : ℕ) (alignLeft : Bool)

/-- `append` of the components. `none`: an exception, or characters that are not initialised. -/
def Comp.append (e : Event) : Comp → Option Text
  | .literal s => some s
  | .category p => categoryName p e.categoryName
  | .message => some e.message
  | .ndc => some e.ndc
  | .priority => some (priorityName e.priority)
  | .fullFile => some e.file
  | .file => some (filename e.file)
  | .line => some e.line
  | .thread => some e.threadName
  | .processorTime => some e.processorTime
  | .time f => timeStamp f e
  | .seconds => some e.seconds
  | .millis => some e.sinceStart
  | .modified c minWidth maxWidth alignLeft => do
    let s ← c.append e
    let msg := if 0 < maxWidth ∧ maxWidth < s.length then s.take maxWidth else s
    let fill := List.replicate (minWidth - msg.length) ' '
    return if alignLeft then msg ++ fill else fill ++ msg

/-- `PatternLayout::format`, l.424-433. -/
def format (cs : List Comp) (e : Event) : Option Text := cs.foldlM (fun out c => do return out ++ (← c.append e)) []

/-! ## Reading a pattern -/

/-- Digits at the beginning of a text, and the rest. -/
def spanDigits (s : Text) : Text × Text := (s.takeWhile Char.isDigit, s.dropWhile Char.isDigit)

/-- Value of digits. -/
def value (ds : Text) : ℕ := ds.foldl (fun a c => 10 * a + (c.toNat - 48)) 0

/-- `stream >> i` for an `int`, at a sign or digit. `none`: the stream fails. -/
def readInt (s : Text) : Option (ℤ × Text) :=
  let neg := s.head? = some '-'
  let (ds, rest) := spanDigits (if neg then s.tail else s)
  if ds = [] then none
  else
    let v : ℤ := if neg then -(value ds : ℤ) else value ds
    if -2 ^ 31 ≤ v ∧ v < 2 ^ 31 then some (v, rest) else none

/-- `stream >> n` for a `size_t` of 64 bits: white space is skipped, a sign is accepted and the number is negated modulo 2^64. -/
def readSize (s : Text) : Option (ℕ × Text) :=
  let s := s.dropWhile Char.isWhitespace
  let neg := s.head? = some '-'
  let (ds, rest) := spanDigits (if neg ∨ s.head? = some '+' then s.tail else s)
  if ds = [] ∨ 2 ^ 64 ≤ value ds then none
  else some (if neg then (2 ^ 64 - value ds) % 2 ^ 64 else value ds, rest)

/-- l.315-320: the minimal width; `none`: the stream has failed. -/
def readMin (minWidth : ℤ) (s : Text) : Option (ℤ × Text) :=
  match s.head? with
  | none => none
  | some c => if c = '-' ∨ c.isDigit then readInt s else some (minWidth, s)

/-- l.319-325: the maximal width; `none`: the stream has failed. -/
def readMax (maxWidth : ℕ) (s : Text) : Option (ℕ × Text) :=
  match s.head? with
  | none => none
  | some c => if c = '.' then readSize s.tail else some (maxWidth, s)

/-- l.313-326: the widths; `none`: the stream has failed. -/
def readPrefix (minWidth : ℤ) (maxWidth : ℕ) (s : Text) : Option (ℤ × ℕ × Text) := do
  let (minWidth, s) ← readMin minWidth s
  let (maxWidth, s) ← readMax maxWidth s
  return (minWidth, maxWidth, s)

/-- l.332-344: the text in braces after a specifier. -/
def readPostfix : Text → Text × Text
  | '{' :: rest => (rest.takeWhile (fun c => decide (c ≠ '}')), (rest.dropWhile (fun c => decide (c ≠ '}'))).tail)
  | s => ([], s)

/-- `istringstream( specifier ) >> _precision`, l.64-73: 0 when it fails (the largest or smallest number when it is too large). -/
def readPrecision (specifier : Text) : ℤ :=
  if specifier = [] then -1
  else
    let s := specifier.dropWhile Char.isWhitespace
    let neg := s.head? = some '-'
    let ds := (spanDigits (if neg ∨ s.head? = some '+' then s.tail else s)).1
    let v : ℤ := if neg then -(value ds : ℤ) else value ds
    max (-2 ^ 31) (min v (2 ^ 31 - 1))

/-- What a specifier stands for, l.345-396: text (`inl`) or a component. `none`: an exception. -/
def specifier (ch : Char) (post : Text) : Option (Text ⊕ Comp) :=
  if ch = '%' then some (.inl ['%'])
  else if ch = 'm' then some (.inr .message)
  else if ch = 'n' then some (.inl ['\n'])
  else if ch = 'c' then some (.inr (.category (readPrecision post)))
  else if ch = 'd' then some (.inr (.time post))
  else if ch = 'p' then some (.inr .priority)
  else if ch = 'F' then some (.inr .fullFile)
  else if ch = 'f' then some (.inr .file)
  else if ch = 'l' then some (.inr .line)
  else if ch = 'r' then some (.inr .millis)
  else if ch = 'R' then some (.inr .seconds)
  else if ch = 't' then some (.inr .thread)
  else if ch = 'u' then some (.inr .processorTime)
  else if ch = 'x' then some (.inr .ndc)
  else none

/-- The layout: `_components` and `_conversionPattern`. -/
structure Layout where
  components : List Comp
  pattern : Text

/-- The variables of the loop, l.303-308. -/
structure Reading where
  components : List Comp
  literal : Text
  minWidth : ℤ
  maxWidth : ℕ

/-- A literal that has been collected becomes a component, l.398-401 and l.413-415. -/
def Reading.flush (r : Reading) : List Comp := if r.literal = [] then r.components else r.components ++ [.literal r.literal]

/-- Outcome of `setConversionPattern`: `ok`, an exception (with the components that the layout has then), or undefined behaviour: the absolute
value of the smallest `int` does not exist (l.403). -/
inductive Outcome where
  | ok (components : List Comp)
  | throws (components : List Comp)
  | undefined

/-- The loop l.310-412 and l.413-415. Every round consumes at least a character; the first argument bounds the rounds, and the length
of the text is enough. -/
def read : ℕ → Reading → Text → Outcome
  | 0, r, _ => .ok r.flush
  | _ + 1, r, [] => .ok r.flush
  | n + 1, r, '%' :: s =>
    match readPrefix r.minWidth r.maxWidth s with
    | none => .throws r.components
    | some (_, _, []) => .throws r.components
    | some (minWidth, maxWidth, ch :: s) =>
      let (post, s) := readPostfix s
      match specifier ch post with
      | none => .throws r.components
      | some (.inl t) => read n { r with literal := r.literal ++ t, minWidth := minWidth, maxWidth := maxWidth } s
      | some (.inr c) =>
        if minWidth ≠ 0 ∨ maxWidth ≠ 0 then
          if minWidth = -2 ^ 31 then .undefined
          else read n ⟨r.flush ++ [.modified c minWidth.natAbs maxWidth (decide (minWidth < 0))], [], 0, 0⟩ s
        else read n ⟨r.flush ++ [c], [], minWidth, maxWidth⟩ s
  | n + 1, r, ch :: s => read n { r with literal := r.literal ++ [ch] } s

/-- The components read from a pattern. -/
def components (pattern : Text) : Outcome := read pattern.length ⟨[], [], 0, 0⟩ pattern

/-- `setConversionPattern`, l.297-418: the former components and the former pattern are deleted first. The second result: an exception is
thrown. `none`: undefined. -/
def setConversionPattern (_former : Layout) (pattern : Text) : Option (Layout × Bool) :=
  match components pattern with
  | .ok cs => some (⟨cs, pattern⟩, false)
  | .throws cs => some (⟨cs, []⟩, true)
  | .undefined => none

/-- src/utUtil/Logging.cpp l.88. -/
def ubitrackPattern : Text := "%d{%H:%M:%S.%l} %6p %20f:%-3l %m   (%c)%n".toList

end Ubitrack.LogLayout
