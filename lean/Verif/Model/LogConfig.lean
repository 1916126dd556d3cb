import Verif.Model.Logging
import Verif.Model.LogLayout
import Mathlib.Data.List.Lex
import Mathlib.Data.Char

/-!
# Model: configuration files of the logging framework

3rd/log4cpp/src/Properties.cpp, StringUtil.cpp, StringUtil.hh, PropertyConfiguratorImpl.cpp, Priority.cpp and `initLogging` in
src/utUtil/Logging.cpp. Characters stand for bytes; the order of `Char` is that of unsigned bytes, as in `std::string`. `env` is the
environment, `std::getenv`.
-/

namespace Ubitrack.LogConfig

open Logging
open LogLayout (Text)

/-! ## Strings -/

/-- 3rd/log4cpp/src/StringUtil.cpp l.62. -/
def isWhite (c : Char) : Bool := c = ' ' || c = '\t' || c = '\r' || c = '\n'

/-- 3rd/log4cpp/src/StringUtil.cpp l.61-78: `trim`. -/
def trim (s : Text) : Text := ((s.dropWhile isWhite).reverse.dropWhile isWhite).reverse

/-- 3rd/log4cpp/src/StringUtil.hh l.63-79: `split`; the bound `INT_MAX` on the number of segments is not modelled. -/
def split (d : Char) : Text → List Text
  | [] => [[]]
  | c :: s =>
    if c = d then [] :: split d s
    else match split d s with
      | [] => [[c]]
      | w :: ws => (c :: w) :: ws

/-- A sign, and what follows. -/
def sign : Text → Bool × Text
  | [] => (false, [])
  | c :: s => if c = '-' then (true, s) else if c = '+' then (false, s) else (false, c :: s)

/-- `std::atoi`, used in 3rd/log4cpp/src/Properties.cpp l.84; `none`: the value is outside of `int`, which is undefined. -/
def atoi (s : Text) : Option ℤ :=
  let r := sign (s.dropWhile isWhite)
  let n : ℤ := LogLayout.value (r.2.takeWhile Char.isDigit)
  let v := if r.1 then -n else n
  if -2 ^ 31 ≤ v ∧ v < 2 ^ 31 then some v else none

/-- `std::strtoul` with base 10 in 3rd/log4cpp/src/Priority.cpp l.47, converted to `int`, and l.48: `none` if something follows the
number, or if a text that is not empty starts with no number. -/
def strtoul (s : Text) : Option ℤ :=
  let r := sign (s.dropWhile isWhite)
  let digits := r.2.takeWhile Char.isDigit
  if digits = [] then (if s = [] then some 0 else none)
  else if r.2.dropWhile Char.isDigit ≠ [] then none
  else
    let n := LogLayout.value digits
    let v : ℤ := if n ≥ 2 ^ 64 then 2 ^ 64 - 1 else if r.1 then -(n : ℤ) else n
    some (Int.bmod v (2 ^ 32))

/-- 3rd/log4cpp/src/Priority.cpp l.40-55: `getPriorityValue`; `none`: `std::invalid_argument`. -/
def getPriorityValue (name : Text) : Option ℤ :=
  match LogLayout.names.find? (fun n => decide (n.1.toList = name)) with
  | some n => some n.2
  | none => strtoul name

/-! ## Properties -/

/-- `Properties`, a `std::map`: entries in the order of the keys. -/
abbrev Props := List (Text × Text)

/-- `std::map::find`. -/
def find (m : Props) (k : Text) : Option Text := (m.find? fun e => decide (e.1 = k)).map (·.2)

/-- `std::map::insert`, 3rd/log4cpp/src/Properties.cpp l.72: an entry with the same key stays. -/
def insert (k v : Text) : Props → Props
  | [] => [(k, v)]
  | e :: m => if k < e.1 then (k, v) :: e :: m else if k = e.1 then e :: m else e :: insert k v m

/-- 3rd/log4cpp/src/Properties.cpp l.29-30: the lines that `getline` with a buffer of 256 characters gives. A line that does not fit sets
the fail bit, and the loop ends. A null character ends the copied line. -/
def lines (s : Text) : List Text :=
  if _h : s = [] then []
  else
    let line := s.takeWhile fun c => c ≠ '\n'
    if 255 < line.length then []
    else (line.takeWhile fun c => c ≠ '\x00') :: lines ((s.dropWhile fun c => c ≠ '\n').drop 1)
termination_by s.length
decreasing_by
  have h1 : (s.dropWhile fun c => decide (c ≠ '\n')).length ≤ s.length := (List.dropWhile_sublist _).length_le
  have h2 := List.length_pos_iff.mpr _h
  rw [List.length_drop]
  omega

/-- 3rd/log4cpp/src/Properties.cpp l.38-51: the two sides of a line, `none` if it is skipped. -/
def entry (line : Text) : Option (Text × Text) :=
  let command := line.takeWhile fun c => c ≠ '#'
  if '#' ∈ line ∧ command = [] then none
  else if '=' ∈ command then
    some (trim (command.takeWhile fun c => c ≠ '='), trim ((command.dropWhile fun c => c ≠ '=').drop 1))
  else none

/-- 3rd/log4cpp/src/Properties.cpp l.121-136: the replacement for a variable. -/
def expansion (env : Text → Option Text) (m : Props) (key : Text) : Text :=
  if key = "${".toList then "${".toList
  else match env key with
    | some v => v
    | none => (find m key).getD []

/-- 3rd/log4cpp/src/Properties.cpp l.98-144: `_substituteVariables`. -/
def substitute (env : Text → Option Text) (m : Props) (s : Text) : Text :=
  match s with
  | [] => []
  | '$' :: '{' :: s =>
    if '}' ∈ s then
      expansion env m (s.takeWhile fun c => c ≠ '}') ++ substitute env m ((s.dropWhile fun c => c ≠ '}').drop 1)
    else '$' :: '{' :: s
  | c :: s => c :: substitute env m s
termination_by s.length
decreasing_by
  · have h1 : (s.dropWhile fun c => decide (c ≠ '}')).length ≤ s.length := (List.dropWhile_sublist _).length_le
    rw [List.length_drop]
    simp only [List.length_cons]
    omega
  · simp

/-- 3rd/log4cpp/src/Properties.cpp l.66-69: the key without the first part, if that is `log4j` or `log4cpp`. -/
def strip (key : Text) : Text :=
  let first := key.takeWhile fun c => c ≠ '.'
  if (first = "log4j".toList ∨ first = "log4cpp".toList) ∧ '.' ∈ key then key.drop (first.length + 1) else key

/-- 3rd/log4cpp/src/Properties.cpp l.30-72: one line. -/
def loadLine (env : Text → Option Text) (m : Props) (line : Text) : Props :=
  match entry line with
  | none => m
  | some (left, right) => insert (strip left) (substitute env m right) m

/-- 3rd/log4cpp/src/Properties.cpp l.21-74: `load`. -/
def load (env : Text → Option Text) (s : Text) : Props := (lines s).foldl (loadLine env) []

/-- 3rd/log4cpp/src/Properties.cpp l.76-80: `save`. -/
def save (m : Props) : Text := m.flatMap fun e => e.1 ++ '=' :: e.2 ++ ['\n']

/-- 3rd/log4cpp/src/Properties.cpp l.82-85: `getInt`; `none`: undefined. -/
def getInt (m : Props) (property : Text) (default : ℤ) : Option ℤ :=
  match find m property with
  | none => some default
  | some v => atoi v

/-- 3rd/log4cpp/src/Properties.cpp l.87-90: `getBool`. -/
def getBool (m : Props) (property : Text) (default : Bool) : Bool :=
  match find m property with
  | none => default
  | some v => decide (v = "true".toList)

/-- 3rd/log4cpp/src/Properties.cpp l.92-96: `getString`. -/
def getString (m : Props) (property default : Text) : Text := (find m property).getD default

/-! ## Appenders -/

/-- Why configuring ends early: an exception `ConfigureFailure`, an exception of another type, which the exception specifications of
`configureCategory` and `doConfigure` turn into the end of the program (`std::unexpected`), or undefined behaviour. -/
inductive Failure where
  | throws
  | terminates
  | undefined
  deriving DecidableEq

/-- The objects that are made, 3rd/log4cpp/src/PropertyConfiguratorImpl.cpp l.201-234, with their arguments. The appenders for
Windows and for `libidsa` are not modelled. -/
inductive Kind where
  | console
  | file (fileName : Text) (append : Bool)
  | rolling (fileName : Text) (maxFileSize maxBackupIndex : ℤ) (append : Bool)
  | remoteSyslog (syslogName syslogHost : Text) (facility portNumber : ℤ)
  | localSyslog (syslogName : Text) (facility : ℤ)
  | abort
  deriving DecidableEq

/-- Layouts, 3rd/log4cpp/src/PropertyConfiguratorImpl.cpp l.294-313; a pattern layout with its pattern, if one is set. -/
inductive Format where
  | basic
  | simple
  | pattern (p : Option Text)
  deriving DecidableEq

/-- An appender after its configuration. -/
structure App where
  kind : Kind
  layout : Option Format
  threshold : ℤ
  deriving DecidableEq

/-- 3rd/log4cpp/src/PropertyConfiguratorImpl.cpp l.196-198, 288-290: what follows the last dot. -/
def lastPart (s : Text) : Text := (s.reverse.takeWhile fun c => c ≠ '.').reverse

/-- `none` as undefined behaviour. -/
def defined {α : Type} : Option α → Except Failure α
  | some a => .ok a
  | none => .error .undefined

/-- 3rd/log4cpp/src/PropertyConfiguratorImpl.cpp l.200-258. -/
def kindOf (m : Props) (pre type : Text) : Except Failure Kind :=
  if type = "ConsoleAppender".toList then .ok .console
  else if type = "FileAppender".toList then
    .ok (.file (getString m (pre ++ ".fileName".toList) "foobar".toList) (getBool m (pre ++ ".append".toList) true))
  else if type = "RollingFileAppender".toList then do
    let maxFileSize ← defined (getInt m (pre ++ ".maxFileSize".toList) (10 * 1024 * 1024))
    let maxBackupIndex ← defined (getInt m (pre ++ ".maxBackupIndex".toList) 1)
    .ok (.rolling (getString m (pre ++ ".fileName".toList) "foobar".toList) maxFileSize maxBackupIndex
      (getBool m (pre ++ ".append".toList) true))
  else if type = "SyslogAppender".toList then do
    let facility ← defined (getInt m (pre ++ ".facility".toList) (-1))
    let portNumber ← defined (getInt m (pre ++ ".portNumber".toList) (-1))
    .ok (.remoteSyslog (getString m (pre ++ ".syslogName".toList) "syslog".toList)
      (getString m (pre ++ ".syslogHost".toList) "localhost".toList) (facility * 8) portNumber)
  else if type = "LocalSyslogAppender".toList then do
    let facility ← defined (getInt m (pre ++ ".facility".toList) (-1))
    .ok (.localSyslog (getString m (pre ++ ".syslogName".toList) "syslog".toList) (facility * 8))
  else if type = "AbortAppender".toList then .ok .abort
  else .error .throws

/-- 3rd/log4cpp/src/PropertyConfiguratorImpl.cpp l.278-320: `setLayout`. A pattern that is not valid throws. -/
def layoutOf (m : Props) (pre : Text) : Except Failure Format :=
  match find m (pre ++ ".layout".toList) with
  | none => .error .throws
  | some v =>
    let type := lastPart v
    if type = "BasicLayout".toList then .ok .basic
    else if type = "SimpleLayout".toList then .ok .simple
    else if type = "PatternLayout".toList then
      match find m (pre ++ ".layout.ConversionPattern".toList) with
      | none => .ok (.pattern none)
      | some p => match LogLayout.components p with
        | .ok _ => .ok (.pattern (some p))
        | .throws _ => .error .throws
        | .undefined => .error .undefined
    else .error .throws

/-- 3rd/log4cpp/src/PropertyConfiguratorImpl.cpp l.264-273: the threshold, `NOTSET` as in the constructor of the appender. -/
def thresholdOf (m : Props) (pre : Text) : Except Failure ℤ :=
  let name := getString m (pre ++ ".threshold".toList) []
  if name = [] then .ok NOTSET
  else match getPriorityValue name with
    | some v => .ok v
    | none => .error .throws

/-- 3rd/log4cpp/src/PropertyConfiguratorImpl.cpp l.187-276: `instantiateAppender`. Only the abort appender requires no layout. -/
def instantiateAppender (m : Props) (name : Text) : Except Failure App :=
  let pre := "appender.".toList ++ name
  match find m pre with
  | none => .error .throws
  | some v => do
    let kind ← kindOf m pre (lastPart v)
    let layout ← if kind = .abort then .ok none else (layoutOf m pre).map some
    let threshold ← thresholdOf m pre
    .ok ⟨kind, layout, threshold⟩

/-- The entries between `lower_bound( prefix + '.' )` and `lower_bound( prefix + '/' )`, 3rd/log4cpp/src/PropertyConfiguratorImpl.cpp l.96-98,
336-338, in the order of the keys. -/
def range (m : Props) (pre : Text) : Props := m.filter fun e => decide (pre ++ ['.'] ≤ e.1 ∧ e.1 < pre ++ ['/'])

/-- 3rd/log4cpp/src/PropertyConfiguratorImpl.cpp l.98-128: one round of the loop. The state: `currentAppender` and `_allAppenders`. -/
def appenderRound (m : Props) (s : Text × List (Text × App)) (key : Text) : Except Failure (Text × List (Text × App)) :=
  match split '.' key with
  | _ :: name :: rest =>
    if name = s.1 then .ok s
    else if rest = [] then do
      let a ← instantiateAppender m name
      .ok (name, (name, a) :: s.2)
    else .error .throws
  | _ => .error .throws

/-- 3rd/log4cpp/src/PropertyConfiguratorImpl.cpp l.92-129: `instantiateAllAppenders`. -/
def instantiateAllAppenders (m : Props) : Except Failure (List (Text × App)) :=
  (((range m "appender".toList).map (·.1)).foldlM (appenderRound m) ([], [])).map (·.2)

/-! ## Categories -/

/-- 3rd/log4cpp/src/PropertyConfiguratorImpl.cpp l.328-341: `getCategories`. -/
def getCategories (m : Props) : List Text :=
  "rootCategory".toList :: (range m "category".toList).map fun e => e.1.drop ("category".toList.length + 1)

/-- 3rd/log4cpp/src/PropertyConfiguratorImpl.cpp l.171-184: the loop over the appenders of a category. -/
def attach (addr : Text → ℕ) (apps : List (Text × App)) (cat : Text) : List Text → List Op × Option Failure
  | [] => ([], none)
  | t :: ts =>
    if (apps.find? fun e => decide (e.1 = trim t)).isSome then
      let r := attach addr apps cat ts
      (.addAppender cat (addr (trim t)) :: r.1, r.2)
    else ([], some .throws)

/-- 3rd/log4cpp/src/PropertyConfiguratorImpl.cpp l.131-185: `configureCategory`: the calls on categories, and an exception. `addr` gives the
address of the appender with a name. For the root and a priority that is not set, `setPriority` throws `std::invalid_argument` (Category.cpp
l.69-82), which is not caught. -/
def configureCategory (m : Props) (addr : Text → ℕ) (apps : List (Text × App)) (categoryName : Text) : List Op × Option Failure :=
  let isRoot := decide (categoryName = "rootCategory".toList)
  match find m (if isRoot then categoryName else "category.".toList ++ categoryName) with
  | none => ([], some .throws)
  | some v =>
    let cat : Text := if isRoot then [] else categoryName
    match split ',' v with
    | [] => ([.get cat], some .throws)
    | first :: rest =>
      match (if trim first = [] then some NOTSET else getPriorityValue (trim first)) with
      | none => ([.get cat], some .throws)
      | some priority =>
        if cat = [] ∧ ¬ priority < NOTSET then ([.get cat], some .terminates)
        else
          let r := attach addr apps cat rest
          ([.get cat, .setPriority cat priority, .setAdditivity cat (getBool m ("additivity.".toList ++ categoryName) true),
            .removeAllAppenders cat] ++ r.1, r.2)

/-- 3rd/log4cpp/src/PropertyConfiguratorImpl.cpp l.86-89: the loop over the categories. -/
def configureAll (m : Props) (addr : Text → ℕ) (apps : List (Text × App)) : List Text → List Op × Option Failure
  | [] => ([], none)
  | c :: cs =>
    match configureCategory m addr apps c with
    | (ops, some f) => (ops, some f)
    | (ops, none) =>
      let r := configureAll m addr apps cs
      (ops ++ r.1, r.2)

/-- 3rd/log4cpp/src/PropertyConfiguratorImpl.cpp l.76-90: `doConfigure` on the content of a file. -/
def doConfigure (env : Text → Option Text) (addr : Text → ℕ) (s : Text) : List Op × Option Failure :=
  let m := load env s
  match instantiateAllAppenders m with
  | .error f => ([], some f)
  | .ok apps => configureAll m addr apps (getCategories m)

/-- src/utUtil/Logging.cpp l.60-96 with 3rd/log4cpp/src/PropertyConfiguratorImpl.cpp l.65-73: `initLogging`; `file` is the content of the configuration file, if it
can be opened, and `app` the address of the appender for the standard error stream. -/
def initLoggingFile (env : Text → Option Text) (addr : Text → ℕ) (app : ℕ) (file : Option Text) : Except Failure (List Op) :=
  match file with
  | none => .ok (initLogging app)
  | some s =>
    match doConfigure env addr s with
    | (ops, none) => .ok ops
    | (ops, some .throws) => .ok (ops ++ initLogging app)
    | (_, some f) => .error f

end Ubitrack.LogConfig
