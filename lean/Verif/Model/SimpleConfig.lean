import Verif.Model.LogConfig

/-!
# Model: simple configuration files of the logging framework

3rd/log4cpp/src/SimpleConfigurator.cpp l.46-195. The input stream is the text that is left, `none` once its fail bit is set; every
extraction from such a stream fails. Characters stand for bytes. The appender for Windows is not modelled, nor are the appenders that are
made before an exception and that no category gets.
-/

namespace Ubitrack.SimpleConfig

open LogLayout (Text)
open LogConfig (Failure Format sign getPriorityValue)
open Logging (NOTSET)

/-- `std::isspace` in the locale "C". -/
def isSpace (c : Char) : Bool := c = ' ' || c = '\t' || c = '\n' || c = '\x0b' || c = '\x0c' || c = '\r'

/-- Extraction of a `std::string`: the word, and what is left. -/
def word (s : Text) : Option (Text × Text) :=
  let t := s.dropWhile isSpace
  if t = [] then none else some (t.takeWhile fun c => !isSpace c, t.dropWhile fun c => !isSpace c)

/-- Extraction of an `int`; a number that does not fit sets the fail bit. -/
def signed (s : Text) : Option (ℤ × Text) :=
  let r := sign (s.dropWhile isSpace)
  let digits := r.2.takeWhile Char.isDigit
  let n : ℤ := LogLayout.value digits
  let v := if r.1 then -n else n
  if digits = [] then none
  else if -2 ^ 31 ≤ v ∧ v < 2 ^ 31 then some (v, r.2.dropWhile Char.isDigit) else none

/-- Extraction of an unsigned integer with this number of bits; the negative of a number is taken modulo the power of two. -/
def unsigned (bits : ℕ) (s : Text) : Option (ℕ × Text) :=
  let r := sign (s.dropWhile isSpace)
  let digits := r.2.takeWhile Char.isDigit
  let n := LogLayout.value digits
  if digits = [] then none
  else if n < 2 ^ bits then some (if r.1 then (2 ^ bits - n) % 2 ^ bits else n, r.2.dropWhile Char.isDigit) else none

/-- The appenders and their arguments, 3rd/log4cpp/src/SimpleConfigurator.cpp l.77-146. -/
inductive Target where
  | file (fileName : Text)
  | rolling (fileName : Text) (maxFileSize maxBackupIndex : ℕ)
  | console
  | stdout
  | stderr
  | syslog (syslogName : Text) (facility : ℤ)
  | remoteSyslog (syslogName relayer : Text) (facility portNumber : ℤ)
  deriving DecidableEq

/-- The calls on categories; the root has the empty name. Each `addAppender` is given a new object. -/
inductive Act where
  | get (name : Text)
  | setPriority (name : Text) (priority : ℤ)
  | addAppender (name : Text) (target : Target) (layout : Format)
  deriving DecidableEq

/-- `LOG_USER`, 3rd/log4cpp/include/log4cpp/RemoteSyslogAppender.hh l.41. -/
abbrev LOG_USER : ℤ := 8

/-- 3rd/log4cpp/src/SimpleConfigurator.cpp l.75-152: the appender, and the stream behind its arguments. -/
def appenderOf (appenderName s : Text) : Except Failure (Target × Option Text) :=
  if appenderName = "file".toList then
    match word s with
    | none => .error .throws
    | some (f, s) => .ok (.file f, some s)
  else if appenderName = "rolling".toList then
    match word s with
    | none => .error .throws
    | some (f, s) =>
      match unsigned 64 s with
      | none => .error .throws
      | some (size, s) =>
        match unsigned 32 s with
        | none => .error .throws
        | some (backups, s) => .ok (.rolling f size backups, some s)
  else if appenderName = "console".toList then .ok (.console, some s)
  else if appenderName = "stdout".toList then .ok (.stdout, some s)
  else if appenderName = "stderr".toList then .ok (.stderr, some s)
  else if appenderName = "syslog".toList then
    match word s with
    | none => .error .throws
    | some (name, s) =>
      match signed s with
      | none => .ok (.syslog name LOG_USER, none)
      | some (facility, s) =>
        if -2 ^ 31 ≤ facility * 8 ∧ facility * 8 < 2 ^ 31 then .ok (.syslog name (facility * 8), some s) else .error .undefined
  else if appenderName = "remotesyslog".toList then
    match word s with
    | none => .error .throws
    | some (name, s) =>
      match word s with
      | none => .error .throws
      | some (relayer, s) =>
        match signed s with
        | none => .ok (.remoteSyslog name relayer LOG_USER 514, none)
        | some (facility, s) =>
          match signed s with
          | none => .ok (.remoteSyslog name relayer facility 514, none)
          | some (portNumber, s) => .ok (.remoteSyslog name relayer facility portNumber, some s)
  else .error .throws

/-- 3rd/log4cpp/src/SimpleConfigurator.cpp l.160-162: white space is skipped, and a line is read into a buffer of 1000 characters. A null
character ends the pattern. -/
def patternOf : Option Text → Text × Option Text
  | none => ([], none)
  | some s =>
    let t := s.dropWhile isSpace
    let line := t.takeWhile fun c => c ≠ '\n'
    if t = [] then ([], none)
    else if 999 < line.length then ((line.take 999).takeWhile fun c => c ≠ '\x00', none)
    else (line.takeWhile fun c => c ≠ '\x00', some ((t.dropWhile fun c => c ≠ '\n').drop 1))

/-- 3rd/log4cpp/src/SimpleConfigurator.cpp l.153-170: the layout. A pattern that is not valid throws. -/
def layoutOf (layout : Text) (s : Option Text) : Except Failure (Format × Option Text) :=
  if layout = "basic".toList then .ok (.basic, s)
  else if layout = "simple".toList then .ok (.simple, s)
  else if layout = "pattern".toList then
    match LogLayout.components (patternOf s).1 with
    | .ok _ => .ok (.pattern (some (patternOf s).1), (patternOf s).2)
    | .throws _ => .error .throws
    | .undefined => .error .undefined
  else .error .throws

/-- 3rd/log4cpp/src/SimpleConfigurator.cpp l.62-65: the name of the category. -/
def categoryOf (name : Text) : Text := if name = "root".toList then [] else name

/-- 3rd/log4cpp/src/SimpleConfigurator.cpp l.71-172: the rest of an appender command. -/
def appenderCommand (category s : Text) : List Act × Except Failure (Option Text) :=
  match word s with
  | none => ([.get category], .ok none)
  | some (layout, s) =>
    match word s with
    | none => ([.get category], .ok none)
    | some (appenderName, s) =>
      match appenderOf appenderName s with
      | .error f => ([.get category], .error f)
      | .ok (target, s) =>
        match layoutOf layout s with
        | .error f => ([.get category], .error f)
        | .ok (format, s) => ([.get category, .addAppender category target format], .ok s)

/-- 3rd/log4cpp/src/SimpleConfigurator.cpp l.174-184: the rest of a priority command. `Category::setPriority` throws for the root and a
priority that is not set, and this exception is caught. -/
def priorityCommand (category s : Text) : List Act × Except Failure (Option Text) :=
  match word s with
  | none => ([.get category], .error .throws)
  | some (priority, s) =>
    match getPriorityValue priority with
    | none => ([.get category], .error .throws)
    | some v =>
      if category = [] ∧ ¬ v < NOTSET then ([.get category], .error .throws)
      else ([.get category, .setPriority category v], .ok (some s))

/-- 3rd/log4cpp/src/SimpleConfigurator.cpp l.58-195: a command; the calls it makes, and the stream behind it, or an exception. -/
def command (nextCommand s : Text) : List Act × Except Failure (Option Text) :=
  match word s with
  | none => ([], .ok none)
  | some (categoryName, s) =>
    let category := categoryOf categoryName
    if nextCommand = "appender".toList then appenderCommand category s
    else if nextCommand = "priority".toList then priorityCommand category s
    else if nextCommand = "category".toList then ([.get category], .ok (some s))
    else ([.get category], .error .throws)

/-- 3rd/log4cpp/src/SimpleConfigurator.cpp l.52-193: the loop over the commands. Each round reads a character or is the last one; the first
argument bounds the number of rounds. -/
def loop : ℕ → Option Text → List Act × Option Failure
  | 0, _ => ([], none)
  | _ + 1, none => ([], none)
  | fuel + 1, some s =>
    match word s with
    | none => ([], none)
    | some (nextCommand, s) =>
      if nextCommand.head? = some '#' then loop fuel (some ((s.dropWhile fun c => c ≠ '\n').drop 1))
      else
        match command nextCommand s with
        | (acts, .error f) => (acts, some f)
        | (acts, .ok s) =>
          let r := loop fuel s
          (acts ++ r.1, r.2)

/-- 3rd/log4cpp/src/SimpleConfigurator.cpp l.46-195: `configure` on the content of a file, the number of characters bounds the number of
rounds; `none`: the file cannot be opened. -/
def configure : Option Text → List Act × Option Failure
  | none => ([], some .throws)
  | some s => loop (s.length + 1) (some s)

end Ubitrack.SimpleConfig
