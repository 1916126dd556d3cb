import Verif.Model.SimpleConfig

/-!
# Specification: simple configuration files of the logging framework

A file is a sequence of commands, which are words with white space between them, and of comments, which go from `#` to the end of the line:

* `category name`
* `priority name word`
* `appender name layout kind arguments`, where the layout is `basic`, `simple`, or `pattern` with the rest of the line as the pattern.

Only the types of the calls, of the appenders and of the layouts are taken from the model.
-/

namespace Ubitrack.Spec.SimpleFile

open SimpleConfig (Target Act)
open LogConfig (Format)

/-- White space. -/
def Blank (c : Char) : Prop := c = ' ' ∨ c = '\t' ∨ c = '\n' ∨ c = '\x0b' ∨ c = '\x0c' ∨ c = '\r'

/-- Only white space. -/
def Gap (s : List Char) : Prop := ∀ c ∈ s, Blank c

/-- A word. -/
def Word (w : List Char) : Prop := w ≠ [] ∧ ∀ c ∈ w, ¬ Blank c

/-- A word that ends in front of this text has its end there. -/
def Ends (rest : List Char) : Prop := ∀ c ∈ rest.head?, Blank c

/-- Words with white space in front of each of them. -/
inductive Spaced : List (List Char) → List Char → Prop
  | nil : Spaced [] []
  | cons (gap w s : List Char) (ws : List (List Char)) : Gap gap → Word w → Ends s → Spaced ws s → Spaced (w :: ws) (gap ++ w ++ s)

/-- Whole numbers in words. -/
inductive Number : List Char → ℤ → Prop
  | nonneg (n : ℕ) : Number (Nat.toDigits 10 n) n
  | neg (n : ℕ) : Number ('-' :: Nat.toDigits 10 n) (-(n : ℤ))

/-- Numbers of the type `int`. -/
def IsInt (v : ℤ) : Prop := -2 ^ 31 ≤ v ∧ v < 2 ^ 31

/-- The word for a category; the root has the empty name. -/
def nameWord (name : List Char) : List Char := if name = [] then "root".toList else name

/-- Names of categories. -/
def Name (name : List Char) : Prop := name = [] ∨ (Word name ∧ name ≠ "root".toList)

/-- The words for an appender. A local system log is given the facility by its number, a remote one by its code. -/
inductive Kind : Target → List (List Char) → Prop
  | file (f : List Char) : Kind (.file f) ["file".toList, f]
  | rolling (f : List Char) (size backups : ℕ) : size < 2 ^ 64 → backups < 2 ^ 32 →
      Kind (.rolling f size backups) ["rolling".toList, f, Nat.toDigits 10 size, Nat.toDigits 10 backups]
  | console : Kind .console ["console".toList]
  | stdout : Kind .stdout ["stdout".toList]
  | stderr : Kind .stderr ["stderr".toList]
  | syslog (name w : List Char) (v : ℤ) : Number w v → IsInt (8 * v) → Kind (.syslog name (8 * v)) ["syslog".toList, name, w]
  | remote (name host w w' : List Char) (v v' : ℤ) : Number w v → Number w' v' → IsInt v → IsInt v' →
      Kind (.remoteSyslog name host v v') ["remotesyslog".toList, name, host, w, w']

/-- Words for priorities, with 800 for `NOTSET`. -/
inductive Priority : List Char → ℤ → Prop
  | name (w : String) (v : ℤ) : (w, v) ∈ [("EMERG", (0 : ℤ)), ("FATAL", 0), ("ALERT", 100), ("CRIT", 200), ("ERROR", 300), ("WARN", 400), ("NOTICE", 500),
      ("INFO", 600), ("DEBUG", 700), ("TRACE", 750), ("NOTSET", 800)] → Priority w.toList v
  | number (n : ℕ) : n < 2 ^ 31 → Priority (Nat.toDigits 10 n) n

/-- The words of a command without a pattern, and the calls it stands for. -/
inductive Command : List (List Char) → List Act → Prop
  | category (name : List Char) : Name name → Command ["category".toList, nameWord name] [.get name]
  | priority (name w : List Char) (v : ℤ) : Name name → Priority w v → (name = [] → v < 800) →
      Command ["priority".toList, nameWord name, w] [.get name, .setPriority name v]
  | basic (name : List Char) (t : Target) (ws : List (List Char)) : Name name → Kind t ws →
      Command (["appender".toList, nameWord name, "basic".toList] ++ ws) [.get name, .addAppender name t .basic]
  | simple (name : List Char) (t : Target) (ws : List (List Char)) : Name name → Kind t ws →
      Command (["appender".toList, nameWord name, "simple".toList] ++ ws) [.get name, .addAppender name t .simple]

/-- The rest of a line: nothing follows, or a line end. -/
def LineEnd (s rest : List Char) : Prop := (s = [] ∧ rest = []) ∨ s = '\n' :: rest

/-- A pattern that can be written on a line: no white space in front, no line end, no null character, at most 999 characters, and valid. -/
def Pattern (valid : List Char → Prop) (p : List Char) : Prop :=
  (∃ c ∈ p.head?, ¬ Blank c) ∧ '\n' ∉ p ∧ '\x00' ∉ p ∧ p.length ≤ 999 ∧ valid p

/-- `Commands valid s acts rest`: the text `s` is a sequence of commands, which stand for the calls `acts`, and then `rest`. -/
inductive Commands (valid : List Char → Prop) : List Char → List Act → List Char → Prop
  | nil (rest : List Char) : Commands valid rest [] rest
  | comment (gap line s s' rest : List Char) (acts : List Act) : Gap gap → '\n' ∉ line → LineEnd s s' → Commands valid s' acts rest →
      Commands valid (gap ++ '#' :: line ++ s) acts rest
  | command (ws : List (List Char)) (s s' rest : List Char) (now acts : List Act) : Command ws now → Spaced ws s → Ends s' →
      Commands valid s' acts rest → Commands valid (s ++ s') (now ++ acts) rest
  | pattern (name : List Char) (t : Target) (ws : List (List Char)) (s gap p s' s'' rest : List Char) (acts : List Act) : Name name → Kind t ws →
      Spaced (["appender".toList, nameWord name, "pattern".toList] ++ ws) s → gap ≠ [] → Gap gap → Pattern valid p → LineEnd s' s'' →
      Commands valid s'' acts rest →
      Commands valid (s ++ gap ++ p ++ s') ([.get name, .addAppender name t (.pattern (some p))] ++ acts) rest

/-- The three words that a command starts with. -/
def commandWords : List (List Char) := ["category".toList, "priority".toList, "appender".toList]

/-- The words for the kinds of appenders. -/
def kindWords : List (List Char) :=
  ["file".toList, "rolling".toList, "console".toList, "stdout".toList, "stderr".toList, "syslog".toList, "remotesyslog".toList]

/-- The words for the layouts. -/
def layoutWords : List (List Char) := ["basic".toList, "simple".toList, "pattern".toList]

/-- Commands that are wrong, and the category they name: an unknown command, a word that is no priority, no priority for the root, an unknown
appender, an unknown layout. -/
inductive Wrong : List (List Char) → List Char → Prop
  | command (k name : List Char) : k ∉ commandWords → k.head? ≠ some '#' → Name name → Wrong [k, nameWord name] name
  | priority (name w : List Char) (c : Char) : Name name → w.head? = some c → c.isAlpha = true → (∀ v, ¬ Priority w v) →
      Wrong ["priority".toList, nameWord name, w] name
  | root (w : List Char) (v : ℤ) : Priority w v → 800 ≤ v → Wrong ["priority".toList, "root".toList, w] []
  | kind (name layout k : List Char) : Name name → k ∉ kindWords → Wrong ["appender".toList, nameWord name, layout, k] name
  | layout (name layout : List Char) (t : Target) (ws : List (List Char)) : Name name → layout ∉ layoutWords → Kind t ws →
      Wrong (["appender".toList, nameWord name, layout] ++ ws) name

/-- Commands with too few words, and the category they name. -/
inductive Short : List (List Char) → List Char → Prop
  | priority (name : List Char) : Name name → Short ["priority".toList, nameWord name] name
  | file (name layout : List Char) : Name name → Short ["appender".toList, nameWord name, layout, "file".toList] name
  | rolling (name layout : List Char) : Name name → Short ["appender".toList, nameWord name, layout, "rolling".toList] name
  | size (name layout f : List Char) : Name name → Short ["appender".toList, nameWord name, layout, "rolling".toList, f] name
  | backups (name layout f : List Char) (size : ℕ) : Name name → size < 2 ^ 64 →
      Short ["appender".toList, nameWord name, layout, "rolling".toList, f, Nat.toDigits 10 size] name
  | syslog (name layout : List Char) : Name name → Short ["appender".toList, nameWord name, layout, "syslog".toList] name
  | remote (name layout : List Char) : Name name → Short ["appender".toList, nameWord name, layout, "remotesyslog".toList] name
  | host (name layout n : List Char) : Name name → Short ["appender".toList, nameWord name, layout, "remotesyslog".toList, n] name

end Ubitrack.Spec.SimpleFile
