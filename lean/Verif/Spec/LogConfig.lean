import Mathlib.Data.List.Lex
import Mathlib.Data.Finset.Basic

/-!
# Specification: configuration files of the logging framework

A line `key = value # comment` sets a property, unless it is set already. A leading `log4j.` or `log4cpp.` of the key does not count.
`${name}` in the value stands for a variable. The property `rootCategory` and the properties `category.name` give the priority and
the appenders of the categories. Nothing is taken from the model.
-/

namespace Ubitrack.Spec.LogFile

/-- Blanks, tabs and line ends. -/
def White (c : Char) : Prop := c = ' ' ∨ c = '\t' ∨ c = '\r' ∨ c = '\n'

/-- No white space at either end. -/
def Trimmed (s : List Char) : Prop := (∀ c ∈ s.head?, ¬ White c) ∧ ∀ c ∈ s.getLast?, ¬ White c

/-- Nothing, or a comment from `#` on. -/
def Comment (s : List Char) : Prop := s = [] ∨ ∃ t, s = '#' :: t

/-- `s` with white space around it. -/
def Padded (s padded : List Char) : Prop := ∃ l r, padded = l ++ s ++ r ∧ (∀ c ∈ l, White c) ∧ ∀ c ∈ r, White c

/-- The line assigns the value to the key. -/
def Assigns (line key value : List Char) : Prop :=
  ∃ left right comment, line = left ++ '=' :: right ++ comment ∧ '=' ∉ left ∧ '#' ∉ left ∧ '#' ∉ right ∧ Comment comment ∧
    Padded key left ∧ Padded value right ∧ Trimmed key ∧ Trimmed value

/-- The line assigns nothing: no `=` outside of its comment. -/
def Silent (line : List Char) : Prop := ∃ text comment, line = text ++ comment ∧ '=' ∉ text ∧ Comment comment

/-- The key that counts. -/
def Stripped (key short : List Char) : Prop :=
  key = "log4j.".toList ++ short ∨ key = "log4cpp.".toList ++ short ∨
    (key = short ∧ ¬ "log4j.".toList <+: key ∧ ¬ "log4cpp.".toList <+: key)

/-- The value of a variable: `${` for the name `${`, else from the environment, else a property, else empty. -/
def valueOf (env property : List Char → Option (List Char)) (name : List Char) : List Char :=
  if name = "${".toList then "${".toList else ((env name).or (property name)).getD []

/-- The value with its variables replaced, from left to right. -/
inductive Expands (val : List Char → List Char) : List Char → List Char → Prop
  | plain (s : List Char) : ¬ "${".toList <:+: s → Expands val s s
  | unclosed (a s : List Char) : ¬ "${".toList <:+: a → '}' ∉ s → Expands val (a ++ "${".toList ++ s) (a ++ "${".toList ++ s)
  | var (a name b b' : List Char) : ¬ "${".toList <:+: a → '}' ∉ name → Expands val b b' →
      Expands val (a ++ "${".toList ++ name ++ '}' :: b) (a ++ val name ++ b')

/-- Lines that can be read: no line end, no null character, at most 255 characters. -/
def Readable (line : List Char) : Prop := '\n' ∉ line ∧ '\x00' ∉ line ∧ line.length ≤ 255

/-- The text with these lines. -/
def text (lines : List (List Char)) : List Char := lines.flatMap (· ++ ['\n'])

/-- The words between commas, without white space around them. -/
inductive Words : List Char → List (List Char) → Prop
  | last (w s : List Char) : ',' ∉ s → Padded w s → Trimmed w → Words s [w]
  | more (w s rest : List Char) (ws : List (List Char)) : ',' ∉ s → Padded w s → Trimmed w → Words rest ws → Words (s ++ ',' :: rest) (w :: ws)

/-- The key belongs to the appender with this name: it is `appender.name`, or goes on with a dot. -/
def Belongs (key name : List Char) : Prop :=
  '.' ∉ name ∧ (key = "appender.".toList ++ name ∨ ∃ rest, key = "appender.".toList ++ name ++ '.' :: rest)

/-- A class name with or without a package. -/
def HasType (value type : List Char) : Prop := '.' ∉ type ∧ (value = type ∨ ∃ package, value = package ++ '.' :: type)

/-- Words for priorities: none for 800 (not set), a name, or a number. -/
inductive PriorityWord : List Char → ℤ → Prop
  | empty : PriorityWord [] 800
  | name (w : String) (v : ℤ) : (w, v) ∈ [("EMERG", (0 : ℤ)), ("FATAL", 0), ("ALERT", 100), ("CRIT", 200), ("ERROR", 300), ("WARN", 400), ("NOTICE", 500),
      ("INFO", 600), ("DEBUG", 700), ("TRACE", 750), ("NOTSET", 800)] → PriorityWord w.toList v
  | number (n : ℕ) : n < 2 ^ 31 → PriorityWord (Nat.toDigits 10 n) n

/-- The property that configures a category; the root has the empty name. -/
def categoryKey (name : List Char) : List Char := if name = [] then "rootCategory".toList else "category.".toList ++ name

/-- The property that says whether a category is additive. -/
def additivityKey (name : List Char) : List Char := "additivity.".toList ++ (if name = [] then "rootCategory".toList else name)

end Ubitrack.Spec.LogFile
