import Mathlib.Data.List.Basic
import Mathlib.Data.Int.Notation

/-!
# Specification: conversion patterns of log lines

A pattern is text with specifiers in it; `%%` stands for a percent sign. Independent of the model.
-/

namespace Ubitrack.Spec

/-- `ds` is a decimal notation of `n`. -/
def IsNumeral (ds : List Char) (n : ℕ) : Prop :=
  ds ≠ [] ∧ (∀ c ∈ ds, c.isDigit) ∧ ds.foldl (fun a c => 10 * a + (c.toNat - 48)) 0 = n

/-- A part of a pattern: text, the end of the line (`%n`), or a specifier: its letter, the sign and notation of its minimal width, the notation of its maximal width, and
the text in braces. -/
inductive PatternItem where
  | text (s : List Char)
  | newline
  | field (letter : Char) (left : Bool) (minimum maximum : Option (List Char)) (braces : Option (List Char))

/-- A minimal width in a pattern, negative if the text is to be on the left. -/
def minimumText (left : Bool) : Option (List Char) → List Char
  | some ds => (if left then ['-'] else []) ++ ds
  | none => []

/-- A maximal width in a pattern. -/
def maximumText : Option (List Char) → List Char
  | some ds => '.' :: ds
  | none => []

/-- A text in braces in a pattern. -/
def bracesText : Option (List Char) → List Char
  | some s => '{' :: s ++ ['}']
  | none => []

/-- How an item is written in a pattern. -/
def PatternItem.render : PatternItem → List Char
  | .text s => s.flatMap fun c => if c = '%' then ['%', '%'] else [c]
  | .newline => ['%', 'n']
  | .field letter left minimum maximum braces =>
    '%' :: (minimumText left minimum ++ maximumText maximum ++ letter :: bracesText braces)

/-- How a list of items is written. -/
def renderPattern (items : List PatternItem) : List Char := items.flatMap PatternItem.render

/-- The text of a notation as a number. -/
def numeralValue (ds : List Char) : ℕ := ds.foldl (fun a c => 10 * a + (c.toNat - 48)) 0

/-- The items are in order: widths are numerals, the widths of the size of an `int` and of 64 bits, texts in braces without a closing brace, letters among
those given. What follows a specifier without braces does not begin with an opening brace; this includes `%n` and the `%%` for a percent sign. -/
def GoodPattern (letters : List Char) : List PatternItem → Prop
  | [] => True
  | .text s :: rest => (∀ p q, s = p ++ '%' :: q → (q ++ renderPattern rest).head? ≠ some '{') ∧ GoodPattern letters rest
  | .newline :: rest => (renderPattern rest).head? ≠ some '{' ∧ GoodPattern letters rest
  | .field letter _ minimum maximum braces :: rest =>
    letter ∈ letters ∧ (∀ ds ∈ minimum, IsNumeral ds (numeralValue ds) ∧ numeralValue ds < 2 ^ 31) ∧
    (∀ ds ∈ maximum, IsNumeral ds (numeralValue ds) ∧ numeralValue ds < 2 ^ 64) ∧
    (∀ s ∈ braces, '}' ∉ s) ∧ (braces = none → (renderPattern rest).head? ≠ some '{') ∧ GoodPattern letters rest

/-- A text cut at a maximal width (0: no maximum) and filled up to a minimal width, on the right if `left`. -/
def fitted (left : Bool) (minimum maximum : ℕ) (s : List Char) : List Char :=
  let t := if maximum = 0 then s else s.take maximum
  if left then t ++ List.replicate (minimum - t.length) ' ' else List.replicate (minimum - t.length) ' ' ++ t

/-- The line for a list of items, given the text of each specifier (`none`: there is none). -/
def lineOf (value : Char → List Char → Option (List Char)) : List PatternItem → Option (List Char)
  | [] => some []
  | .text s :: rest => (lineOf value rest).map (s ++ ·)
  | .newline :: rest => (lineOf value rest).map ('\n' :: ·)
  | .field letter left minimum maximum braces :: rest => do
    let s ← value letter (braces.getD [])
    let tail ← lineOf value rest
    return fitted left (numeralValue (minimum.getD [])) (numeralValue (maximum.getD [])) s ++ tail

/-- `r` is the end of `name` with the last `n` parts between dots, or all of it if it has no more parts. -/
def IsLastParts (n : ℕ) (name r : List Char) : Prop :=
  (r = name ∧ name.count '.' < n) ∨ (∃ p, name = p ++ '.' :: r ∧ r.count '.' + 1 = n)

end Ubitrack.Spec
