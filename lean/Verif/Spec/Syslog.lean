import Mathlib.Data.List.Flatten
import Mathlib.Data.Int.Basic

/-!
# Specification: messages for the system log

A packet is `<n>` and a part of the message, where `n` is eight times the number of the facility, plus the severity, and is at most 900 bytes
long. Nothing is taken from the model.
-/

namespace Ubitrack.Spec.Syslog

/-- The severity of the priorities: 0 for emergencies (0 and below), 1 for alerts (100), .. 7 for debugging (700 and above), rounded down. -/
def Severity (priority severity : ℤ) : Prop :=
  (priority < 99 ∧ severity = 0) ∨ (799 ≤ priority ∧ severity = 7) ∨
    (99 ≤ priority ∧ priority < 799 ∧ 100 * severity ≤ priority + 1 ∧ priority + 1 < 100 * (severity + 1))

/-- The beginning of a packet. -/
def header (facility severity : ℕ) : List Char := '<' :: Nat.toDigits 10 (8 * facility + severity) ++ ['>']

/-- The message in packets: cut into parts that are not empty, each with the header in front, of at most 900 bytes, and all but
the last of exactly so many. -/
def Packets (facility severity : ℕ) (message : List Char) (packets : List (List Char)) : Prop :=
  ∃ parts : List (List Char), parts.flatten = message ∧ (∀ p ∈ parts, p ≠ []) ∧ packets = parts.map (header facility severity ++ ·) ∧
    (∀ p ∈ packets, p.length ≤ 900) ∧ ∀ p ∈ packets.dropLast, p.length = 900

end Ubitrack.Spec.Syslog
