import Verif.Model.RollingFile

/-!
# Specification: log files that roll over

The log is the file and its numbered backups, the oldest messages in the backup with the highest number. Only the types of files, disks and events are
taken from the model.
-/

namespace Ubitrack.Spec.Rolling

open RollingFile (Disk File Event)

/-- The file (0) and its backups. -/
def slotName (fileName : List Char) (i : ℕ) : List Char := if i = 0 then fileName else fileName ++ '.' :: Nat.toDigits 10 i

/-- The messages that are still there, from the oldest to the youngest: first the backup `n`, at last the file itself. -/
def logged (fileName : List Char) (d : Disk) : ℕ → List (List Char)
  | 0 => (d fileName).getD []
  | n + 1 => (d (slotName fileName (n + 1))).getD [] ++ logged fileName d n

/-- The messages that have been written. A program that ends before the first call writes nothing. -/
def written : List Event → List (List Char)
  | [] => []
  | .log m :: es => m :: written es
  | .crash m k :: es => if k = 0 then written es else m :: written es
  | .resize _ :: es => written es

/-- Number of characters of messages. -/
def chars (ms : List (List Char)) : ℕ := (ms.map List.length).sum

/-- The message of the event has at most `L` characters; the limit is not changed. -/
def Within (L : ℕ) : Event → Prop
  | .log m => m.length ≤ L
  | .crash m _ => m.length ≤ L
  | .resize _ => False

/-- How often the program ended. -/
def crashes : List Event → ℕ
  | [] => 0
  | .crash _ _ :: es => crashes es + 1
  | _ :: es => crashes es

end Ubitrack.Spec.Rolling
