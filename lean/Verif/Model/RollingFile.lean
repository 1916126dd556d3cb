import Verif.Model.LogLayout

/-!
# Model: log files that roll over

3rd/log4cpp/src/RollingFileAppender.cpp and FileAppender.cpp. The disk maps names to files; a file is the list of the messages
(`write` calls) in it; if a crash or a full disk cuts a message short, the message is the part that is in the file. `open` succeeds, `remove` and `rename` fail exactly if the file
does not exist. Other programs do not touch the files.
-/

namespace Ubitrack.RollingFile

open LogLayout (Text)

/-- The messages in a file. -/
abbrev File := List Text

/-- The files by name. -/
abbrev Disk := Text → Option File

/-- Number of characters, `lseek(_fd, 0, SEEK_END)`. -/
def size (f : File) : ℕ := (f.map List.length).sum

/-- System calls that change files. -/
inductive Call where
  | write (name : Text) (message : Text)
  | remove (name : Text)
  | rename (old new : Text)
  | openFile (name : Text) (truncate : Bool)

/-- The effect of a call. `write` is to the file that has been opened under the name; a file that does not exist is not written to. -/
def exec (d : Disk) : Call → Disk
  | .write name message => Function.update d name ((d name).map (· ++ [message]))
  | .remove name => Function.update d name none
  | .rename old new =>
    match d old with
    | none => d
    | some f => if old = new then d else Function.update (Function.update d old none) new (some f)
  | .openFile name truncate => Function.update d name (some (if truncate then [] else (d name).getD []))

/-- `std::string::c_str()`: up to the first null character. -/
def cString (s : Text) : Text := s.takeWhile fun c => c ≠ '\x00'

/-- Writing to an `ostringstream` at a position, `seekp` and `<<`. -/
def overwrite (buffer : Text) (pos : ℕ) (s : Text) : Text := buffer.take pos ++ s ++ buffer.drop (pos + s.length)

/-- 3rd/log4cpp/src/RollingFileAppender.cpp l.60-71: the loop over the backups, from the index `i`, with the content of `oldName`. `n` is the position
behind the dot; `std::ends` writes a null character. -/
def shift (n : ℕ) : ℕ → Text → List Call × Text
  | 0, buffer => ([], buffer)
  | 1, buffer => ([], buffer)
  | i + 2, buffer =>
    let buffer' := overwrite buffer n (Nat.toDigits 10 (i + 1) ++ ['\x00'])
    let r := shift n (i + 1) buffer'
    (.rename (cString buffer') (cString buffer) :: r.1, r.2)

/-- 3rd/log4cpp/src/RollingFileAppender.cpp l.53-75: `rollOver`. -/
def rollOver (fileName : Text) (maxBackupIndex : ℕ) (append : Bool) : List Call :=
  (if maxBackupIndex > 0 then
    let buffer := fileName ++ '.' :: Nat.toDigits 10 maxBackupIndex ++ ['\x00']
    let r := shift (fileName.length + 1) maxBackupIndex buffer
    [.remove (cString buffer)] ++ r.1 ++ [.rename fileName (cString r.2)]
  else []) ++ [.openFile fileName (!append)]

/-- 3rd/log4cpp/src/RollingFileAppender.cpp l.77-87 and FileAppender.cpp l.77-82: the calls made for a message. -/
def appendCalls (fileName : Text) (maxBackupIndex maxFileSize : ℕ) (append : Bool) (d : Disk) (message : Text) : List Call :=
  .write fileName message ::
    if size (((exec d (.write fileName message)) fileName).getD []) ≥ maxFileSize then rollOver fileName maxBackupIndex append else []

/-- What happens to an appender: a message is logged; the program ends in the middle of logging a message, after `k` calls, and a new program makes the
appender again (FileAppender.cpp l.25-36); the size limit is changed (RollingFileAppender.cpp l.45-47). -/
inductive Event where
  | log (message : Text)
  | crash (message : Text) (k : ℕ)
  | resize (maxFileSize : ℕ)

/-- One event; the state is the disk and the size limit. -/
def step (fileName : Text) (maxBackupIndex : ℕ) (append : Bool) (s : Disk × ℕ) : Event → Disk × ℕ
  | .log message => ((appendCalls fileName maxBackupIndex s.2 append s.1 message).foldl exec s.1, s.2)
  | .crash message k =>
    (exec (((appendCalls fileName maxBackupIndex s.2 append s.1 message).take k).foldl exec s.1) (.openFile fileName (!append)), s.2)
  | .resize m => (s.1, m)

/-- 3rd/log4cpp/src/FileAppender.cpp l.25-36: the appender is made, then the events happen. -/
def run (fileName : Text) (maxBackupIndex maxFileSize : ℕ) (append : Bool) (d : Disk) (events : List Event) : Disk × ℕ :=
  events.foldl (step fileName maxBackupIndex append) (exec d (.openFile fileName (!append)), maxFileSize)

end Ubitrack.RollingFile
