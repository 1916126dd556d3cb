import Mathlib.Data.Int.Basic
import Mathlib.Data.List.Basic
import Mathlib.Tactic.NormNum

/-!
# Serial port

src/utUtil/SerialPort.h l.62-114 and the POSIX half of src/utUtil/SerialPort.cpp l.246-383. The Windows half (l.34-230) is not modelled.

The operating system is modelled as the table of file descriptors of the process and the attributes of terminals. What a call of the
operating system answers (success, number of bytes) is an argument of the operation; the theorems hold for every answer.
-/

namespace Ubitrack.SerialPort

/-- The fields of `struct termios` the code sets, one by one instead of bit masks. `raw` stands for the cleared flags of `c_lflag` and
`c_oflag` (no echo, no line editing, no output processing). -/
structure Termios where
  baud : ℕ
  size : ℕ
  parenb : Bool
  parodd : Bool
  cstopb : Bool
  clocal : Bool
  cread : Bool
  ignbrk : Bool
  ignpar : Bool
  raw : Bool
  vtime : ℤ
  vmin : ℤ
  deriving DecidableEq

/-- A file that was opened: its name and a number that no other file opened has. -/
structure OpenFile where
  name : String
  id : ℕ
  deriving DecidableEq

/-- The process as the operating system sees it: descriptor table, attributes of the terminals, number for the next file opened. -/
structure System where
  table : List (Option OpenFile)
  attrs : String → Termios
  next : ℕ

/-- The lowest free descriptor (POSIX), and the table with the file in that place. -/
def alloc (f : OpenFile) : List (Option OpenFile) → ℕ × List (Option OpenFile)
  | [] => (0, [some f])
  | none :: t => (0, some f :: t)
  | some g :: t => let r := alloc f t; (r.1 + 1, some g :: r.2)

/-- The file a descriptor refers to. -/
def System.file (s : System) (fd : ℕ) : Option OpenFile := (s.table[fd]?).join

/-- `::open`: the new descriptor and the system after. -/
def System.openFile (s : System) (name : String) : ℕ × System :=
  let r := alloc ⟨name, s.next⟩ s.table
  (r.1, { s with table := r.2, next := s.next + 1 })

/-- `::close`; a descriptor that is not open: no effect (EBADF, ignored by the code). -/
def System.closeFile (s : System) (fd : ℕ) : System := { s with table := s.table.set fd none }

/-- `tcsetattr` on a descriptor: sets the attributes of the terminal the descriptor refers to. -/
def System.setAttrs (s : System) (fd : ℕ) (t : Termios) : System :=
  match s.file fd with
  | some f => { s with attrs := fun n => if n = f.name then t else s.attrs n }
  | none => s

/-- `tcgetattr` on a descriptor. -/
def System.getAttrs (s : System) (fd : ℕ) : Option Termios := (s.file fd).map fun f => s.attrs f.name

/-- The members of `SerialPort`, SerialPort.h l.97-110. `fileDescriptor` and `original` are `none` while uninitialised; `m_termiosCurrent` is only used within `open`. -/
structure Port where
  portName : String
  baudRate : ℕ
  portOpen : Bool
  bits : ℤ
  parity : ℤ
  stop : ℤ
  fileDescriptor : Option ℕ
  original : Option Termios
  deriving DecidableEq

/-- Constructor, SerialPort.h l.65-72. -/
def Port.new (port : String) (baudRate : ℕ) (bits : ℤ := 8) (parity : ℤ := 0) (stop : ℤ := 1) : Port :=
  ⟨port, baudRate, false, bits, parity, stop, none, none⟩

/-- The effect of `cfmakeraw` on the fields modelled, as POSIX systems document it: eight bits, no parity, breaks not ignored, one byte
without timeout. -/
def cfmakeraw (t : Termios) : Termios :=
  { t with size := 8, parenb := false, ignbrk := false, raw := true, vmin := 1, vtime := 0 }

/-- The baud rates of the `switch`, SerialPort.cpp l.254-276. -/
def supportedBaud (baud : ℕ) : Bool := baud ∈ [9600, 19200, 38400, 57600, 115200, 230400]

/-- `size`, `parity` and `stop`, SerialPort.cpp l.278-292, and the attributes written, l.303-314. -/
def Port.attributes (p : Port) (vtime vmin : ℤ) : Termios :=
  let size := if p.bits = 5 then 5 else if p.bits = 6 then 6 else if p.bits = 7 then 7 else 8
  let parenb := p.parity ≠ 0
  let parodd := p.parity ≠ 0 ∧ p.parity = 1
  let current : Termios :=
    { baud := p.baudRate, size := size, parenb := parenb, parodd := parodd, cstopb := p.stop = 2, clocal := true, cread := true,
      ignbrk := true, ignpar := true, raw := true, vtime := 0, vmin := 0 }
  let current := cfmakeraw current
  let current := { current with vtime := vtime, vmin := vmin }
  { current with baud := p.baudRate }

/-- How an operation ends. -/
inductive Outcome (α : Type) | ok (a : α) | throws
  deriving DecidableEq

/-- What the operating system answers in `open`: whether `::open`, `tcgetattr` and `tcsetattr` succeed. -/
structure OpenAnswers where
  openOk : Bool
  getOk : Bool
  setOk : Bool

/-- `SerialPort::open`, SerialPort.cpp l.246-320. -/
def Port.open (p : Port) (s : System) (vtime vmin : ℤ) (a : OpenAnswers) : Outcome Unit × Port × System :=
  if p.portOpen then (.ok (), p, s)
  else if !supportedBaud p.baudRate then (.throws, p, s)
  else if !a.openOk then (.throws, p, s)
  else
    let (fd, s) := s.openFile p.portName
    let p := { p with fileDescriptor := some fd }
    if !a.getOk then (.throws, p, s)
    else
      let p := { p with original := s.getAttrs fd }
      if !a.setOk then (.throws, p, s)
      else (.ok (), { p with portOpen := true }, s.setAttrs fd (p.attributes vtime vmin))

/-- `SerialPort::close`, SerialPort.cpp l.322-335, also the destructor, SerialPort.h l.74-77. The argument: whether `tcsetattr`
succeeds. `portOpen` is left as it is. -/
def Port.close (p : Port) (s : System) (setOk : Bool) : Port × System :=
  if !p.portOpen then (p, s)
  else
    match p.fileDescriptor, p.original with
    | some fd, some t => (p, (if setOk then s.setAttrs fd t else s).closeFile fd)
    | some fd, none => (p, s.closeFile fd)
    | none, _ => (p, s)

/-- `SerialPort::read`, SerialPort.cpp l.337-350, and the file the bytes come from. The argument: the answer of `::read`, negative for
an error. -/
def Port.read (p : Port) (s : System) (answer : ℤ) : Outcome (ℕ × Option OpenFile) :=
  if !p.portOpen then .throws
  else if answer < 0 then .throws
  else .ok (answer.toNat, p.fileDescriptor.bind s.file)

/-- Conversion of a `long` to `unsigned long` (64 bits). -/
def toUnsigned (n : ℤ) : ℕ := (n % 2 ^ 64).toNat

/-- `SerialPort::send`, SerialPort.cpp l.352-362, and the file the bytes go to. The argument: the answer of `::write`. -/
def Port.send (p : Port) (s : System) (answer : ℤ) : Outcome (ℕ × Option OpenFile) :=
  if !p.portOpen then .throws
  else .ok (toUnsigned answer, p.fileDescriptor.bind s.file)

/-- `SerialPort::bytesOnRead`, SerialPort.cpp l.364-373, and the file that is asked. The argument: what `ioctl` stores, `none` if it
fails; the result `none` is the value of an uninitialised variable. -/
def Port.bytesOnRead (p : Port) (s : System) (answer : Option ℤ) : Outcome (Option ℕ × Option OpenFile) :=
  if !p.portOpen then .throws
  else .ok (answer.map toUnsigned, p.fileDescriptor.bind s.file)

/-- `SerialPort::sendBreak` and `flush`, SerialPort.cpp l.375-383: the descriptor they work on; `none`: undefined behaviour, the
descriptor is uninitialised. -/
def Port.breakOrFlush (p : Port) : Option ℕ := p.fileDescriptor

/-- What can happen to a port and around it: calls on the port, and files opened and closed by the rest of the program. -/
inductive Event
  | open (vtime vmin : ℤ) (a : OpenAnswers)
  | close (setOk : Bool)
  | read (answer : ℤ)
  | send (answer : ℤ)
  | otherOpen (name : String)
  | otherClose (fd : ℕ)

/-- One event. -/
def step (st : Port × System) : Event → Port × System
  | .«open» vtime vmin a => (st.1.open st.2 vtime vmin a).2
  | .close setOk => st.1.close st.2 setOk
  | .read _ => st
  | .send _ => st
  | .otherOpen name => (st.1, (st.2.openFile name).2)
  | .otherClose fd => (st.1, st.2.closeFile fd)

/-- A history of events. -/
def run (st : Port × System) (es : List Event) : Port × System := es.foldl step st

end Ubitrack.SerialPort
