import Verif.Model.SimpleConfig
import Mathlib.Data.Int.Bitwise

/-!
# Model: appenders for the system log

3rd/log4cpp/src/RemoteSyslogAppender.cpp and SyslogAppender.cpp. Characters stand for bytes. Addresses are four bytes in network order.
`char` is signed and the machine is little-endian. The socket calls are modelled by what they are given; that they can fail is not modelled.
-/

namespace Ubitrack.Syslog

open LogLayout (Text)

/-- Internet addresses. -/
abbrev Address := ℕ × ℕ × ℕ × ℕ

/-- 3rd/log4cpp/src/RemoteSyslogAppender.cpp l.32-50, SyslogAppender.cpp l.21-39: `toSyslogPriority`. The division of C++ goes towards zero.
`LOG_EMERG` is 0 and `LOG_DEBUG` is 7 (RemoteSyslogAppender.hh l.29-36). The overflow of `INT_MAX + 1` is not modelled. -/
def toSyslogPriority (priority : ℤ) : ℤ :=
  let p := (priority + 1).tdiv 100
  if p < 0 then 0 else if p > 7 then 7 else p

/-- 3rd/log4cpp/include/log4cpp/RemoteSyslogAppender.hh l.124-137: the members. -/
structure Remote where
  syslogName : Text
  facility : ℤ
  portNumber : ℤ
  socket : ℤ
  ipAddr : Address

/-- 3rd/log4cpp/src/RemoteSyslogAppender.cpp l.106: `_ipAddr = *(pent->h_addr)`, where `h_addr` is a pointer to `char`: the first byte, extended
to 32 bits with its sign. -/
def storedAddress (a : Address) : Address :=
  let e := if a.1 < 128 then 0 else 255
  (a.1, e, e, e)

/-- 3rd/log4cpp/src/RemoteSyslogAppender.cpp l.78-115: `open`. `host` is the address that the name of the relayer is resolved to, if it is;
`fd` is the new socket. -/
def Remote.open (r : Remote) (host : Option Address) (fd : ℤ) : Remote :=
  if r.ipAddr = (0, 0, 0, 0) then
    match host with
    | none => r
    | some a => { r with ipAddr := storedAddress a, socket := fd }
  else { r with socket := fd }

/-- 3rd/log4cpp/src/RemoteSyslogAppender.cpp l.53-68: the constructor. -/
def Remote.new (syslogName : Text) (facility portNumber : ℤ) (host : Option Address) (fd : ℤ) : Remote :=
  Remote.open ⟨syslogName, if facility = -1 then 8 else facility, if portNumber = -1 then 514 else portNumber, 0, (0, 0, 0, 0)⟩ host fd

/-- 3rd/log4cpp/src/RemoteSyslogAppender.cpp l.117-126: `close`. -/
def Remote.close (r : Remote) : Remote := { r with socket := 0 }

/-- 3rd/log4cpp/src/RemoteSyslogAppender.cpp l.163-167: `reopen`. -/
def Remote.reopen (r : Remote) (host : Option Address) (fd : ℤ) : Remote := r.close.open host fd

/-- `%d`. -/
def decimal : ℤ → Text
  | .ofNat n => Nat.toDigits 10 n
  | .negSucc n => '-' :: Nat.toDigits 10 (n + 1)

/-- `memmove` within a buffer. -/
def memmove (buf : Text) (dst src n : ℕ) : Text := buf.take dst ++ (buf.drop src).take n ++ buf.drop (dst + n)

/-- 3rd/log4cpp/src/RemoteSyslogAppender.cpp l.145-158: the loop; `none` if it reads outside of the buffer. Each round sends a part of the message;
the first argument bounds the number of rounds. -/
def sendLoop : ℕ → Text → ℕ → ℕ → Option (List Text)
  | 0, _, _, _ => some []
  | fuel + 1, buf, preambleLength, messageLength =>
    if messageLength > 0 then
      if preambleLength + messageLength > 900 then
        let left := messageLength - (900 - preambleLength)
        if buf.length < 900 + left then none
        else (sendLoop fuel (memmove buf preambleLength 900 left) preambleLength left).map (buf.take 900 :: ·)
      else if buf.length < preambleLength + messageLength then none
      else some [buf.take (preambleLength + messageLength)]
    else some []

/-- A datagram: the socket, the receiver, and the content. -/
structure Datagram where
  socket : ℤ
  address : Address
  port : ℤ
  content : Text
  deriving DecidableEq

/-- 3rd/log4cpp/src/RemoteSyslogAppender.cpp l.132-161: `_append`; `message` is the formatted event. `none`: access outside of the buffer. What is in the
buffer behind the message is not known, `fill`. `htons` takes 16 bits. -/
def Remote.append (r : Remote) (priority : ℤ) (message : Text) (fill : ℕ → Char) : Option (List Datagram) :=
  let preamble := '<' :: decimal (r.facility + toSyslogPriority priority) ++ ['>']
  if message.length + 16 < preamble.length + 1 then none
  else if message.length + 16 < preamble.length + message.length then none
  else
    let buf := preamble ++ message ++ (List.range (16 - preamble.length)).map fill
    (sendLoop message.length buf preamble.length message.length).map fun ps => ps.map fun p => ⟨r.socket, r.ipAddr, r.portNumber % 65536, p⟩

/-- 3rd/log4cpp/src/SyslogAppender.cpp l.62-66: `_append`: the arguments of `::syslog`. The message ends at a null character. -/
def localAppend (facility priority : ℤ) (message : Text) : ℤ × Text :=
  (Int.lor (toSyslogPriority priority) facility, message.takeWhile fun c => c ≠ '\x00')

end Ubitrack.Syslog
