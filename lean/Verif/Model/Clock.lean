import Mathlib.Data.Nat.Basic

/-!
# Model: clock and printed times

src/utMeasurement/Timestamp.cpp and src/utUtil/OS.cpp, the branches for systems other than Windows. Strings are lists of characters; the
functions of the C library that convert times (`gmtime_r`, `localtime_r`) are parameters.
-/

namespace Ubitrack.Clock

/-- `struct tm`: month from 0, year from 1900, weekday from Sunday. -/
structure Tm where
  sec : ℕ
  min : ℕ
  hour : ℕ
  mday : ℕ
  mon : ℕ
  year : ℕ
  wday : ℕ

/-- `now`, Timestamp.cpp l.100-103: the answer of `gettimeofday` in a 64 bit unsigned number. -/
def now (tv_sec tv_usec : ℤ) : ℕ :=
  ((tv_sec % 2 ^ 64) * 1000000000 % 2 ^ 64 + (tv_usec % 2 ^ 64) * 1000 % 2 ^ 64).toNat % 2 ^ 64

/-- `getHighPerformanceCounter`, OS.cpp l.76-82. `none`: overflow of the signed number. -/
def getHighPerformanceCounter (tv_sec tv_usec : ℤ) : Option ℤ :=
  let r := tv_sec * 1000000 + tv_usec
  if -2 ^ 63 ≤ tv_sec * 1000000 ∧ tv_sec * 1000000 < 2 ^ 63 ∧ -2 ^ 63 ≤ r ∧ r < 2 ^ 63 then some r else none

/-- `getHighPerformanceFrequency`, OS.cpp l.85-88. -/
def getHighPerformanceFrequency : ℤ := 1000000

/-- The argument of `nanosleep` in `sleep`, OS.cpp l.67-73: seconds and nanoseconds, computed with 32 bit unsigned numbers. -/
def sleepArgument (ms ns : ℕ) : ℕ × ℕ :=
  (ms / 1000, ((ms % 1000) * 1000000 % 2 ^ 32 + ns) % 2 ^ 32)

/-- A number in decimal digits, padded on the left (`printf` with `%02d`, `%06d`, `%3d`). -/
def pad (w : ℕ) (c : Char) (n : ℕ) : List Char :=
  List.replicate (w - (Nat.toDigits 10 n).length) c ++ Nat.toDigits 10 n

/-- `timestampToShortString`, Timestamp.cpp l.137-156. `none`: the text and the final zero do not fit into the 32 bytes of the buffer. -/
def timestampToShortString (localtime : ℕ → Tm) (t : ℕ) : Option (List Char) :=
  let mytime := t / 1000000000
  let temp := localtime mytime
  let text := pad 2 '0' temp.hour ++ [':'] ++ pad 2 '0' temp.min ++ [':'] ++ pad 2 '0' temp.sec ++ ['.'] ++ pad 6 '0' ((t / 1000) % 1000000)
  if text.length + 1 ≤ 32 then some text else none

/-- The names of the days in `asctime`. -/
def dayName (wday : ℕ) : List Char :=
  (["Sun", "Mon", "Tue", "Wed", "Thu", "Fri", "Sat"].map String.toList).getD wday ['?', '?', '?']

/-- The names of the months in `asctime`. -/
def monthName (mon : ℕ) : List Char :=
  (["Jan", "Feb", "Mar", "Apr", "May", "Jun", "Jul", "Aug", "Sep", "Oct", "Nov", "Dec"].map String.toList).getD mon ['?', '?', '?']

/-- `asctime_r`, in the format of POSIX (`"%.3s %.3s%3d %.2d:%.2d:%.2d %d\n"`). `none`: more than the 26 bytes it is allowed to need,
undefined behaviour. -/
def asctime (tm : Tm) : Option (List Char) :=
  let text := dayName tm.wday ++ [' '] ++ monthName tm.mon ++ pad 3 ' ' tm.mday ++ [' '] ++ pad 2 '0' tm.hour ++ [':'] ++ pad 2 '0' tm.min ++ [':'] ++
    pad 2 '0' tm.sec ++ [' '] ++ Nat.toDigits 10 (1900 + tm.year) ++ ['\n']
  if text.length + 1 ≤ 26 then some text else none

/-- `timestampToString`, Timestamp.cpp l.109-134: `replace( length - 1, 4, " UTC" )` takes the place of the last character. -/
def timestampToString (gmtime : ℕ → Tm) (t : ℕ) : Option (List Char) := do
  let mytime := t / 1000000000
  let result ← asctime (gmtime mytime)
  return result.take (result.length - 1) ++ [' ', 'U', 'T', 'C']

end Ubitrack.Clock
