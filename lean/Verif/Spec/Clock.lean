import Verif.Model.Clock
import Mathlib.Algebra.BigOperators.Group.Finset.Basic

/-!
# Specification: calendar
-/

namespace Ubitrack.Spec

open Clock

/-- Gregorian leap years. -/
def leapYear (y : ℕ) : Bool := y % 4 = 0 && (y % 100 ≠ 0 || y % 400 = 0)

/-- Days of a year. -/
def daysInYear (y : ℕ) : ℕ := if leapYear y then 366 else 365

/-- Days of a month, counted from 0. -/
def daysInMonth (y m : ℕ) : ℕ := [31, if leapYear y then 29 else 28, 31, 30, 31, 30, 31, 31, 30, 31, 30, 31].getD m 0

/-- Days from the first of January 1970 to a day of the year `1970 + k`. -/
def dayNumber (k mon mday : ℕ) : ℕ :=
  ∑ i ∈ Finset.range k, daysInYear (1970 + i) + ∑ i ∈ Finset.range mon, daysInMonth (1970 + k) i + (mday - 1)

/-- `tm` is the date and time of day `secs` seconds after the beginning of 1970, a Thursday, in universal time without leap seconds. This is
what the C library is trusted for in `gmtime_r`. -/
structure IsDate (secs : ℕ) (tm : Tm) : Prop where
  hour : tm.hour < 24
  min : tm.min < 60
  sec : tm.sec < 60
  mon : tm.mon < 12
  mday : 1 ≤ tm.mday ∧ tm.mday ≤ daysInMonth (1900 + tm.year) tm.mon
  year : 70 ≤ tm.year
  wday : tm.wday = (dayNumber (tm.year - 70) tm.mon tm.mday + 4) % 7
  secs : secs = dayNumber (tm.year - 70) tm.mon tm.mday * 86400 + tm.hour * 3600 + tm.min * 60 + tm.sec

/-- `tm` is the time of day `secs` seconds after the beginning of 1970, `offset` seconds ahead of universal time. This is what the C library is
trusted for in `localtime_r`. -/
structure IsTimeOfDay (secs : ℕ) (offset : ℤ) (tm : Tm) : Prop where
  hour : tm.hour < 24
  min : tm.min < 60
  sec : tm.sec < 60
  secs : (secs + offset) % 86400 = tm.hour * 3600 + tm.min * 60 + tm.sec

/-- The number written by decimal digits. -/
def number (s : List Char) : ℕ := Nat.ofDigitChars 10 s 0

/-- The day of the week, counted from Sunday. -/
def weekday : ℕ → String
  | 0 => "Sun"
  | 1 => "Mon"
  | 2 => "Tue"
  | 3 => "Wed"
  | 4 => "Thu"
  | 5 => "Fri"
  | _ => "Sat"

/-- The month, counted from 0. -/
def month : ℕ → String
  | 0 => "Jan"
  | 1 => "Feb"
  | 2 => "Mar"
  | 3 => "Apr"
  | 4 => "May"
  | 5 => "Jun"
  | 6 => "Jul"
  | 7 => "Aug"
  | 8 => "Sep"
  | 9 => "Oct"
  | 10 => "Nov"
  | _ => "Dec"

/-- A date, such as `Thu Jan  1 00:00:00 1970 UTC`. -/
def dateText (tm : Tm) : List Char :=
  (weekday tm.wday).toList ++ ' ' :: (month tm.mon).toList ++ ' ' :: (Nat.toDigits 10 tm.mday).leftpad 2 ' ' ++
  ' ' :: (Nat.toDigits 10 tm.hour).leftpad 2 '0' ++ ':' :: (Nat.toDigits 10 tm.min).leftpad 2 '0' ++ ':' :: (Nat.toDigits 10 tm.sec).leftpad 2 '0' ++
  ' ' :: Nat.toDigits 10 (1900 + tm.year) ++ " UTC".toList

/-- How long `nanosleep` sleeps, in nanoseconds: it refuses (and does not sleep) when the nanoseconds are a whole second or more. -/
def nanosleep (sec nsec : ℕ) : ℕ := if nsec < 10 ^ 9 then sec * 10 ^ 9 + nsec else 0

end Ubitrack.Spec
