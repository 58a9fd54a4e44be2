import Verif.Model.Digits
/-
Specification of dates: the Gregorian calendar, and the text of RFC 1123 for a time.
-/
namespace Verif.Spec.HttpDate

/-- Days from 1 January 1970 to the first day of year `y`: 365 per year and one for every leap year between. -/
def yearStart (y : Int) : Int := 365 * y + (y + 3) / 4 - (y + 99) / 100 + (y + 399) / 400 - 719528

def leapYear (y : Int) : Prop := 4 ∣ y ∧ (¬ 100 ∣ y ∨ 400 ∣ y)

instance (y : Int) : Decidable (leapYear y) := inferInstanceAs (Decidable (_ ∧ _))

/-- Days in each month. -/
def days (y : Int) : List Nat := [31, if leapYear y then 29 else 28, 31, 30, 31, 30, 31, 31, 30, 31, 30, 31]

/-- A date and time of day. `month` is 1 for January. -/
structure Date where
  year : Int
  month : Nat
  day : Nat
  hour : Nat
  minute : Nat
  second : Nat
  deriving Repr, DecidableEq

/-- It exists in the calendar. -/
def Date.Valid (d : Date) : Prop :=
  1 ≤ d.month ∧ d.month ≤ 12 ∧ 1 ≤ d.day ∧ d.day ≤ (days d.year).getD (d.month - 1) 0 ∧ d.hour < 24 ∧ d.minute < 60 ∧
    d.second < 60

instance (d : Date) : Decidable d.Valid := inferInstanceAs (Decidable (_ ∧ _))

/-- Its number, counted in days from 1 January 1970. -/
def Date.number (d : Date) : Int := yearStart d.year + ((days d.year).take (d.month - 1)).sum + d.day - 1

/-- Seconds since 1 January 1970, 0:00. -/
def Date.seconds (d : Date) : Int := ((d.number * 24 + d.hour) * 60 + d.minute) * 60 + d.second

def monthNames : List Bytes :=
  [b! "Jan", b! "Feb", b! "Mar", b! "Apr", b! "May", b! "Jun", b! "Jul", b! "Aug", b! "Sep", b! "Oct", b! "Nov", b! "Dec"]

/-- 1 January 1970 was a Thursday. -/
def dayNames : List Bytes := [b! "Thu", b! "Fri", b! "Sat", b! "Sun", b! "Mon", b! "Tue", b! "Wed"]

def pad (n : Nat) : Bytes := if n < 10 then b! "0" ++ toDec n else toDec n

def yearText (y : Int) : Bytes := if y < 0 then b! "-" ++ toDec y.natAbs else toDec y.natAbs

/-- `Sun, 06 Nov 1994 08:49:37 GMT`. -/
def Date.text (d : Date) : Bytes :=
  dayNames.getD (d.number % 7).toNat [] ++ b! ", " ++ pad d.day ++ b! " " ++ monthNames.getD (d.month - 1) [] ++ b! " " ++
    yearText d.year ++ b! " " ++ pad d.hour ++ b! ":" ++ pad d.minute ++ b! ":" ++ pad d.second ++ b! " GMT"

/-- The text is that of the time `t`. -/
def Denotes (s : Bytes) (t : Int) : Prop := ∃ d : Date, d.Valid ∧ d.seconds = t ∧ s = d.text

end Verif.Spec.HttpDate
