import Verif.Model.Digits
/-
Model of `types::get_date_string` (/repo/src/http_types.cpp:98-116) with the library functions `gmtime` and `strftime`
in the "C" locale.
-/
namespace Verif.HttpDate

/-- `struct tm`. `year` is the year itself (`tm_year` + 1900), `mon` counts from 0, `wday` from Sunday. -/
structure Tm where
  sec : Nat
  min : Nat
  hour : Nat
  mday : Nat
  mon : Nat
  year : Int
  wday : Nat
  deriving Repr, DecidableEq

def isLeap (y : Int) : Bool := y % 4 = 0 && (y % 100 ≠ 0 || y % 400 = 0)

def yearLength (y : Int) : Nat := if isLeap y then 366 else 365

def monthLengths (leap : Bool) : List Nat := [31, if leap then 29 else 28, 31, 30, 31, 30, 31, 31, 30, 31, 30, 31]

/-- The year in which the day lies that is `d` days after the first day of `y`, at most `n` years later, and its number
    in that year. -/
def countYears : Nat → Int → Nat → Int × Nat
  | 0, y, d => (y, d)
  | n + 1, y, d => if d < yearLength y then (y, d) else countYears n (y + 1) (d - yearLength y)

/-- The same for months. -/
def countMonths : List Nat → Nat → Nat × Nat
  | [], d => (0, d)
  | l :: ls, d => if d < l then (0, d) else ((countMonths ls (d - l)).1 + 1, (countMonths ls (d - l)).2)

/-- The broken-down time, by counting from the beginning of a period of 400 years (146097 days); 719528 days lie
    between the beginnings of the years 0 and 1970. -/
def breakDown (t : Int) : Tm :=
  let days := t / 86400
  let s := (t % 86400).toNat
  let era := (days + 719528) / 146097
  let (y, yd) := countYears 400 (400 * era) ((days + 719528) % 146097).toNat
  let (m, md) := countMonths (monthLengths (isLeap y)) yd
  { sec := s % 60, min := s / 60 % 60, hour := s / 3600, mday := md + 1, mon := m, year := y, wday := ((days + 4) % 7).toNat }

/-- `gmtime`; `none` is a null pointer, returned if `tm_year` does not fit an `int`. -/
def gmtime (t : Int) : Option Tm :=
  let tm := breakDown t
  if -2 ^ 31 ≤ tm.year - 1900 ∧ tm.year - 1900 < 2 ^ 31 then some tm else none

def weekdays : List Bytes := [b! "Sun", b! "Mon", b! "Tue", b! "Wed", b! "Thu", b! "Fri", b! "Sat"]

def months : List Bytes :=
  [b! "Jan", b! "Feb", b! "Mar", b! "Apr", b! "May", b! "Jun", b! "Jul", b! "Aug", b! "Sep", b! "Oct", b! "Nov", b! "Dec"]

/-- Two digits. -/
def two (n : Nat) : Bytes := [digitChar (n / 10), digitChar (n % 10)]

def signed (n : Int) : Bytes := if n < 0 then c! "-" :: toDec n.natAbs else toDec n.toNat

/-- The conversions of `strftime` that the format has. -/
def convert (tm : Tm) (c : UInt8) : Bytes :=
  if c = c! "a" then weekdays.getD tm.wday []
  else if c = c! "d" then two tm.mday
  else if c = c! "b" then months.getD tm.mon []
  else if c = c! "Y" then signed tm.year
  else if c = c! "H" then two tm.hour
  else if c = c! "M" then two tm.min
  else if c = c! "S" then two tm.sec
  else []

/-- The text `strftime` makes. -/
def expand (tm : Tm) : Bytes → Bytes
  | [] => []
  | [c] => [c]
  | c :: d :: r => if c = c! "%" then convert tm d ++ expand tm r else c :: expand tm (d :: r)

/-- `strftime` into a buffer of `size` bytes; a text that does not fit is replaced by the empty one by the caller
    (/repo/src/http_types.cpp:107-108). -/
def strftime (size : Nat) (format : Bytes) (tm : Tm) : Bytes :=
  if (expand tm format).length < size then expand tm format else []

/-- `TIME_FORMAT` (/repo/src/http_types.cpp:102). -/
def timeFormat : Bytes := b! "%a, %d %b %Y %H:%M:%S GMT"

/-- `get_date_string` (/repo/src/http_types.cpp:98-116); `none`: `strftime` reads through a null pointer. The mutex is
    not modelled. -/
def dateString (t : Int) : Option Bytes := (gmtime t).map (strftime 100 timeFormat)

end Verif.HttpDate
