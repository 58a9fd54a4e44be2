import Verif.Base
/-
Character classes of the HTTP parser and ASCII case folding.
-/
namespace Verif

/-- `parser::is_char` (/repo/include/pion/http/parser.hpp:712-715): a `char` >= 0x80 is negative (or > 127 if
    `char` is unsigned); both fail the test. -/
def isChar (c : UInt8) : Bool := c ≤ 127
/-- `parser::is_control` (/repo/include/pion/http/parser.hpp:717-720). -/
def isControl (c : UInt8) : Bool := c ≤ 31 || c = 127
/-- `parser::is_special` (/repo/include/pion/http/parser.hpp:722-733). -/
def isSpecial (c : UInt8) : Bool := (b! "()<>@,;:\\\"/[]?={} \t").contains c
/-- `parser::is_digit` (/repo/include/pion/http/parser.hpp:735-738). -/
def isDigit (c : UInt8) : Bool := 0x30 ≤ c && c ≤ 0x39
/-- `parser::is_hex_digit` (/repo/include/pion/http/parser.hpp:740-743). -/
def isHexDigit (c : UInt8) : Bool := (0x30 ≤ c && c ≤ 0x39) || (0x61 ≤ c && c ≤ 0x66) || (0x41 ≤ c && c ≤ 0x46)

/-- The test `!is_char(c) || is_control(c) || is_special(c)` used throughout `parse_headers`. -/
def badToken (c : UInt8) : Bool := !isChar c || isControl c || isSpecial c

/-- `std::toupper(c, std::locale())` in the "C" locale. -/
def toUpper (c : UInt8) : UInt8 := if 0x61 ≤ c ∧ c ≤ 0x7a then c - 0x20 else c

/-- `boost::algorithm::iequals` in the "C" locale. -/
def iequals (x y : Bytes) : Bool := x.map toUpper == y.map toUpper

/-- Value of a digit character, `c - '0'`. -/
def digitVal (c : UInt8) : Nat := c.toNat - 0x30

/-- `std::string::find(pat)`: index of the first occurrence. -/
def findSub (pat : Bytes) : Bytes → Option Nat
  | [] => if pat.isEmpty then some 0 else none
  | c :: r => if pat.isPrefixOf (c :: r) then some 0 else (findSub pat r).map (· + 1)

end Verif
