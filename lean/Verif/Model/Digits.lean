import Verif.Model.HttpMessage
/-
Decimal and hexadecimal formatting of numbers: library code (`operator<<(ostream&, unsigned)`,
`boost::lexical_cast<std::string>`, `std::hex`), used by /repo/include/pion/http/request.hpp:166-180,
response.hpp:204-213, message.hpp:377-379, /repo/src/http_writer.cpp.
-/
namespace Verif

/-- Digits of `n` in base `b`, most significant first; the first argument is fuel (`n` suffices). -/
def digitsBE (b : Nat) : Nat → Nat → List Nat
  | 0, n => [n % b]
  | f + 1, n => if n < b then [n] else digitsBE b f (n / b) ++ [n % b]

/-- The character of a digit (lower case, as `std::hex` prints). -/
def digitChar (d : Nat) : UInt8 := if d < 10 then UInt8.ofNat (0x30 + d) else UInt8.ofNat (0x61 + (d - 10))

/-- A number in decimal. -/
def toDec (n : Nat) : Bytes := (digitsBE 10 n n).map digitChar

/-- A number in hexadecimal. -/
def toHex (n : Nat) : Bytes := (digitsBE 16 n n).map digitChar

example : toDec 0 = b! "0" ∧ toDec 65535 = b! "65535" ∧ toHex 255 = b! "ff" ∧ toHex 4096 = b! "1000" := by
  decide +kernel

end Verif
