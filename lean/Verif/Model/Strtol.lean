import Verif.Base
/-
The C library function `strtol(s, 0, 16)` on a NUL-terminated string, as used by
/repo/src/algorithm.cpp:173 and /repo/src/http_parser.cpp:1427. Library code: modelled after the C standard
(7.22.1.4) with a 64-bit `long`.
-/
namespace Verif

/-- `isspace` in the "C" locale. -/
def isSpaceC (c : UInt8) : Bool :=
  c = 0x20 || c = 0x09 || c = 0x0a || c = 0x0b || c = 0x0c || c = 0x0d

/-- Value of a hexadecimal digit, if it is one. -/
def hexVal? (c : UInt8) : Option Nat :=
  if 0x30 ≤ c ∧ c ≤ 0x39 then some (c.toNat - 0x30)
  else if 0x41 ≤ c ∧ c ≤ 0x46 then some (c.toNat - 0x41 + 10)
  else if 0x61 ≤ c ∧ c ≤ 0x66 then some (c.toNat - 0x61 + 10)
  else none

/-- Accumulate hexadecimal digits until the first other character (in particular the NUL terminator). -/
def hexDigits (acc : Nat) : Bytes → Nat
  | [] => acc
  | c :: r => match hexVal? c with
    | some v => hexDigits (16 * acc + v) r
    | none => acc

/-- The optional "0x" prefix: skipped if a hexadecimal digit follows it. -/
def skip0x : Bytes → Bytes
  | z :: x :: d :: r =>
      if z = c! "0" ∧ (x = c! "x" ∨ x = c! "X") ∧ (hexVal? d).isSome then d :: r else z :: x :: d :: r
  | s => s

/-- LONG_MAX for a 64-bit `long`. -/
def LONG_MAX : Nat := 2 ^ 63 - 1

/-- `strtol(s, 0, 16)`: leading white space, optional sign, optional 0x, digits; saturating. -/
def strtol16 (s : Bytes) : Int :=
  match s.dropWhile isSpaceC with
  | [] => 0
  | c :: r =>
    if c = c! "-" then - (min (hexDigits 0 (skip0x r)) (LONG_MAX + 1) : Nat)
    else if c = c! "+" then (min (hexDigits 0 (skip0x r)) LONG_MAX : Nat)
    else (min (hexDigits 0 (skip0x (c :: r))) LONG_MAX : Nat)

end Verif
