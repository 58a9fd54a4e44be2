import Verif.Model.FloatBytes
/-
IEEE 754 binary interchange formats with `E` exponent bits and `F` fraction bits, independent of the codec.
-/
namespace Verif.Spec.Ieee
open Verif.FloatBytes (LD)

/-- `N` as `n` bytes, most significant first. -/
def beBytes : Nat → Nat → Bytes
  | 0, _ => []
  | n + 1, N => UInt8.ofNat (N / 256 ^ n) :: beBytes n N

/-- The bytes of the number with sign bit `s`, biased exponent `e` and fraction field `k`: the integer whose binary
    digits are the sign, the exponent and the fraction, most significant byte first. -/
def bytes (E F : Nat) (s : Bool) (e k : Nat) : Bytes :=
  beBytes ((E + F + 1) / 8) (((if s then 1 else 0) * 2 ^ E + e) * 2 ^ F + k)

/-- The bias of the exponent. -/
def bias (E : Nat) : Int := 2 ^ (E - 1) - 1

/-- The magnitude of a normal number, `1.k * 2^(e - bias)`. -/
def normal (E F e k : Nat) : ℚ := (1 + (k : ℚ) / 2 ^ F) * (2 : ℚ) ^ ((e : Int) - bias E)

/-- The magnitude of a subnormal number, `0.k * 2^(1 - bias)`. -/
def subnormal (E F k : Nat) : ℚ := (k : ℚ) / 2 ^ F * (2 : ℚ) ^ (1 - bias E)

/-- The value the fields stand for (IEEE 754-2008, 3.4). -/
def value (E F : Nat) (s : Bool) (e k : Nat) : LD :=
  if e = 0 then .fin s (subnormal E F k)
  else if e = 2 ^ E - 1 then (if k = 0 then .inf s else .nan)
  else .fin s (normal E F e k)

/-- Half of a number, rounded to the even neighbour. -/
def halfEven (k : Nat) : Nat := if k % 4 = 3 then k / 2 + 1 else k / 2

end Verif.Spec.Ieee
