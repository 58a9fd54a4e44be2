import Verif.Model.FloatBytes
/-
Model of the functions of `algorithm` through which programs read and write floating point numbers
(/repo/include/pion/algorithm.hpp:341-387). Each calls `float_from_bytes` or `float_to_bytes` (`Model/FloatBytes`); those
that return a `float` or a `double` convert the `long double` to it.
-/
namespace Verif.FloatApi
open Verif.FloatBytes

/-- The nearest integer, the even one of two. -/
def roundEven (q : ℚ) : Int :=
  if q - q.floor < 1 / 2 then q.floor
  else if 1 / 2 < q - q.floor then q.floor + 1
  else if q.floor % 2 = 0 then q.floor else q.floor + 1

/-- `return value;` (/repo/include/pion/algorithm.hpp:347, 356): the conversion of a `long double` to a type with `E` exponent
    bits and `F` fraction bits as IEEE 754 has it, to the nearest number: too large numbers become infinities, numbers below
    the smallest normal number are rounded to a multiple of the smallest subnormal number. Numbers in between keep all
    digits: `float_from_bytes` with the same `E` and `F` gives no others. -/
def narrow (E F : Nat) : LD → LD
  | .fin s q =>
    if pow2 (2 ^ (E - 1) : Nat) ≤ q then .inf s
    else if q < pow2 (2 - (2 ^ (E - 1) : Nat)) then
      .fin s (roundEven (q / pow2 (2 - (2 ^ (E - 1) : Nat) - F)) * pow2 (2 - (2 ^ (E - 1) : Nat) - F))
    else .fin s q
  | x => x

/-- `to_float` (/repo/include/pion/algorithm.hpp:341-348). -/
def toFloat (buf : Bytes) : Option LD := (decode 8 23 buf).map (narrow 8 23)
/-- `to_double` (/repo/include/pion/algorithm.hpp:350-357). -/
def toDouble (buf : Bytes) : Option LD := (decode 11 52 buf).map (narrow 11 52)
/-- `to_long_double` (/repo/include/pion/algorithm.hpp:359-366), for a `long double` in which the computation is exact. -/
def toLongDouble (buf : Bytes) : Option LD := decode 15 112 buf
/-- `from_float` (/repo/include/pion/algorithm.hpp:368-373); a `float` is converted to `long double` without loss. -/
def fromFloat (fuel : Nat) (x : LD) : Option Bytes := encode 8 23 fuel x
/-- `from_double` (/repo/include/pion/algorithm.hpp:375-380). -/
def fromDouble (fuel : Nat) (x : LD) : Option Bytes := encode 11 52 fuel x
/-- `from_long_double` (/repo/include/pion/algorithm.hpp:382-387). -/
def fromLongDouble (fuel : Nat) (x : LD) : Option Bytes := encode 15 112 fuel x

end Verif.FloatApi
