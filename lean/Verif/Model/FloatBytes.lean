import Verif.Base
import Mathlib.Algebra.Order.Field.Rat
/-
Model of the floating point codecs `algorithm::float_from_bytes` and `algorithm::float_to_bytes`
(/repo/src/algorithm.cpp:312-413). `long double` arithmetic is modelled as exact: halving, doubling and subtracting 1
from a number in [1,2) are exact in binary floating point as long as nothing underflows, which does not happen for
the values of `float` and `double`.
-/
namespace Verif.FloatBytes

/-- A `long double`: a sign and a magnitude (so there are two zeros), an infinity, or not a number. -/
inductive LD where
  | fin (neg : Bool) (mag : ℚ)
  | inf (neg : Bool)
  | nan
  deriving DecidableEq

namespace LD
/-- `value < 0`. -/
def lt0 : LD → Bool
  | fin n q => n && q != 0
  | inf n => n
  | nan => false
/-- `value >= 1`. -/
def ge1 : LD → Bool
  | fin n q => !n && decide (1 ≤ q)
  | inf n => !n
  | nan => false
/-- `value` as a condition. -/
def nonzero : LD → Bool
  | fin _ q => q != 0
  | inf _ => true
  | nan => true
/-- `value * -1`. -/
def negate : LD → LD
  | fin n q => fin (!n) q
  | inf n => inf (!n)
  | nan => nan
/-- `value / 2`. -/
def half : LD → LD
  | fin n q => fin n (q / 2)
  | x => x
/-- `value * 2`. -/
def double : LD → LD
  | fin n q => fin n (q * 2)
  | x => x
/-- `value - 1`, used only if `value >= 1`. -/
def pred : LD → LD
  | fin n q => if n then fin n (q + 1) else fin n (q - 1)
  | x => x
end LD

/-- A bit position: `ptr` (as an index) and `mask`. -/
structure Cur where
  ptr : Nat
  mask : UInt8
  deriving Repr, DecidableEq

/-- `SHIFT_BITMASK` (/repo/src/algorithm.cpp:18). -/
def shift (c : Cur) : Cur := if c.mask &&& 0x01 ≠ 0 then ⟨c.ptr + 1, 0x80⟩ else ⟨c.ptr, c.mask >>> 1⟩

/-- `*ptr & mask`; `none` is a read outside the buffer. -/
def test (buf : Bytes) (c : Cur) : Option Bool := (buf[c.ptr]?).map fun b => b &&& c.mask != 0

/-- `*ptr |= mask`; `none` is a write outside the buffer. -/
def setBit (buf : Bytes) (c : Cur) : Option Bytes :=
  (buf[c.ptr]?).map fun b => buf.set c.ptr (b ||| c.mask)

/-- `pow(2, e)`. -/
def pow2 (e : Int) : ℚ := if 0 ≤ e then ((2 ^ e.toNat : Nat) : ℚ) else 1 / ((2 ^ (-e).toNat : Nat) : ℚ)

/-! ### Decoding -/

/-- The exponent loop (/repo/src/algorithm.cpp:320-325); `int16_t` does not overflow for at most 15 bits. -/
def readExp (buf : Bytes) : Nat → Cur → Nat → Option (Nat × Cur)
  | 0, c, e => some (e, c)
  | n + 1, c, e =>
    match test buf (shift c) with
    | none => none
    | some b => readExp buf n (shift c) (e * 2 + if b then 1 else 0)

/-- The significand loop (/repo/src/algorithm.cpp:330-336). -/
def readFrac (buf : Bytes) : Nat → Cur → ℚ → ℚ → Option ℚ
  | 0, _, sig, _ => some sig
  | n + 1, c, sig, v =>
    match test buf (shift c) with
    | none => none
    | some b => readFrac buf n (shift c) (if b then sig + v / 2 else sig) (v / 2)

/-- `float_from_bytes` (/repo/src/algorithm.cpp:312-341). The result is never an infinity or NaN. -/
def decode (E F : Nat) (buf : Bytes) : Option LD :=
  match test buf ⟨0, 0x80⟩ with
  | none => none
  | some neg =>
    match readExp buf E ⟨0, 0x80⟩ 0 with
    | none => none
    | some (e, c) =>
      (readFrac buf F c (if e ≠ 0 then 1 else 0) 1).map fun sig =>
        .fin neg (sig * pow2 ((e : Int) - ((2 ^ (E - 1) : Nat) - 1 : Int)))

/-! ### Encoding. The loops whose end depends on the value take fuel; `none` is: not finished, or a bad write. -/

/-- `while (value >= 1) { value /= 2; ++exponent; }` (/repo/src/algorithm.cpp:356-359). -/
def scaleDown : Nat → LD → Int → Option (LD × Int)
  | 0, _, _ => none
  | fuel + 1, v, e => if v.ge1 then scaleDown fuel v.half (e + 1) else some (v, e)

/-- `for (n = num_exp_bits; n > 0; --n)`: eight bits at a time (`++ptr; n -= 7`) or one
    (/repo/src/algorithm.cpp:362-370). The first argument is fuel; `num_exp_bits` rounds are enough. -/
def skipExp : Nat → Nat → Cur → Cur
  | 0, _, c => c
  | _ + 1, 0, c => c
  | fuel + 1, n + 1, c =>
    if n + 1 ≥ 8 then skipExp fuel (n - 7) ⟨c.ptr + 1, c.mask⟩ else skipExp fuel n (shift c)

/-- The variables of the fraction loop. -/
structure St where
  value : LD
  exponent : Int
  got : Bool
  bits : Nat
  cur : Cur
  buf : Bytes
  deriving DecidableEq

/-- The body of the fraction loop after `value *= 2`, with the exponent known (/repo/src/algorithm.cpp:377-383). -/
def fracBit (s : St) : Option St :=
  if s.value.ge1 then
    (setBit s.buf s.cur).map fun buf => { s with
      value := s.value.pred, buf := buf, cur := shift s.cur, bits := s.bits + 1 }
  else some { s with cur := shift s.cur, bits := s.bits + 1 }

/-- ... with the exponent not known yet (/repo/src/algorithm.cpp:384-390). -/
def fracExp (s : St) : St :=
  if s.value.ge1 then { s with value := s.value.pred, exponent := s.exponent - 1, got := true }
  else { s with exponent := s.exponent - 1 }

/-- The fraction loop (/repo/src/algorithm.cpp:373-392). -/
def fracLoop (F : Nat) : Nat → St → Option St
  | 0, _ => none
  | fuel + 1, s =>
    if s.value.nonzero && decide (s.bits < F) then
      if s.got then
        match fracBit { s with value := s.value.double } with
        | none => none
        | some s => fracLoop F fuel s
      else fracLoop F fuel (fracExp { s with value := s.value.double })
    else some s

/-- The exponent is written from its highest bit (/repo/src/algorithm.cpp:403-412). -/
def writeExp : Nat → Cur → Int → Int → Bytes → Option Bytes
  | 0, _, _, _, buf => some buf
  | n + 1, c, e, high, buf =>
    if e ≥ high then
      match setBit buf (shift c) with
      | none => none
      | some buf => writeExp n (shift c) (e - high) (high.tdiv 2) buf
    else writeExp n (shift c) e (high.tdiv 2) buf

/-- `float_to_bytes` (/repo/src/algorithm.cpp:343-413), into a buffer of exactly `ceil((E+F+1)/8)` bytes, the number
    that is set to zero first. -/
def encode (E F fuel : Nat) (value : LD) : Option Bytes :=
  let buf : Bytes := List.replicate ((E + F + 1 + 7) / 8) 0
  let buf := if value.lt0 then buf.set 0 0x80 else buf
  let value := if value.lt0 then value.negate else value
  match scaleDown fuel value 0 with
  | none => none
  | some (value, e) =>
    match fracLoop F fuel ⟨value, e, false, 0, skipExp E E ⟨0, 0x40⟩, buf⟩ with
    | none => none
    | some s =>
      writeExp E ⟨0, 0x80⟩ (if s.got then s.exponent + ((2 ^ (E - 1) : Nat) - 1) else 0) (2 ^ (E - 1) : Nat) s.buf

end Verif.FloatBytes
