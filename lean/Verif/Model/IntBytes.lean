import Verif.Base
/-
Model of the integer <-> byte conversions of `pion::algorithm` (/repo/include/pion/algorithm.hpp:60-339).

`uintN_t`/`intN_t` values are `BitVec N` (signed ones read with `BitVec.toInt`). C++ promotes 8 and 16 bit
operands to the 32 bit type `int`; the promotions and the final conversions are modelled. Signed left shifts
that reach the sign bit (formally undefined before C++20) are modelled as two's complement shifts and
signed right shifts as arithmetic shifts, as on every compiler pion supports.
-/
namespace Verif.IntBytes

/-- An `unsigned char` as bits. -/
abbrev B := BitVec 8

/-- `to_uint8` (algorithm.hpp:61-63, 71-73, 196-199). -/
def toUint8 (b : B) : BitVec 8 := b
/-- `to_int8` (algorithm.hpp:66-68, 76-78, 202-205). -/
def toInt8 (b : B) : BitVec 8 := b
/-- `to_uint16` (algorithm.hpp:81-83): computed in `int`, converted to 16 bits. -/
def toUint16 (high low : B) : BitVec 16 :=
  (((high.setWidth 16).setWidth 32 <<< 8) ||| ((low.setWidth 16).setWidth 32)).setWidth 16
/-- `to_int16` (algorithm.hpp:86-88): as above, the casts to `int16_t` sign-extend. -/
def toInt16 (high low : B) : BitVec 16 :=
  (((high.setWidth 16).signExtend 32 <<< 8) ||| ((low.setWidth 16).signExtend 32)).setWidth 16
/-- `to_uint24` (algorithm.hpp:91-93). -/
def toUint24 (high mid low : B) : BitVec 32 :=
  (high.setWidth 32 <<< 16) ||| (mid.setWidth 32 <<< 8) ||| low.setWidth 32
/-- `to_int24` (algorithm.hpp:96-98). -/
def toInt24 (high mid low : B) : BitVec 32 :=
  (high.setWidth 32 <<< 16) ||| (mid.setWidth 32 <<< 8) ||| low.setWidth 32
/-- `to_uint32` (algorithm.hpp:101-103). -/
def toUint32 (high mid1 mid2 low : B) : BitVec 32 :=
  (high.setWidth 32 <<< 24) ||| (mid1.setWidth 32 <<< 16) ||| (mid2.setWidth 32 <<< 8) ||| low.setWidth 32
/-- `to_int32` (algorithm.hpp:106-108). -/
def toInt32 (high mid1 mid2 low : B) : BitVec 32 :=
  (high.setWidth 32 <<< 24) ||| (mid1.setWidth 32 <<< 16) ||| (mid2.setWidth 32 <<< 8) ||| low.setWidth 32
/-- `to_uint64` (algorithm.hpp:111-114). -/
def toUint64 (high m1 m2 m3 m4 m5 m6 low : B) : BitVec 64 :=
  (high.setWidth 64 <<< 56) ||| (m1.setWidth 64 <<< 48) ||| (m2.setWidth 64 <<< 40) ||| (m3.setWidth 64 <<< 32)
    ||| (m4.setWidth 64 <<< 24) ||| (m5.setWidth 64 <<< 16) ||| (m6.setWidth 64 <<< 8) ||| low.setWidth 64
/-- `to_int64` (algorithm.hpp:117-120). -/
def toInt64 (high m1 m2 m3 m4 m5 m6 low : B) : BitVec 64 :=
  (high.setWidth 64 <<< 56) ||| (m1.setWidth 64 <<< 48) ||| (m2.setWidth 64 <<< 40) ||| (m3.setWidth 64 <<< 32)
    ||| (m4.setWidth 64 <<< 24) ||| (m5.setWidth 64 <<< 16) ||| (m6.setWidth 64 <<< 8) ||| low.setWidth 64

/-- Storing `x & 0xFF` into a byte, `x` of an unsigned (or zero extended) type. -/
def store {w : Nat} (x : BitVec w) : B := (x &&& BitVec.ofNat w 0xFF).setWidth 8

/-- `from_uint8` (algorithm.hpp:257-259). -/
def fromUint8 (n : BitVec 8) : List B := [store (n.setWidth 32)]
/-- `from_int8` (algorithm.hpp:263-265). -/
def fromInt8 (n : BitVec 8) : List B := [store (n.signExtend 32)]
/-- `from_uint16` (algorithm.hpp:269-272). -/
def fromUint16 (n : BitVec 16) : List B := [store (n.setWidth 32 >>> 8), store (n.setWidth 32)]
/-- `from_int16` (algorithm.hpp:276-279). -/
def fromInt16 (n : BitVec 16) : List B := [store ((n.signExtend 32).sshiftRight 8), store (n.signExtend 32)]
/-- `from_uint24` (algorithm.hpp:283-287). -/
def fromUint24 (n : BitVec 32) : List B := [store (n >>> 16), store (n >>> 8), store n]
/-- `from_int24` (algorithm.hpp:291-295). -/
def fromInt24 (n : BitVec 32) : List B := [store (n.sshiftRight 16), store (n.sshiftRight 8), store n]
/-- `from_uint32` (algorithm.hpp:299-304). -/
def fromUint32 (n : BitVec 32) : List B := [store (n >>> 24), store (n >>> 16), store (n >>> 8), store n]
/-- `from_int32` (algorithm.hpp:308-313). -/
def fromInt32 (n : BitVec 32) : List B :=
  [store (n.sshiftRight 24), store (n.sshiftRight 16), store (n.sshiftRight 8), store n]
/-- `from_uint64` (algorithm.hpp:317-326). -/
def fromUint64 (n : BitVec 64) : List B :=
  [store (n >>> 56), store (n >>> 48), store (n >>> 40), store (n >>> 32),
   store (n >>> 24), store (n >>> 16), store (n >>> 8), store n]
/-- `from_int64` (algorithm.hpp:330-339). -/
def fromInt64 (n : BitVec 64) : List B :=
  [store (n.sshiftRight 56), store (n.sshiftRight 48), store (n.sshiftRight 40), store (n.sshiftRight 32),
   store (n.sshiftRight 24), store (n.sshiftRight 16), store (n.sshiftRight 8), store n]

end Verif.IntBytes
