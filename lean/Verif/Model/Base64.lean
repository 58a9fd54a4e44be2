import Verif.Base
/-
Model of `algorithm::base64_decode` and `algorithm::base64_encode`
(/repo/src/algorithm.cpp:25-152).
-/
namespace Verif.Base64

/-- Result of `base64_decode` (/repo/src/algorithm.cpp:25-103).
    * `ok out`        returned true, `out` is the output string;
    * `fail`          returned false (the half-filled output string is not modelled);
    * `oob`           the lookup table was indexed with a negative number
                      (`static_cast<int>(char)` of a byte >= 0x80 where `char` is signed): undefined behaviour;
    * `assertFail out` a `BOOST_ASSERT` (lines 77, 90) was violated: abort in a debug build,
                      `true` with output `out` in a release build. -/
inductive DecRes where
  | ok (out : Bytes)
  | fail
  | oob
  | assertFail (out : Bytes)
  deriving DecidableEq, Repr

/-- The `nop` marker of /repo/src/algorithm.cpp:27 (`static const char nop = -1`). -/
def nop : Int := -1

/-- The table `decoding_data` of /repo/src/algorithm.cpp:28-45, row by row. -/
def decodingData : List Int := [
  nop,nop,nop,nop, nop,nop,nop,nop, nop,nop,nop,nop, nop,nop,nop,nop,
  nop,nop,nop,nop, nop,nop,nop,nop, nop,nop,nop,nop, nop,nop,nop,nop,
  nop,nop,nop,nop, nop,nop,nop,nop, nop,nop,nop, 62, nop,nop,nop, 63,
  52, 53, 54,  55,  56, 57, 58, 59,  60, 61,nop,nop, nop,nop,nop,nop,
  nop, 0,  1,   2,   3,  4,  5,  6,   7,  8,  9, 10,  11, 12, 13, 14,
  15, 16, 17,  18,  19, 20, 21, 22,  23, 24, 25,nop, nop,nop,nop,nop,
  nop,26, 27,  28,  29, 30, 31, 32,  33, 34, 35, 36,  37, 38, 39, 40,
  41, 42, 43,  44,  45, 46, 47, 48,  49, 50, 51,nop, nop,nop,nop,nop,
  nop,nop,nop,nop, nop,nop,nop,nop, nop,nop,nop,nop, nop,nop,nop,nop,
  nop,nop,nop,nop, nop,nop,nop,nop, nop,nop,nop,nop, nop,nop,nop,nop,
  nop,nop,nop,nop, nop,nop,nop,nop, nop,nop,nop,nop, nop,nop,nop,nop,
  nop,nop,nop,nop, nop,nop,nop,nop, nop,nop,nop,nop, nop,nop,nop,nop,
  nop,nop,nop,nop, nop,nop,nop,nop, nop,nop,nop,nop, nop,nop,nop,nop,
  nop,nop,nop,nop, nop,nop,nop,nop, nop,nop,nop,nop, nop,nop,nop,nop,
  nop,nop,nop,nop, nop,nop,nop,nop, nop,nop,nop,nop, nop,nop,nop,nop,
  nop,nop,nop,nop, nop,nop,nop,nop, nop,nop,nop,nop, nop,nop,nop,nop]

/-- Outcome of `decoding_data[static_cast<int>(c)]` followed by the comparison with `nop`. -/
inductive Look where
  | oob
  | nop
  | code (k : UInt8)
  deriving DecidableEq, Repr

/-- `static_cast<int>(c)` of a `char` (/repo/src/algorithm.cpp:63,68,80,93);
    `charSigned` tells whether the platform's `char` is signed (x86: true). -/
def charToInt (charSigned : Bool) (c : UInt8) : Int :=
  if charSigned && c.toNat ≥ 128 then (c.toNat : Int) - 256 else c.toNat

/-- The table access (/repo/src/algorithm.cpp:63,68,80,93). -/
def look (charSigned : Bool) (c : UInt8) : Look :=
  let i := charToInt charSigned c
  if i < 0 then .oob
  else match decodingData[i.toNat]? with
    | none => .oob
    | some v => if v = nop then .nop else .code (UInt8.ofNat v.toNat)

/-- The `for` loop of `base64_decode` (/repo/src/algorithm.cpp:57-100): first argument is the input
    from index `i` on, second the output produced so far. `input_length` is an `unsigned int` in the
    code; inputs of 4 GiB and more are not distinguished here. -/
def decodeLoop (charSigned : Bool) : Bytes → Bytes → DecRes
  | [], out => .ok out
  | c0 :: r0, out =>
    match look charSigned c0 with
    | .oob => .oob
    | .nop => .fail
    | .code k0 =>
      match r0 with
      | [] => .fail
      | c1 :: r1 =>
        match look charSigned c1 with
        | .oob => .oob
        | .nop => .fail
        | .code k1 =>
          let out1 := out ++ [(k0 <<< 2) ||| ((k1 >>> 4) &&& (0x3 : UInt8))]
          match r1 with
          | [] => .ok out1
          | c2 :: r2 =>
            if c2 = c! "=" then
              if k1 &&& (0x0f : UInt8) = 0 then .ok out1 else .assertFail out1
            else
              match look charSigned c2 with
              | .oob => .oob
              | .nop => .fail
              | .code k2 =>
                let out2 := out1 ++ [((k1 <<< 4) &&& (0xf0 : UInt8)) ||| ((k2 >>> 2) &&& (0x0f : UInt8))]
                match r2 with
                | [] => .ok out2
                | c3 :: r3 =>
                  if c3 = c! "=" then
                    if k2 &&& (0x03 : UInt8) = 0 then .ok out2 else .assertFail out2
                  else
                    match look charSigned c3 with
                    | .oob => .oob
                    | .nop => .fail
                    | .code k3 =>
                      decodeLoop charSigned r3 (out2 ++ [((k2 <<< 6) &&& (0xc0 : UInt8)) ||| k3])

/-- `algorithm::base64_decode` (/repo/src/algorithm.cpp:25-103). -/
def decode (charSigned : Bool) (input : Bytes) : DecRes := decodeLoop charSigned input []

/-- The table `encoding_data` (/repo/src/algorithm.cpp:107-108). -/
def encodingData : Bytes :=
  b! "ABCDEFGHIJKLMNOPQRSTUVWXYZabcdefghijklmnopqrstuvwxyz0123456789+/"

/-- `encoding_data[code]`; every code computed below is masked to 6 bits, see
    `Verif.Base64.enc_index_ok` for the proof that the default is never used. -/
def enc (code : UInt8) : UInt8 := (encodingData[code.toNat]?).getD 0

/-- `algorithm::base64_encode` (/repo/src/algorithm.cpp:105-152): the `for` loop with its nested
    conditionals, written by cases on how many bytes are left. `int` shifts followed by a 6-bit mask
    give the same result on bytes. -/
def encode : Bytes → Bytes
  | [] => []
  | [a] =>
      [enc ((a >>> 2) &&& (0x3f : UInt8)), enc ((a <<< 4) &&& (0x3f : UInt8)), c! "=", c! "="]
  | [a, b] =>
      [enc ((a >>> 2) &&& (0x3f : UInt8)), enc (((a <<< 4) &&& (0x3f : UInt8)) ||| ((b >>> 4) &&& (0x0f : UInt8))),
       enc ((b <<< 2) &&& (0x3f : UInt8)), c! "="]
  | a :: b :: c :: rest =>
      enc ((a >>> 2) &&& (0x3f : UInt8)) :: enc (((a <<< 4) &&& (0x3f : UInt8)) ||| ((b >>> 4) &&& (0x0f : UInt8))) ::
      enc (((b <<< 2) &&& (0x3f : UInt8)) ||| ((c >>> 6) &&& (0x03 : UInt8))) :: enc (c &&& (0x3f : UInt8)) :: encode rest

end Verif.Base64
