import Verif.Model.Strtol
/-
Model of `algorithm::url_decode` and `algorithm::url_encode` (/repo/src/algorithm.cpp:154-229).
-/
namespace Verif.UrlCodec

/-- `static_cast<char>(long)` (/repo/src/algorithm.cpp:173): the low eight bits. -/
def charOfLong (v : Int) : UInt8 := UInt8.ofNat (v % 256).toNat

/-- `algorithm::url_decode` (/repo/src/algorithm.cpp:154-195). The argument is `str` from `pos` on.
    The test `pos + 2 < str.size()` (line 168) is the presence of two further bytes; when the decoded
    character is NUL the position is moved back (line 180), i.e. decoding goes on right after '%'. -/
def urlDecode : Bytes → Bytes
  | [] => []
  | c :: rest =>
    if c = c! "+" then c! " " :: urlDecode rest
    else if c = c! "%" then
      match rest with
      | h1 :: h2 :: rest2 =>
        let d := charOfLong (strtol16 [h1, h2])
        if d = 0 then c! "%" :: urlDecode (h1 :: h2 :: rest2)
        else d :: urlDecode rest2
      | [h1] => c! "%" :: urlDecode [h1]
      | [] => [c! "%"]
    else c :: urlDecode rest

/-- The characters listed as cases in /repo/src/algorithm.cpp:216-220. -/
def special : Bytes := b! " $&+,/:;=?@\"<>#%{}|\\^~[]`"

/-- Upper-case hexadecimal digit of a nibble (`sprintf "%.2X"`, /repo/src/algorithm.cpp:222). -/
def hexUp (n : UInt8) : UInt8 := if n < 10 then n + 0x30 else n - 10 + 0x41

/-- One iteration of the loop of `url_encode` (/repo/src/algorithm.cpp:208-225). `str[pos] > 32` is a
    signed comparison: bytes >= 0x80 are negative and get encoded. -/
def encByte (c : UInt8) : Bytes :=
  if c ∈ special then [c! "%", hexUp (c >>> 4), hexUp (c &&& (0x0f : UInt8))]
  else if 32 < c.toNat ∧ c.toNat < 127 then [c]
  else [c! "%", hexUp (c >>> 4), hexUp (c &&& (0x0f : UInt8))]

/-- `algorithm::url_encode` (/repo/src/algorithm.cpp:197-229). -/
def urlEncode (s : Bytes) : Bytes := s.flatMap encByte

end Verif.UrlCodec
