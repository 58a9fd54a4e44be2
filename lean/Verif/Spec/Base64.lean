import Verif.Base
/-
Independent specification of base64 (RFC 4648) on bit strings. Nothing here refers to the model.
-/
namespace Verif.Spec.Base64

/-- RFC 4648 table 1: the character of a 6-bit value. -/
def alphabet : Bytes := b! "ABCDEFGHIJKLMNOPQRSTUVWXYZabcdefghijklmnopqrstuvwxyz0123456789+/"

/-- The eight bits of a byte, most significant first. -/
def bitsOf (c : UInt8) : List Bool :=
  [c.toNat.testBit 7, c.toNat.testBit 6, c.toNat.testBit 5, c.toNat.testBit 4,
   c.toNat.testBit 3, c.toNat.testBit 2, c.toNat.testBit 1, c.toNat.testBit 0]

/-- The number written by a list of bits, most significant first. -/
def numOf (bits : List Bool) : Nat := bits.foldl (fun n b => 2 * n + b.toNat) 0

/-- Cut a bit string into groups of six, filling the last one with zero bits. -/
def sextets : List Bool → List Nat
  | [] => []
  | b0 :: b1 :: b2 :: b3 :: b4 :: b5 :: rest => numOf [b0, b1, b2, b3, b4, b5] :: sextets rest
  | short => [numOf ((short ++ List.replicate 6 false).take 6)]

/-- Cut a bit string into bytes, dropping an incomplete last one. -/
def octets : List Bool → Bytes
  | b0 :: b1 :: b2 :: b3 :: b4 :: b5 :: b6 :: b7 :: rest =>
      UInt8.ofNat (numOf [b0, b1, b2, b3, b4, b5, b6, b7]) :: octets rest
  | _ => []

/-- The bits after the last whole byte. -/
def leftover : List Bool → List Bool
  | _ :: _ :: _ :: _ :: _ :: _ :: _ :: _ :: rest => leftover rest
  | short => short

/-- Number of padding characters for an input of `n` bytes. -/
def padCount (n : Nat) : Nat := (3 - n % 3) % 3

/-- RFC 4648 encoding. -/
def encode (x : Bytes) : Bytes :=
  (sextets (x.flatMap bitsOf)).map (fun v => alphabet.getD v 0) ++
    List.replicate (padCount x.length) (c! "=")

/-- The 6-bit value of an alphabet character. -/
def value? (c : UInt8) : Option Nat := alphabet.idxOf? c

/-- The six bits of a value, most significant first. -/
def bits6 (v : Nat) : List Bool :=
  [v.testBit 5, v.testBit 4, v.testBit 3, v.testBit 2, v.testBit 1, v.testBit 0]

/-- The text before the first padding character. -/
def body (x : Bytes) : Bytes := x.takeWhile (· != c! "=")

/-- The bits that the text before the padding stands for. -/
def bitsBefore (x : Bytes) : List Bool := (body x).flatMap fun c => bits6 ((value? c).getD 0)

/-- Lenient RFC 4648 decoding as far as the data part is concerned: all characters before the first
    '=' must be in the alphabet, a lone character in the last group is an error, padding may only
    replace the third or fourth character of a group; left-over bits and everything after the first
    '=' are ignored. -/
def decode (x : Bytes) : Option Bytes :=
  let d := body x
  if (d.all fun c => (value? c).isSome) = false then none
  else if d.length % 4 = 1 then none
  else if d.length % 4 = 0 ∧ d ≠ x then none
  else some (octets (d.flatMap fun c => bits6 ((value? c).getD 0)))

end Verif.Spec.Base64
