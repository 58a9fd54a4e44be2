import Verif.Spec.Base64
/-
What an arbitrary body, well-formed or not, may put into the parameters of a request. Independent of the parser.
-/
namespace Verif.Spec.FormBody

/-- A stretch of the body, by the positions of its first byte and of the byte behind it, and the entry made of it. -/
structure Piece where
  first : Nat
  behind : Nat
  entry : Bytes × Bytes
  deriving Repr, DecidableEq

/-- The bytes of the stretch. -/
def Piece.data (body : Bytes) (p : Piece) : Bytes := (body.drop p.first).take (p.behind - p.first)

/-- Text that fits into one line. -/
def OneLine (t : Bytes) : Prop := ∀ c ∈ t, c ≠ 0x0d ∧ c ≠ 0x0a

/-- The entry is honest: the value is the stretch, as it is or in base64, the stretch lies in the body and does not reach
    over a delimiter, and behind it the body ends or a delimiter follows, with or without a line end before it. -/
structure Piece.Honest (delim body : Bytes) (p : Piece) : Prop where
  inside : p.first ≤ p.behind ∧ p.behind ≤ body.length
  value : p.entry.2 = p.data body ∨
    ∃ type, OneLine type ∧ p.entry.2 = b! "data:" ++ type ++ b! "; base64, " ++ Spec.Base64.encode (p.data body)
  apart : ¬ delim <:+: p.data body
  stops : ∃ rest, (rest = [] ∨ delim <+: rest) ∧ (body.drop p.behind = rest ∨ body.drop p.behind = [0x0d, 0x0a] ++ rest)
  name : OneLine p.entry.1 ∧ c! "\"" ∉ p.entry.1

/-- The first stretch lies before the second, and a delimiter stands between them. -/
def Piece.Before (delim body : Bytes) (a b : Piece) : Prop :=
  a.behind ≤ b.first ∧ delim <:+: (body.drop a.behind).take (b.first - a.behind)

end Verif.Spec.FormBody
