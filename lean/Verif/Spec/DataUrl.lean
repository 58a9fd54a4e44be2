import Verif.Spec.Base64
/-
Binary data in a text: `data:`, its type, `; base64, ` and the data in base64.
-/
namespace Verif.Spec.DataUrl
open Verif.Spec.Base64

/-- The text of some data. -/
def text (data type : Bytes) : Bytes := b! "data:" ++ type ++ b! "; base64, " ++ encode data

/-- A type that does not run into what follows it. -/
def TypeOk (type : Bytes) : Prop := ∀ a b, type ++ b! "; base64, " = a ++ b! "; base64, " ++ b → b = []

/-- `p` are the one or two '=' at the end of a text after `d`, if there are any. -/
inductive Padding (d : Bytes) : Bytes → Prop
  | none : d.getLast? ≠ some (c! "=") → Padding d []
  | one : d.getLast? ≠ some (c! "=") → Padding d (b! "=")
  | two : Padding d (b! "==")

/-- A character of the alphabet; if `pad`, an '=' inside the text stands for zero bits. -/
def Readable (pad : Bool) (c : UInt8) : Prop := (value? c).isSome ∨ (pad = true ∧ c = c! "=")

/-- The bytes that some characters stand for; bits after the last whole byte are left out. -/
def bytes (d : Bytes) : Bytes := octets (d.flatMap fun c => bits6 ((value? c).getD 0))

/-- Every character can be read, and there is no lone character after the last group of four. -/
def Decodable (pad : Bool) (d : Bytes) : Prop := (∀ c ∈ d, Readable pad c) ∧ d.length % 4 ≠ 1

end Verif.Spec.DataUrl
