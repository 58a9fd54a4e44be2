import Verif.Base
/-
What URL-encoded text looks like (application/x-www-form-urlencoded conventions). Independent of the model.
-/
namespace Verif.Spec.Url

/-- Upper-case hexadecimal digits. -/
def upperHex : Bytes := b! "0123456789ABCDEF"

/-- Value of a hexadecimal digit of either case. -/
def hexValue (c : UInt8) : Option Nat :=
  match (b! "0123456789ABCDEF").idxOf? c with
  | some v => some v
  | none => (b! "0123456789abcdef").idxOf? c

/-- Delimiters and other characters with a meaning in URLs, headers, cookies or markup. -/
def delimiters : Bytes := b! "&=?#+/;:,$@ \"<>{}|\\^~[]`"

/-- Text in which every character is a non-delimiter printable ASCII character and '%' only occurs as the
    start of a triple %XX with upper-case hexadecimal digits. -/
def clean : Bytes → Bool
  | [] => true
  | c :: rest =>
    if c = c! "%" then
      match rest with
      | h1 :: h2 :: rest2 => upperHex.contains h1 && upperHex.contains h2 && clean rest2
      | _ => false
    else 33 ≤ c.toNat && c.toNat ≤ 126 && !delimiters.contains c && clean rest

end Verif.Spec.Url
