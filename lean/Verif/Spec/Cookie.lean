import Verif.Base
/-
The text of a Cookie header (RFC 2109 / RFC 6265 style lists). Independent of the parser.
-/
namespace Verif.Spec.Cookie

/-- How the value of a cookie is written. -/
inductive Written where
  /-- only the name, no '=' -/
  | bare
  /-- name=value -/
  | plain (v : Bytes)
  /-- name="value" or name='value' -/
  | quoted (q : UInt8) (v : Bytes)
  deriving Repr, DecidableEq

/-- One cookie of the list. -/
structure Item where
  /-- number of spaces in front of the name -/
  pad : Nat := 0
  name : Bytes
  value : Written
  /-- separator that follows, if another cookie follows -/
  sep : UInt8 := c! ";"
  deriving Repr, DecidableEq

/-- The value the text stands for. -/
def Written.meaning : Written → Bytes
  | .bare => []
  | .plain v => v
  | .quoted _ v => v

/-- The text after the name. -/
def Written.text : Written → Bytes
  | .bare => []
  | .plain v => c! "=" :: v
  | .quoted q v => c! "=" :: q :: (v ++ [q])

/-- The text of one cookie. -/
def Item.text (i : Item) : Bytes := List.replicate i.pad (c! " ") ++ i.name ++ i.value.text

/-- The text of the list. -/
def render : List Item → Bytes
  | [] => []
  | [i] => i.text
  | i :: r => i.text ++ i.sep :: render r

/-- Control characters. -/
def ctl (c : UInt8) : Bool := c < 32 || c == 127

/-- Legal names: at least one character; no separators, spaces or control characters. -/
structure NameOk (n : Bytes) : Prop where
  ne : n ≠ []
  max : n.length ≤ 1024
  char : ∀ c ∈ n, c ∉ b! "=;, " ∧ ctl c = false

/-- Legal values: an unquoted value does not begin with a space or a quote and contains no separator or control
    character; a quoted value does not contain its quote character. -/
def Written.Ok : Written → Prop
  | .bare => True
  | .plain v => v.length ≤ 1048576 ∧ (∀ c ∈ v, c ∉ b! ";," ∧ ctl c = false) ∧ (∀ c, v.head? = some c → c ∉ b! " '\"")
  | .quoted q v => v.length ≤ 1048576 ∧ q ∈ b! "'\"" ∧ q ∉ v

structure Item.Ok (i : Item) : Prop where
  nameOk : NameOk i.name
  valueOk : i.value.Ok
  sepOk : i.sep ∈ b! ";,"

/-- Attribute names of a Set-Cookie header, in any letter case. -/
def setCookieAttributes : List Bytes :=
  [b! "COMMENT", b! "DOMAIN", b! "MAX-AGE", b! "PATH", b! "SECURE", b! "VERSION", b! "EXPIRES", b! "HTTPONLY"]

/-- Upper-case spelling. -/
def upcase (s : Bytes) : Bytes := s.map fun c => if 0x61 ≤ c ∧ c ≤ 0x7a then c - 0x20 else c

/-- Names that do not denote a cookie. -/
def isAttr (setCookie : Bool) (n : Bytes) : Bool :=
  n.head? == some (c! "$") || (setCookie && setCookieAttributes.contains (upcase n))

end Verif.Spec.Cookie
