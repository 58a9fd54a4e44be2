import Verif.Model.Digits
/-
Model of `parser::parse_uri` (/repo/src/http_parser.cpp:839-905).
-/
namespace Verif.Uri

/-- `boost::lexical_cast<int>(s)` for a 32-bit `int`: an optional sign, then only digits, within range; `none` is
    `bad_lexical_cast`. Library code. -/
def lexicalCastInt (s : Bytes) : Option Int :=
  match s with
  | [] => none
  | c :: r =>
    if c = c! "-" then (digits r).bind fun n => if n ≤ 2 ^ 31 then some (-(n : Int)) else none
    else if c = c! "+" then (digits r).bind fun n => if n < 2 ^ 31 then some (n : Int) else none
    else (digits s).bind fun n => if n < 2 ^ 31 then some (n : Int) else none
where
  /-- A non-empty string of digits. -/
  digits (d : Bytes) : Option Nat := if d.isEmpty || !d.all isDigit then none else some (decVal d)

/-- Assignment of an `int` to a `boost::uint16_t`: modulo 2^16. -/
def toU16 (i : Int) : Nat := (i % 65536).toNat

/-- The output parameters. -/
structure Out where
  proto : Bytes := []
  host : Bytes := []
  port : Nat := 0
  path : Bytes := []
  query : Bytes := []
  deriving Repr, DecidableEq

/-- `uri.find(c, from)`. -/
def findFrom (c : UInt8) (uri : Bytes) (i : Nat) : Option Nat := ((uri.drop i).idxOf? c).map (i + ·)

/-- The scheme and the index after `://` (lines 843-850). -/
def scheme (uri : Bytes) : Bytes × Nat :=
  match findSub (b! "://") uri with
  | some p => (uri.take p, p + 3)
  | none => ([], 0)

/-- The path so far and the end of host and port (lines 852-859). -/
def serverEnd (old : Out) (uri : Bytes) (start : Nat) : Bytes × Nat :=
  match findFrom (c! "/") uri start with
  | some e => (old.path, e)
  | none => (b! "/", uri.length)

/-- Host and text of the port (lines 861-875). -/
def hostPort (t : Bytes) : Bytes × Option Bytes :=
  match t.idxOf? (c! ":") with
  | some p => (t.take p, some (t.drop (p + 1)))
  | none => (t, none)

/-- The port (lines 873-887); `none` is `bad_lexical_cast`. -/
def portOf (proto : Bytes) : Option Bytes → Option Nat
  | some w => (lexicalCastInt w).map toU16
  | none =>
    if proto = b! "http" ∨ proto = b! "HTTP" then some 80
    else if proto = b! "https" ∨ proto = b! "HTTPS" then some 443
    else some 0

/-- `parser::parse_uri` (/repo/src/http_parser.cpp:839-905): result flag and output parameters; `old` holds their
    values before the call (some are left unchanged). -/
def parseUri (old : Out) (uri : Bytes) : Bool × Out :=
  let proto := (scheme uri).1
  let start := (scheme uri).2
  let path := (serverEnd old uri start).1
  let e := (serverEnd old uri start).2
  let t := (uri.drop start).take (e - start)
  let host := (hostPort t).1
  let o : Out := { old with proto := proto, host := host, path := path }
  if host.isEmpty then (false, o)
  else
    match portOf proto (hostPort t).2 with
    | none => (false, o)
    | some port =>
      let o := { o with port := port }
      -- lines 889-902
      if e < uri.length then
        let path := uri.drop e
        match path.idxOf? (c! "?") with
        | some q => (true, { o with path := path.take q, query := path.drop (q + 1) })
        | none => (true, { o with path := path, query := [] })
      else (true, o)

end Verif.Uri
