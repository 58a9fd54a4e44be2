import Verif.Model.Chars
/-
Model of `parser::parse_forwarded_for` (/repo/src/http_parser.cpp:1669-1705).

The regular expressions are matched by hand. `[0-9]{1,3}\.` is greedy and `.` is not a digit, so that there is at
most one way to match it; the last `[0-9]{1,3}` takes as many digits as there are, up to three.
-/
namespace Verif.ForwardedFor

/-- Match of `[0-9]{1,3}` (greedy): the digits and the rest. -/
def octet : Nat → Bytes → Bytes × Bytes
  | 0, s => ([], s)
  | _ + 1, [] => ([], [])
  | k + 1, c :: r => if isDigit c then (c :: (octet k r).1, (octet k r).2) else ([], c :: r)

/-- Match of `[0-9]{1,3}\.`. -/
def octetDot (s : Bytes) : Option (Bytes × Bytes) :=
  match octet 3 s with
  | (d, c :: r) => if !d.isEmpty && c = c! "." then some (d, r) else none
  | _ => none

/-- Four octets. -/
structure Quad where
  a : Bytes
  b : Bytes
  c : Bytes
  d : Bytes
  deriving Repr, DecidableEq

/-- The matched text. -/
def Quad.text (q : Quad) : Bytes := q.a ++ b! "." ++ q.b ++ b! "." ++ q.c ++ b! "." ++ q.d

/-- `IPV4_ADDR_RX` at the start of `s` (line 1672). -/
def matchAt (s : Bytes) : Option (Quad × Bytes) := do
  let (a, s) ← octetDot s
  let (b, s) ← octetDot s
  let (c, s) ← octetDot s
  let (d, s) := octet 3 s
  if d.isEmpty then none else some (⟨a, b, c, d⟩, s)

/-- `boost::regex_search(start_it, header.end(), m, IPV4_ADDR_RX)`: the leftmost match and the text after it. -/
def search : Bytes → Option (Quad × Bytes)
  | [] => none
  | c :: r => match matchAt (c :: r) with
    | some m => some m
    | none => search r

/-- `1[6-9]|2[0-9]|3[0-1]` (line 1679). -/
def second172 : Bytes → Bool
  | [x, y] => (x = c! "1" && c! "6" ≤ y && y ≤ c! "9") || (x = c! "2" && isDigit y) ||
      (x = c! "3" && (y = c! "0" || y = c! "1"))
  | _ => false

/-- `boost::regex_match(ip_str, PRIVATE_NET_RX)` for a matched address (line 1679). -/
def isPrivate (q : Quad) : Bool :=
  q.a = b! "10" || q.a = b! "127" || (q.a = b! "192" && q.b = b! "168") || (q.a = b! "172" && second172 q.b)

/-- The loop (lines 1690-1701); the first argument is fuel. The inner `none` is `return false`. -/
def loop : Nat → Bytes → Option (Option Quad)
  | 0, _ => none
  | fuel + 1, s => match search s with
    | none => some none
    | some (q, rest) => if isPrivate q then loop fuel rest else some (some q)

/-- `parser::parse_forwarded_for` (/repo/src/http_parser.cpp:1669-1705): the address found, if any. The outer `none`
    (out of fuel) does not occur, see `Verif.Props.ForwardedFor.total`. -/
def parseForwardedFor (header : Bytes) : Option (Option Bytes) :=
  if header.isEmpty then some none else (loop (header.length + 1) header).map (·.map Quad.text)

end Verif.ForwardedFor
