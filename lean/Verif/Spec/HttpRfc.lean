import Verif.Spec.HttpFraming
/-
RFC 7230, section 3.3.3: how the end of a message is found.
-/
namespace Verif.Http.Rfc

inductive Framing where
  /-- no body -/
  | none
  /-- a body of this length -/
  | length (n : Nat)
  | chunked
  /-- everything up to the end of the connection -/
  | untilClose
  /-- the message must be rejected -/
  | error
deriving DecidableEq

/-- The last transfer coding in the value of a Transfer-Encoding header, in upper case. -/
def lastCoding (v : Bytes) : Bytes := (trim ((v.reverse.takeWhile (· ≠ c! ",")).reverse)).map toUpper

/-- The value of a Content-Length header: digits, white space around them. -/
def lengthValue (v : Bytes) : Option Nat :=
  if trim v ≠ [] ∧ (trim v).all isDigit then some (decVal (trim v)) else none

/-- "Any response to a HEAD request and any response with a 1xx (Informational), 204 (No Content), or 304 (Not Modified)
    status code", "any 2xx (Successful) response to a CONNECT request". -/
def noBody (rm : Bytes) : Head → Bool
  | .request .. => false
  | .response _ _ code _ => rm == b! "HEAD" || (100 ≤ code && code ≤ 199) || code == 204 || code == 304 ||
      (rm == b! "CONNECT" && 200 ≤ code && code ≤ 299)

/-- The framing of a message with the first line `h` and the headers `hs`; `rm` is the method of the request that a
    response answers. -/
def framing (rm : Bytes) (h : Head) (hs : Dict) : Framing :=
  if noBody rm h then .none
  else match (hs.values (b! "Transfer-Encoding")).getLast? with
    | some v => if lastCoding v = b! "CHUNKED" then .chunked else if h.isRequest then .error else .untilClose
    | none =>
      match hs.values (b! "Content-Length") with
      | [] => if h.isRequest then .none else .untilClose
      | v :: vs =>
        if vs.all fun x => x == v then (match lengthValue v with | some n => .length n | none => .error)
        else .error

/-- The body `b` before `rest`, with this content and these trailers, has the framing. The framings without an end inside the
    stream, and errors, have none. -/
def Fits (r : Text.Reading) (h : Head) (data : Bytes) (tr : Dict) (b rest : Bytes) : Framing → Prop
  | .none => data = [] ∧ tr = [] ∧ b = []
  | .length n => b.length = n ∧ data = b ∧ tr = []
  | .chunked => ∃ ds, Text.Chunked r.handler (Text.old h) ds tr b rest ∧ data = ds.flatten ∧
      (r.handler = false → ds.flatten.length ≤ r.max)
  | .untilClose | .error => False

/-- Heads about whose framing there is no doubt: at most one Transfer-Encoding header, whose last coding is `chunked`; at most
    one Content-Length header, which is a number below 2^64; no status 205; no response to CONNECT; no
    Transfer-Encoding in a response without body. -/
structure Plain (rm : Bytes) (h : Head) (hs : Dict) : Prop where
  te : (hs.values (b! "Transfer-Encoding")).length ≤ 1
  chunked : ∀ v ∈ hs.values (b! "Transfer-Encoding"), lastCoding v = b! "CHUNKED"
  cl : (hs.values (b! "Content-Length")).length ≤ 1
  number : ∀ v ∈ hs.values (b! "Content-Length"), ∃ n, lengthValue v = some n ∧ n < 2 ^ 64
  not205 : ∀ major minor text, h ≠ .response major minor 205 text
  notConnect : rm ≠ b! "CONNECT"
  noTe : noBody rm h = true → hs.values (b! "Transfer-Encoding") = []

end Verif.Http.Rfc
