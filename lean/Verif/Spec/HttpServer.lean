import Verif.Spec.HttpFraming
import Verif.Model.Server
import Verif.Model.Reader
/-
The requests in a stream of bytes, by the grammar of messages alone.
-/
namespace Verif.Spec.HttpServer
open Verif.Http Verif.Http.Text Verif.Server Verif.Reader

/-- A request as it stands in the stream: its first line, the headers before and after the body, the data of the body, and
    the bytes of all that. -/
structure Part where
  head : Head
  headers : Dict
  data : Bytes
  trailers : Dict
  text : Bytes

/-- Version 1.1 or later, and no `Connection: close`. -/
def Part.Persistent (ord : Dict.Order) (p : Part) : Prop :=
  (match p.head with
   | .request _ _ _ major minor => 1 < major ∨ (major = 1 ∧ 1 ≤ minor)
   | .response major minor _ _ => 1 < major ∨ (major = 1 ∧ 1 ≤ minor)) ∧
  (p.headers ++ p.trailers).get ord (b! "Connection") ≠ b! "close"

/-- The part is a request of the grammar, before `rest`. -/
def Part.Before (r : Reading) (p : Part) (rest : Bytes) : Prop :=
  p.head.isRequest = true ∧ Message r p.head p.headers p.data p.trailers p.text rest

/-- Why no further request is handled: the number of requests is limited, no complete request follows, or the connection
    is not used any more. -/
inductive End where
  | limit | over | closed
  deriving DecidableEq

/-- The requests that a server has to handle, at most `n`, on a connection with this stream of bytes: from the beginning of
    the stream one directly after another, until the stream does not go on with a complete request, or a request closes the
    connection, or the server has stopped listening when the request with that number (from `i`) is done. -/
inductive Serves (r : Reading) (listening : Nat → Bool) : Nat → Nat → Bytes → List Part → End → Prop
  | limit {i : Nat} {stream : Bytes} : Serves r listening 0 i stream [] .limit
  | over {n i : Nat} {stream : Bytes} : (∀ (p : Part) rest, p.Before r rest → stream ≠ p.text ++ rest) →
      Serves r listening (n + 1) i stream [] .over
  | last {n i : Nat} {p : Part} {rest : Bytes} : p.Before r rest → (¬ p.Persistent r.ord ∨ listening i = false) →
      Serves r listening (n + 1) i (p.text ++ rest) [p] .closed
  | next {n i : Nat} {p : Part} {ps : List Part} {rest : Bytes} {e : End} : p.Before r rest → p.Persistent r.ord →
      listening i = true → Serves r listening n (i + 1) rest ps e → Serves r listening (n + 1) i (p.text ++ rest) (p :: ps) e

/-- The bytes that arrive before the connection fails or ends. -/
def delivered : List Read → Bytes
  | .data (b :: bs) :: more => b :: bs ++ delivered more
  | _ => []

/-- The Content-Type of the request. -/
def Part.type (ord : Dict.Order) (p : Part) : Bytes := Dict.get ord (p.headers ++ p.trailers) (b! "Content-Type")

/-- The message is this request: of its data at most `max` bytes are kept. -/
structure Part.Is (ord : Dict.Order) (max : Nat) (p : Part) (m : Msg) : Prop where
  line : p.head.StoredIn m
  headers : m.headers = p.headers ++ p.trailers
  content : m.content = (p.data.take max).map some
  cookies : m.cookies = addCookies false [] (ord (p.headers.values (b! "Cookie")))
  params : ¬ b! "application/x-www-form-urlencoded" <+: p.type ord → ¬ b! "multipart/form-data" <+: p.type ord →
    m.queries = lineQueries [] p.head
  form : b! "application/x-www-form-urlencoded" <+: p.type ord →
    m.queries = (Query.parseUrlEncoded (lineQueries [] p.head) (p.data.take max)).2
  valid : m.isValid = true

end Verif.Spec.HttpServer
