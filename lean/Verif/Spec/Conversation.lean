import Verif.Spec.HttpWire
import Verif.Spec.Responses
import Verif.Spec.Writer
import Verif.Model.Conversation
/-
Requests as a client sends them, and what the two sides of a connection must have in the end.
-/
namespace Verif.Spec.Conversation
open Verif.Http Verif.Reader

/-- How the end of a request is known: no body, a body of announced length, a body in chunks. -/
inductive Framing where
  | bare
  | length (body : Bytes)
  | chunked (pieces : List Bytes)

def Framing.bytes : Framing → Bytes
  | .bare => []
  | .length body => body
  | .chunked pieces => chunkedWire pieces

/-- The body. -/
def Framing.data : Framing → Bytes
  | .bare => []
  | .length body => body
  | .chunked pieces => pieces.flatten

/-- A request on the wire. -/
structure Request where
  method : Bytes
  resource : Bytes
  query : Bytes := []
  major : Nat := 1
  minor : Nat := 1
  headers : Dict
  framing : Framing

def Request.head (r : Request) : Head := .request r.method r.resource r.query r.major r.minor

def Request.bytes (r : Request) : Bytes := wireHead r.head r.headers ++ r.framing.bytes

/-- The request is well-formed, its headers announce its framing, and its body is not longer than the server takes. -/
structure Request.Ok (cfg : Cfg) (r : Request) : Prop where
  line : RequestLineOk r.method r.resource r.query r.major r.minor
  headers : ∀ e ∈ r.headers, HeaderOk e
  framed : match r.framing with
    | .bare => ¬ AnnouncesChunks cfg.ord r.headers ∧ r.headers.find? cfg.ord (b! "Content-Length") = none
    | .length body => ¬ AnnouncesChunks cfg.ord r.headers ∧ AnnouncesLength cfg.ord r.headers body.length
    | .chunked pieces => AnnouncesChunks cfg.ord r.headers ∧ ∀ d ∈ pieces, d ≠ [] ∧ d.length ≤ 2 ^ 63 - 1
  fits : r.framing.data.length ≤ cfg.maxContent
  size : r.framing.data.length + 1 < 2 ^ 64

/-- The request lets the connection stay open: HTTP/1.1 or later, without `Connection: close`. -/
def Request.Persistent (ord : Dict.Order) (r : Request) : Prop :=
  (1 < r.major ∨ (r.major = 1 ∧ 1 ≤ r.minor)) ∧ r.headers.get ord (b! "Connection") ≠ b! "close"

/-- The message is this request. -/
structure Request.Is (r : Request) (m : Msg) : Prop where
  line : r.head.StoredIn m
  headers : m.headers = r.headers
  content : m.content = r.framing.data.map some
  length : m.contentLength = r.framing.data.length
  valid : m.isValid = true

/-- The headers that do not depend on how a response is sent. -/
def otherHeaders (hs : Dict) : Dict := (Spec.Responses.ownHeaders hs).filter fun e => !iequals e.1 (b! "Transfer-Encoding")

/-- A client's message holds this response: status, reason, exactly these headers (besides those that say how it was sent) and
    exactly this page. -/
structure Carries (m : Msg) (code : Nat) (text : Bytes) (headers : Dict) (page : Bytes) : Prop where
  code : m.statusCode = code
  text : m.statusMessage = text
  headers : (otherHeaders m.headers).Perm (otherHeaders headers)
  content : m.content = page.map some
  length : m.contentLength = page.length

/-- The page of an answer: all that was written, in the order of the calls. -/
def body (a : Verif.Conversation.Answer) : Bytes :=
  ((a.chunks.getD []).map Spec.Writer.written).flatten ++ Spec.Writer.written a.reply.writes

/-- The client knows of chunks: it speaks HTTP/1.1 or a later 1.x. -/
def Request.TakesChunks (r : Request) : Prop := r.major = 1 ∧ 1 ≤ r.minor

end Verif.Spec.Conversation
