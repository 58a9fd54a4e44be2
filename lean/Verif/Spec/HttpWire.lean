import Verif.Model.Digits
import Verif.Model.HttpParser
/-
The wire format of an HTTP/1 message head, and which strings may occur in it (RFC 2616, as far as `http::parser`
accepts it). Used to state what the parser does with a well-formed message.
-/
namespace Verif.Http

def CRLF : Bytes := [0x0d, 0x0a]

/-- Any character that may occur in a request target before the query: no control character, space or `?`. -/
def uriChar (c : UInt8) : Prop := c ≠ c! " " ∧ c ≠ c! "?" ∧ isControl c = false
/-- ... in a query string. -/
def queryChar (c : UInt8) : Prop := c ≠ c! " " ∧ isControl c = false
/-- ... in a status message. -/
def textChar (c : UInt8) : Prop := isControl c = false
/-- ... in a header value: no control character except the tabulator. -/
def valueChar (c : UInt8) : Prop := c = 0x09 ∨ isControl c = false

/-- A method or a header name: a nonempty token of at most 1024 characters. -/
structure Token (t : Bytes) : Prop where
  nonempty : t ≠ []
  chars : ∀ c ∈ t, badToken c = false
  size : t.length ≤ 1024

/-- A header: the name is a token, the value has no control characters and at most 2^20 bytes. -/
structure HeaderOk (e : Bytes × Bytes) : Prop where
  name : Token e.1
  value : ∀ c ∈ e.2, valueChar c
  size : e.2.length ≤ 1048576

/-- One header line. -/
def headerLine (e : Bytes × Bytes) : Bytes := e.1 ++ b! ": " ++ e.2 ++ CRLF

/-- All header lines and the empty line. -/
def headerBlock (hs : Dict) : Bytes := (hs.map headerLine).flatten ++ CRLF

/-- The protocol version. -/
def versionText (major minor : Nat) : Bytes := b! "HTTP/" ++ toDec major ++ b! "." ++ toDec minor

/-- First line of a request; the query string, if not empty, follows a `?`. -/
def requestLine (method resource query : Bytes) (major minor : Nat) : Bytes :=
  method ++ b! " " ++ resource ++ (if query.isEmpty then [] else b! "?" ++ query) ++ b! " " ++
    versionText major minor ++ CRLF

/-- First line of a response. -/
def statusLine (major minor code : Nat) (text : Bytes) : Bytes :=
  versionText major minor ++ b! " " ++ toDec code ++ b! " " ++ text ++ CRLF

/-- The parts of a well-formed request line. -/
structure RequestLineOk (method resource query : Bytes) (major minor : Nat) : Prop where
  methodOk : Token method
  resourceOk : ∀ c ∈ resource, uriChar c
  resourceSize : resource.length ≤ 262144
  queryOk : ∀ c ∈ query, queryChar c
  querySize : query.length ≤ 1048576
  majorOk : 1 ≤ major ∧ major < 65536
  minorOk : minor < 65536

/-- The parts of a well-formed status line. -/
structure StatusLineOk (major minor code : Nat) (text : Bytes) : Prop where
  textOk : ∀ c ∈ text, textChar c
  textSize : text.length ≤ 1024
  majorOk : major < 65536
  minorOk : minor < 65536
  codeOk : code < 65536

/-- The first line of a message. -/
inductive Head where
  | request (method resource query : Bytes) (major minor : Nat)
  | response (major minor code : Nat) (text : Bytes)

namespace Head

def isRequest : Head → Bool
  | .request .. => true
  | .response .. => false

/-- The first line as it is sent. -/
def line : Head → Bytes
  | .request m r q major minor => requestLine m r q major minor
  | .response major minor code text => statusLine major minor code text

/-- The first line is well-formed. -/
def Ok : Head → Prop
  | .request m r q major minor => RequestLineOk m r q major minor
  | .response major minor code text => StatusLineOk major minor code text

/-- The first line is stored in the message. -/
def StoredIn (msg : Msg) : Head → Prop
  | .request m r q major minor => msg.method = m ∧ msg.resource = r ∧ msg.originalResource = r ∧
      msg.queryString = q ∧ msg.verMajor = major ∧ msg.verMinor = minor
  | .response major minor code text => msg.statusCode = code ∧ msg.statusMessage = text ∧
      msg.verMajor = major ∧ msg.verMinor = minor

end Head

/-- A complete message head: first line, headers, empty line. -/
def wireHead (h : Head) (hs : Dict) : Bytes := h.line ++ headerBlock hs

/-! ### Bodies -/

/-- A chunk: its length in hexadecimal, a line end, the data, a line end. -/
def chunkWire (d : Bytes) : Bytes := toHex d.length ++ CRLF ++ d ++ CRLF

/-- The terminating chunk, without footers. -/
def lastChunk : Bytes := b! "0\r\n\r\n"

/-- A chunked body. -/
def chunkedWire (ds : List Bytes) : Bytes := (ds.map chunkWire).flatten ++ lastChunk

/-- Total size of chunks. -/
def total (ds : List Bytes) : Nat := ds.flatten.length

/-- The order of the header container is an order of its entries. -/
def OrderOk (ord : Dict.Order) : Prop := ∀ l, (ord l).Perm l

/-- A message object nothing has been stored in. -/
structure Blank (m : Msg) : Prop where
  noHeaders : m.headers = []
  noCache : m.chunkCache = []
  noContent : m.content = []
  notMissing : m.missing = false

/-- The headers announce a chunked body. -/
def AnnouncesChunks (ord : Dict.Order) (hs : Dict) : Prop :=
  ∃ v, hs.find? ord (b! "Transfer-Encoding") = some v ∧ ∃ a b, v.map toUpper = a ++ b! "CHUNKED" ++ b

/-- The headers announce a body of `n` bytes: the Content-Length header (the first one, if there are several) is a
    decimal number, possibly with white space around it. -/
def AnnouncesLength (ord : Dict.Order) (hs : Dict) (n : Nat) : Prop :=
  ∃ sp d sp', hs.find? ord (b! "Content-Length") = some (sp ++ d ++ sp') ∧ (∀ c ∈ sp ++ sp', isSpace c = true) ∧
    d ≠ [] ∧ (∀ c ∈ d, isDigit c = true) ∧ decVal d = n

/-- A response that has no body whatever its headers say: the answer to a HEAD request, status 1xx, 204, 205 or 304
    (`rm` is the method of the request). -/
def Head.Bodyless (rm : Bytes) : Head → Prop
  | .request .. => False
  | .response _ _ code _ => rm = b! "HEAD" ∨ (100 ≤ code ∧ code ≤ 199) ∨ code = 204 ∨ code = 205 ∨ code = 304

end Verif.Http
