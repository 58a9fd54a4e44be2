import Verif.Model.Dict
/-
Model of the data members of `http::message`, `http::request` and `http::response`
(/repo/include/pion/http/message.hpp, request.hpp, response.hpp).
-/
namespace Verif

/-- `http::message::data_status_t` (/repo/include/pion/http/message.hpp:86-92). -/
inductive DataStatus where
  | none | truncated | partial_ | ok
  deriving Repr, DecidableEq

/-- An HTTP message: the members of `message` (/repo/include/pion/http/message.hpp:686-735) together with those
    of `request` (request.hpp:202-220) and `response` (response.hpp:229-236). Not modelled: the cached first
    line, the remote IP address, the user record. `content` is the content buffer: `none` is a byte that was
    allocated by `new char[]` but not yet written. -/
structure Msg where
  verMajor : Nat := 1
  verMinor : Nat := 1
  headers : Dict := []
  cookies : Dict := []
  isValid : Bool := false
  isChunked : Bool := false
  chunksSupported : Bool := false
  doNotSendContentLength : Bool := false
  contentLength : Nat := 0
  content : List (Option UInt8) := []
  chunkCache : Bytes := []
  status : DataStatus := .none
  missing : Bool := false
  afterMissing : Bool := false
  -- request
  method : Bytes := b! "GET"
  resource : Bytes := []
  originalResource : Bytes := []
  queryString : Bytes := []
  queries : Dict := []
  -- response
  statusCode : Nat := 200
  statusMessage : Bytes := b! "OK"
  requestMethod : Bytes := []
  deriving Repr, DecidableEq

/-- 2^64: `size_t` arithmetic modulus. -/
def SIZE_MOD : Nat := 2 ^ 64

/-- Decimal digits to a number. -/
def decVal (s : Bytes) : Nat := s.foldl (fun n c => 10 * n + digitVal c) 0

/-- `boost::algorithm::trim` in the "C" locale. -/
def isSpace (c : UInt8) : Bool := c = 0x20 || (0x09 ≤ c && c ≤ 0x0d)
def trim (s : Bytes) : Bytes := ((s.dropWhile isSpace).reverse.dropWhile isSpace).reverse

/-- Digits of `boost::lexical_cast<size_t>`: at least one digit, value below 2^64, else an exception. -/
def lexDigits (s : Bytes) : Option Nat :=
  if s.isEmpty || !(s.all isDigit) then none
  else if decVal s < SIZE_MOD then some (decVal s) else none

/-- `boost::lexical_cast<std::size_t>(s)`; `none` is `bad_lexical_cast`. A sign is accepted and a negative
    number is negated modulo 2^64 (documented behaviour of lexical_cast to unsigned types). -/
def lexicalCastSize (s : Bytes) : Option Nat :=
  match s with
  | [] => none
  | c :: r =>
    if c = c! "-" then (lexDigits r).map fun v => (SIZE_MOD - v) % SIZE_MOD
    else if c = c! "+" then lexDigits r
    else lexDigits (c :: r)

namespace Msg

/-- `message::clear` (/repo/include/pion/http/message.hpp:149-163) with `request::clear` (request.hpp:46-54). -/
def clearRequest (_ : Msg) : Msg := { method := [] }

/-- `message::clear` with `response::clear` (response.hpp:73-78). -/
def clearResponse (_ : Msg) : Msg := { }

/-- `regex_match(value, ".*chunked.*" icase)` (/repo/src/http_message.cpp:28, message.hpp:334). -/
def mentionsChunked (v : Bytes) : Bool := (findSub (b! "CHUNKED") (v.map toUpper)).isSome

/-- `update_transfer_encoding_using_header` (/repo/include/pion/http/message.hpp:329-337). -/
def updateTransferEncoding (ord : Dict.Order) (m : Msg) : Msg :=
  { m with isChunked := match m.headers.find? ord (b! "Transfer-Encoding") with
      | some v => mentionsChunked v
      | none => false }

/-- `update_content_length_using_header` (/repo/include/pion/http/message.hpp:317-326); `none` is the
    `bad_lexical_cast` exception. -/
def updateContentLength (ord : Dict.Order) (m : Msg) : Option Msg :=
  match m.headers.find? ord (b! "Content-Length") with
  | none => some { m with contentLength := 0 }
  | some v => (lexicalCastSize (trim v)).map fun n => { m with contentLength := n }

/-- `is_content_length_implied` (/repo/include/pion/http/request.hpp:57, response.hpp:81-87). -/
def contentLengthImplied (isRequest : Bool) (m : Msg) : Bool :=
  !isRequest && (m.requestMethod == b! "HEAD" || (100 ≤ m.statusCode && m.statusCode ≤ 199)
    || m.statusCode == 204 || m.statusCode == 205 || m.statusCode == 304)

/-- `check_keep_alive` (/repo/include/pion/http/message.hpp:381-385). -/
def checkKeepAlive (ord : Dict.Order) (m : Msg) : Bool :=
  m.headers.get ord (b! "Connection") != b! "close" &&
    (1 < m.verMajor || (1 ≤ m.verMajor && 1 ≤ m.verMinor))

end Msg
end Verif
