import Verif.Model.HttpParser
import Verif.Model.Digits
/-
Model of sending, writing and reading whole messages: `message::prepare_buffers_for_send`, `message::write`,
`message::send`, `message::read` (/repo/include/pion/http/message.hpp, /repo/src/http_message.cpp).
-/
namespace Verif

/-- What the hash table leaves open: which of several entries of one key comes first (`pick`), and in which order
    iteration visits the entries (`iter`). -/
structure TableOrder where
  pick : Dict → Bytes → Nat := fun _ _ => 0
  iter : Dict → Dict := id

namespace Msg

/-- `get_version_string` (/repo/include/pion/http/message.hpp:185-191). -/
def versionString (m : Msg) : Bytes := b! "HTTP/" ++ toDec m.verMajor ++ [c! "."] ++ toDec m.verMinor

/-- `request::update_first_line` (/repo/include/pion/http/request.hpp:166-180) or `response::update_first_line`
    (response.hpp:204-213). Simplification: the line is always computed anew; the cache `m_first_line` is modelled
    in Model/FirstLine. -/
def firstLine (isRequest : Bool) (m : Msg) : Bytes :=
  if isRequest then
    m.method ++ [c! " "] ++ m.resource ++ (if m.queryString.isEmpty then [] else c! "?" :: m.queryString) ++
      [c! " "] ++ m.versionString
  else m.versionString ++ [c! " "] ++ toDec m.statusCode ++ [c! " "] ++ m.statusMessage

/-- `types::make_set_cookie_header` (/repo/src/http_types.cpp:127-147). -/
def setCookieHeader (name value path : Bytes) (maxAge : Option Nat) : Bytes :=
  name ++ b! "=\"" ++ value ++ b! "\"; Version=1" ++ (if path.isEmpty then [] else b! "; Path=" ++ path) ++
    (match maxAge with
      | none => []
      | some n => b! "; Max-Age=" ++ toDec n)

/-- The header added for one cookie: `request::append_cookie_headers` (request.hpp:183-191),
    `response::append_cookie_headers` (response.hpp:216-220, 134-137). -/
def cookieHeader (isRequest : Bool) (c : Bytes × Bytes) : Bytes × Bytes :=
  if isRequest then (b! "Cookie", c.1 ++ b! "=" ++ c.2) else (b! "Set-Cookie", setCookieHeader c.1 c.2 (b! "/") none)

/-- `append_cookie_headers`: one header for each cookie, in the order of iteration. -/
def appendCookieHeaders (t : TableOrder) (isRequest : Bool) (m : Msg) : Msg :=
  (t.iter m.cookies).foldl (fun m c => { m with
    headers := m.headers.insert (cookieHeader isRequest c).1 (cookieHeader isRequest c).2 }) m

/-- `change_header` (/repo/include/pion/http/message.hpp:371-373). -/
def changeHeader (t : TableOrder) (m : Msg) (k v : Bytes) : Msg :=
  { m with headers := m.headers.change (t.pick m.headers k) k v }

/-- The value of the Connection header (/repo/include/pion/http/message.hpp:574). -/
def connectionValue (keepAlive : Bool) : Bytes := if keepAlive then b! "Keep-Alive" else b! "close"

/-- `prepare_headers_for_send` (/repo/include/pion/http/message.hpp:571-581). -/
def prepareHeaders (t : TableOrder) (keepAlive usingChunks : Bool) (m : Msg) : Msg :=
  let m := m.changeHeader t (b! "Connection") (connectionValue keepAlive)
  if usingChunks then
    if m.chunksSupported then m.changeHeader t (b! "Transfer-Encoding") (b! "chunked") else m
  else if m.doNotSendContentLength then m
  else m.changeHeader t (b! "Content-Length") (toDec m.contentLength)

/-- `append_headers` (/repo/include/pion/http/message.hpp:588-598). -/
def headerBytes (t : TableOrder) (m : Msg) : Bytes :=
  ((t.iter m.headers).map fun e => e.1 ++ b! ": " ++ e.2 ++ b! "\r\n").flatten ++ b! "\r\n"

/-- `prepare_buffers_for_send` (/repo/include/pion/http/message.hpp:394-407): the message (its headers change) and
    the bytes of the buffers. -/
def prepareBuffers (t : TableOrder) (isRequest keepAlive usingChunks : Bool) (m : Msg) : Msg × Bytes :=
  let m := m.prepareHeaders t keepAlive usingChunks
  let line := m.firstLine isRequest ++ b! "\r\n"
  let m := m.appendCookieHeaders t isRequest
  (m, line ++ m.headerBytes t)

/-- The bytes `[get_content(), get_content() + get_content_length())`; `none` if they are not all inside the content
    buffer and initialised. -/
def contentBytes (m : Msg) : Option Bytes :=
  if m.contentLength ≤ m.content.length then (m.content.take m.contentLength).mapM id else none

/-- The common part of `message::send` (/repo/src/http_message.cpp:33-46) and `message::write` (154-182, with
    `keepAlive` = true): the message afterwards and the bytes sent; `none` for an access outside the content
    buffer. The stream or connection takes all bytes. `get_content()` is never null (message.hpp:508, 542-552). -/
def transmit (t : TableOrder) (isRequest keepAlive headersOnly : Bool) (m : Msg) : Option (Msg × Bytes) :=
  let (m, head) := m.prepareBuffers t isRequest keepAlive false
  if !headersOnly && 0 < m.contentLength then (m.contentBytes).map fun c => (m, head ++ c)
  else some (m, head)

/-- `message::write(out, ec, headers_only)` (/repo/src/http_message.cpp:154-182). -/
def write (t : TableOrder) (isRequest headersOnly : Bool) (m : Msg) : Option (Msg × Bytes) :=
  m.transmit t isRequest true headersOnly

/-- `clear()` of the request or response. -/
def clear (isRequest : Bool) (m : Msg) : Msg := if isRequest then m.clearRequest else m.clearResponse

end Msg

namespace Http

/-- What `message::read` leaves: whether the error code is set, the message, `get_total_bytes_read()`, and the bytes
    of the stream that were not read. -/
structure ReadResult where
  failed : Bool
  message : Msg
  bytesRead : Nat
  rest : Bytes
  fault : Option Fault
  deriving Repr, DecidableEq

/-- The loop and the end of `message::read` (/repo/src/http_message.cpp:192-220). `rc` is `parse_result`, initially
    `false` (the default value of a tribool). At the end of the stream the error code is set to `io_error`; it is
    cleared again if the parser accepts the end. -/
def readLoop (cfg : Cfg) (rc : Tri) (s : S) : Bytes → Option ReadResult
  | [] =>
    if rc = .more then
      let (premature, s) := checkPrematureEof cfg s
      some { failed := premature, message := s.msg, bytesRead := s.totalRead, rest := [], fault := s.fault }
    else some { failed := true, message := s.msg, bytesRead := s.totalRead, rest := [], fault := s.fault }
  | c :: r =>
    match parse cfg s [c] with
    | none => none
    | some (.more, s, _) => readLoop cfg .more s r
    | some (rc, s, _) =>
      some { failed := rc = .no, message := s.msg, bytesRead := s.totalRead, rest := r, fault := s.fault }

/-- `message::read(in, ec, parser)` with a new parser (/repo/src/http_message.cpp:184-232). When the parser fails
    with `false` it has set the error code. -/
def readMessage (cfg : Cfg) (m : Msg) (stream : Bytes) : Option ReadResult :=
  readLoop cfg .no (fresh cfg (m.clear cfg.isRequest)) stream

end Http
end Verif
