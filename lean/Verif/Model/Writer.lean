import Verif.Model.MessageIo
/-
Model of `http::writer` (/repo/include/pion/http/writer.hpp, /repo/src/http_writer.cpp) with `response_writer` and
`request_writer`.
-/
namespace Verif.Writer

/-- `connection::lifecycle_type` (/repo/include/pion/tcp/connection.hpp:44-47). -/
inductive Lifecycle where
  | close | keepAlive | pipelined
  deriving Repr, DecidableEq

/-- The writer, its message and its connection. `buffers` is `m_content_buffers` by value: data passed to
    `write_no_copy` must not change until it is sent (writer.hpp:131-133), the strings in `m_text_cache` are nodes of
    a `std::list` and do not move, binary data is copied. `wire` is the sequence of bytes given to `async_write` so
    far. Not modelled: logging, the finished handler, failing writes; the memory held by `m_binary_cache`
    (`clear` does not free the copies, writer.hpp:93). `contentLength` is a natural number (bytes in memory). -/
structure W where
  isRequest : Bool
  msg : Msg
  buffers : List Bytes := []
  /-- `m_content_stream` -/
  stream : Bytes := []
  streamEmpty : Bool := true
  contentLength : Nat := 0
  supportsChunks : Bool := true
  sendingChunks : Bool := false
  sentHeaders : Bool := false
  lifecycle : Lifecycle := .close
  isOpen : Bool := true
  wire : Bytes := []
  deriving Repr, DecidableEq

/-- `flush_content_stream` (/repo/include/pion/http/writer.hpp:293-304). -/
def flush (w : W) : W :=
  if w.streamEmpty then w
  else if w.stream.isEmpty then { w with streamEmpty := true }
  else { w with
    stream := [], contentLength := w.contentLength + w.stream.length, buffers := w.buffers ++ [w.stream],
    streamEmpty := true }

/-- `write(const T& data)`; `d` is the text `data` is printed as (/repo/include/pion/http/writer.hpp:106-114). -/
def writeText (w : W) (d : Bytes) : W := { w with stream := w.stream ++ d, streamEmpty := false }

/-- `write(const void*, size_t)` and the two `write_no_copy` functions
    (/repo/include/pion/http/writer.hpp:122-128, 137-143, 152-158). -/
def writeBuffer (w : W) (d : Bytes) : W :=
  if d.isEmpty then w
  else
    let w := flush w
    { w with buffers := w.buffers ++ [d], contentLength := w.contentLength + d.length }

/-- `clear` (/repo/include/pion/http/writer.hpp:91-98). -/
def clear (w : W) : W := { w with buffers := [], stream := [], streamEmpty := true, contentLength := 0 }

/-- `prepare_buffers_for_send` of response_writer (response_writer.hpp:126-132) and request_writer
    (request_writer.hpp:122-128); the same code. -/
def prepareBuffers (t : TableOrder) (w : W) : W × Bytes :=
  let m := if 0 < w.contentLength then { w.msg with contentLength := w.contentLength } else w.msg
  let (m, bytes) := m.prepareBuffers t w.isRequest (w.lifecycle != .close) w.sendingChunks
  ({ w with msg := m }, bytes)

/-- The headers, if they have not been sent yet (/repo/src/http_writer.cpp:25-31). -/
def headPart (t : TableOrder) (w : W) : W × Bytes :=
  if w.sentHeaders then (w, [])
  else
    let (w, bytes) := prepareBuffers t w
    ({ w with sentHeaders := true }, bytes)

/-- The payload (/repo/src/http_writer.cpp:38-62). `"%lx"` of the length cast to long is its hexadecimal form. -/
def payloadPart (w : W) : Bytes :=
  if 0 < w.contentLength then
    if w.supportsChunks && w.sendingChunks then
      toHex w.contentLength ++ b! "\r\n" ++ w.buffers.flatten ++ b! "\r\n"
    else w.buffers.flatten
  else []

/-- The final chunk (/repo/src/http_writer.cpp:65-73). -/
def finalPart (w : W) (final : Bool) : Bytes :=
  if final && w.supportsChunks && w.sendingChunks then b! "0" ++ b! "\r\n" ++ b! "\r\n" else []

/-- `send_more_data` (/repo/include/pion/http/writer.hpp:267-281) with `prepare_write_buffers`
    (/repo/src/http_writer.cpp:21-74). -/
def sendMore (t : TableOrder) (w : W) (final : Bool) : W :=
  if w.isOpen then
    let w := flush w
    let (w, head) := headPart t w
    { w with wire := w.wire ++ (head ++ payloadPart w ++ finalPart w final) }
  else w

/-- Calls a user can make on a writer. -/
inductive Op where
  /-- `write(data)` with the text of the data -/
  | text (d : Bytes)
  /-- `write(ptr, length)`, `write_no_copy` -/
  | buffer (d : Bytes)
  | clear
  /-- `send` (writer.hpp:166-168, 180-182) -/
  | send
  /-- `send_chunk` (writer.hpp:195-204) -/
  | sendChunk
  /-- `send_final_chunk` (writer.hpp:218-221, 230-233) -/
  | sendFinal
  deriving Repr, DecidableEq

/-- One call. -/
def step (t : TableOrder) (w : W) : Op → W
  | .text d => writeText w d
  | .buffer d => writeBuffer w d
  | .clear => clear w
  | .send => sendMore t w false
  | .sendChunk =>
    let w := { w with sendingChunks := true }
    let w := if w.supportsChunks then w else { w with lifecycle := .close }
    sendMore t w false
  | .sendFinal => sendMore t { w with sendingChunks := true } true

/-- A sequence of calls. -/
def run (t : TableOrder) (w : W) (ops : List Op) : W := ops.foldl (step t) w

/-- The body of the two constructors: the payload starts with the content of the message, unless the first byte of
    it is NUL (response_writer.hpp:95-101, request_writer.hpp:103-109). -/
def initContent (w : W) : W :=
  match w.msg.contentBytes with
  | some (c :: r) => if c = 0 then w else writeBuffer w (c :: r)
  | _ => w

/-- `response_writer(tcp_conn, http_response_ptr, handler)` (response_writer.hpp:87-102). The content of the message
    is inside its buffer. -/
def newResponseWriter (m : Msg) (lc : Lifecycle) : W :=
  initContent { isRequest := false, msg := m, supportsChunks := m.chunksSupported, lifecycle := lc }

/-- `response(const request&)` (response.hpp:37-42, 95-106). -/
def responseTo (req : Msg) : Msg :=
  if req.verMajor = 1 && 1 ≤ req.verMinor then { requestMethod := req.method, chunksSupported := true }
  else if req.verMajor = 0 then
    { requestMethod := req.method, statusCode := 0, statusMessage := [], verMajor := 0, verMinor := 0 }
  else { requestMethod := req.method }

/-- `response_writer(tcp_conn, http_request, handler)` (response_writer.hpp:111-118). -/
def newResponseWriterFor (req : Msg) (lc : Lifecycle) : W :=
  { isRequest := false, msg := responseTo req, supportsChunks := (responseTo req).chunksSupported, lifecycle := lc }

/-- `request_writer(tcp_conn, handler)` and `request_writer(tcp_conn, http_request_ptr, handler)`
    (request_writer.hpp:80-110): `m_client_supports_chunks` keeps its initial value `true` (writer.hpp:55). -/
def newRequestWriter (m : Msg) (lc : Lifecycle) : W :=
  initContent { isRequest := true, msg := m, lifecycle := lc }

end Verif.Writer
