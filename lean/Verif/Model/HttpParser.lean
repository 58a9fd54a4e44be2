import Verif.Model.HttpMessage
import Verif.Model.Query
import Verif.Model.Cookie
import Verif.Model.Multipart
import Verif.Model.Strtol
/-
Model of the state machines of `http::parser` (/repo/src/http_parser.cpp, /repo/include/pion/http/parser.hpp).

The read buffer is the list of unread bytes `[m_read_ptr, m_read_end_ptr)`; the pieces of the parser take it
as argument and return the unread rest. Byte counters are natural numbers (they cannot reach 2^64).
Not modelled: logging, the virtual hook `finished_parsing_headers` (empty in `parser`), out-of-memory.
-/
namespace Verif.Http

/-- `boost::tribool`. -/
inductive Tri where
  | yes | no | more
  deriving Repr, DecidableEq

/-- `parser::error_value_t` (/repo/include/pion/http/parser.hpp:51-70). -/
inductive Err where
  | methodChar | methodSize | uriChar | uriSize | queryChar | querySize | versionEmpty | versionChar
  | statusEmpty | statusChar | headerChar | headerNameSize | headerValueSize | invalidContentLength
  | chunkChar | missingChunkData | missingHeaderData | missingTooMuchContent
  deriving Repr, DecidableEq

/-- Things that must not happen: access outside the content buffer; an exception or a wild read out of the
    multipart parser. -/
inductive Fault where
  | contentBuffer | multipart
  deriving Repr, DecidableEq

/-- `message_parse_state_t` (/repo/include/pion/http/parser.hpp:603-606). -/
inductive MState where
  | start | headers | footers | content | noLength | chunks | end_
  deriving Repr, DecidableEq

/-- `header_parse_state_t` (/repo/include/pion/http/parser.hpp:610-623). -/
inductive HState where
  | methodStart | method | uriStem | uriQuery | verH | verT1 | verT2 | verP | verSlash
  | verMajorStart | verMajor | verMinorStart | verMinor | statusCodeStart | statusCode | statusMessage
  | expNewline | expCr | headerWs | headerStart | headerName | spaceBeforeValue | headerValue
  | expFinalNewline | expFinalCr
  deriving Repr, DecidableEq

/-- `chunk_parse_state_t` (/repo/include/pion/http/parser.hpp:627-635). -/
inductive CState where
  | sizeStart | size | ignoredText | expCrAfterSize | expLfAfterSize | chunk | expCrAfterChunk
  | expLfAfterChunk | expFinalCrOrFooters | expFinalLf
  deriving Repr, DecidableEq

/-- `STATUS_MESSAGE_MAX`, `METHOD_MAX`, `RESOURCE_MAX`, `QUERY_STRING_MAX`, `HEADER_NAME_MAX`,
    `HEADER_VALUE_MAX` (/repo/src/http_parser.cpp:38-43). -/
def STATUS_MESSAGE_MAX : Nat := 1024
def METHOD_MAX : Nat := 1024
def RESOURCE_MAX : Nat := 256 * 1024
def QUERY_STRING_MAX : Nat := 1024 * 1024
def HEADER_NAME_MAX : Nat := 1024
def HEADER_VALUE_MAX : Nat := 1024 * 1024

/-- Configuration members of the parser, fixed while a message is parsed: `m_is_request`,
    `m_max_content_length`, `m_parse_headers_only`, `m_save_raw_headers`, presence of `m_payload_handler`
    (/repo/include/pion/http/parser.hpp:645, 688-694); `ord` is the order in which the header multimap keeps
    the values of one name. -/
structure Cfg where
  isRequest : Bool
  maxContent : Nat := 1024 * 1024
  headersOnly : Bool := false
  saveRaw : Bool := false
  handler : Bool := false
  ord : Dict.Order := id

/-- The mutable members of the parser (/repo/include/pion/http/parser.hpp:637-686), the message being filled,
    the error code, the bytes handed to the payload handler so far, and a fault flag. -/
structure S where
  ms : MState := .start
  hs : HState
  cs : CState := .sizeStart
  statusCode : Nat := 0
  statusMessage : Bytes := []
  method : Bytes := []
  resource : Bytes := []
  query : Bytes := []
  raw : Bytes := []
  headerName : Bytes := []
  headerValue : Bytes := []
  chunkSizeStr : Bytes := []
  chunkSize : Nat := 0
  chunkRead : Nat := 0
  remaining : Nat := 0
  contentRead : Nat := 0
  lastRead : Nat := 0
  totalRead : Nat := 0
  msg : Msg
  ec : Option Err := none
  payload : Bytes := []
  fault : Option Fault := none
  deriving Repr, DecidableEq

/-- Initial header state, `is_request ? PARSE_METHOD_START : PARSE_HTTP_VERSION_H` (parser.hpp:131). -/
def initHs (cfg : Cfg) : HState := if cfg.isRequest then .methodStart else .verH

/-- A newly constructed parser (parser.hpp:129-139) working on message `m`. -/
def fresh (cfg : Cfg) (m : Msg) : S := { hs := initHs cfg, msg := m }

/-- `parser::reset` (parser.hpp:236-247), then working on message `m`. -/
def reset (cfg : Cfg) (s : S) (m : Msg) : S :=
  { s with ms := .start, hs := initHs cfg, cs := .sizeStart, statusCode := 0, statusMessage := [],
           method := [], resource := [], query := [], raw := [], contentRead := 0, lastRead := 0,
           totalRead := 0, msg := m, ec := none, payload := [], fault := none }

/-- Outcome of one byte of `parse_headers`. `done` with `consumed = true` is `++m_read_ptr; return true`. -/
inductive HRes where
  | more (s : S)
  | done (s : S) (consumed : Bool)
  | fail (s : S) (e : Err)
  deriving Repr, DecidableEq

def CR : UInt8 := 0x0d
def LF : UInt8 := 0x0a

/-- `http_msg.set_version_major(0); http_msg.set_version_minor(0);`. -/
def S.noVersion (s : S) : S := { s with msg := { s.msg with verMajor := 0, verMinor := 0 } }

/-- First character of a header name (e.g. /repo/src/http_parser.cpp:547-551). -/
def S.startName (s : S) (c : UInt8) : S := { s with headerName := [c], hs := .headerName }

/-- `http_msg.add_header(m_header_name, m_header_value)`. -/
def S.addHeader (s : S) : S := { s with msg := { s.msg with headers := s.msg.headers.insert s.headerName s.headerValue } }

/-- The `switch` of `parse_headers` (/repo/src/http_parser.cpp:265-690) for the byte `c`. -/
def hswitch (cfg : Cfg) (s : S) (c : UInt8) : HRes :=
  match s.hs with
  | .methodStart => -- 266-277
    if c = c! " " || c = CR || c = LF then .more s
    else if badToken c then .fail s .methodChar
    else .more { s with hs := .method, method := [c] }
  | .method => -- 279-293
    if c = c! " " then .more { s with resource := [], hs := .uriStem }
    else if badToken c then .fail s .methodChar
    else if METHOD_MAX ≤ s.method.length then .fail s .methodSize
    else .more { s with method := s.method ++ [c] }
  | .uriStem => -- 295-319
    if c = c! " " then .more { s with hs := .verH }
    else if c = c! "?" then .more { s with query := [], hs := .uriQuery }
    else if c = CR then .more { s.noVersion with hs := .expNewline }
    else if c = LF then .more { s.noVersion with hs := .expCr }
    else if isControl c then .fail s .uriChar
    else if RESOURCE_MAX ≤ s.resource.length then .fail s .uriSize
    else .more { s with resource := s.resource ++ [c] }
  | .uriQuery => -- 321-342
    if c = c! " " then .more { s with hs := .verH }
    else if c = CR then .more { s.noVersion with hs := .expNewline }
    else if c = LF then .more { s.noVersion with hs := .expCr }
    else if isControl c then .fail s .queryChar
    else if QUERY_STRING_MAX ≤ s.query.length then .fail s .querySize
    else .more { s with query := s.query ++ [c] }
  | .verH => -- 344-369: the state set for CR or LF is overwritten by line 368
    if c = CR || c = LF then
      if cfg.isRequest then .more { s.noVersion with hs := .verT1 } else .fail s .versionEmpty
    else if c = c! "H" then .more { s with hs := .verT1 }
    else .fail s .versionChar
  | .verT1 => if c = c! "T" then .more { s with hs := .verT2 } else .fail s .versionChar -- 371-378
  | .verT2 => if c = c! "T" then .more { s with hs := .verP } else .fail s .versionChar -- 380-387
  | .verP => if c = c! "P" then .more { s with hs := .verSlash } else .fail s .versionChar -- 389-396
  | .verSlash => if c = c! "/" then .more { s with hs := .verMajorStart } else .fail s .versionChar -- 398-405
  | .verMajorStart => -- 407-415
    if isDigit c then .more { s with msg := { s.msg with verMajor := digitVal c }, hs := .verMajor }
    else .fail s .versionChar
  | .verMajor => -- 417-428
    if c = c! "." then .more { s with hs := .verMinorStart }
    else if isDigit c then
      .more { s with msg := { s.msg with verMajor := (s.msg.verMajor * 10 + digitVal c) % 65536 } }
    else .fail s .versionChar
  | .verMinorStart => -- 430-438
    if isDigit c then .more { s with msg := { s.msg with verMinor := digitVal c }, hs := .verMinor }
    else .fail s .versionChar
  | .verMinor => -- 440-468
    if c = c! " " then (if cfg.isRequest then .more s else .more { s with hs := .statusCodeStart })
    else if c = CR then (if cfg.isRequest then .more { s with hs := .expNewline } else .fail s .statusEmpty)
    else if c = LF then (if cfg.isRequest then .more { s with hs := .expCr } else .fail s .statusEmpty)
    else if isDigit c then
      .more { s with msg := { s.msg with verMinor := (s.msg.verMinor * 10 + digitVal c) % 65536 } }
    else .fail s .versionChar
  | .statusCodeStart => -- 470-478
    if isDigit c then .more { s with statusCode := digitVal c, hs := .statusCode }
    else .fail s .statusChar
  | .statusCode => -- 480-500
    if c = c! " " then .more { s with statusMessage := [], hs := .statusMessage }
    else if isDigit c then .more { s with statusCode := (s.statusCode * 10 + digitVal c) % 65536 }
    else if c = CR then .more { s with statusMessage := [], hs := .expNewline }
    else if c = LF then .more { s with statusMessage := [], hs := .expCr }
    else .fail s .statusChar
  | .statusMessage => -- 502-517
    if c = CR then .more { s with hs := .expNewline }
    else if c = LF then .more { s with hs := .expCr }
    else if isControl c then .fail s .statusChar
    else if STATUS_MESSAGE_MAX ≤ s.statusMessage.length then .fail s .statusChar
    else .more { s with statusMessage := s.statusMessage ++ [c] }
  | .expNewline => -- 519-552
    if c = LF then
      if cfg.isRequest && s.msg.verMajor == 0 then .done s true
      else .more { s with hs := .headerStart }
    else if c = CR then .done s true
    else if c = 0x09 || c = c! " " then .more { s with hs := .headerWs }
    else if badToken c then .fail s .headerChar
    else .more (s.startName c)
  | .expCr => -- 554-578
    if c = CR then .more { s with hs := .headerStart }
    else if c = LF then .done s true
    else if c = 0x09 || c = c! " " then .more { s with hs := .headerWs }
    else if badToken c then .fail s .headerChar
    else .more (s.startName c)
  | .headerWs => -- 580-596
    if c = CR then .more { s with hs := .expNewline }
    else if c = LF then .more { s with hs := .expCr }
    else if c = 0x09 || c = c! " " then .more s
    else if badToken c then .fail s .headerChar
    else .more (s.startName c)
  | .headerStart => -- 598-615
    if c = CR then .more { s with hs := .expFinalNewline }
    else if c = LF then .more { s with hs := .expFinalCr }
    else if c = 0x09 || c = c! " " then .more { s with hs := .headerWs }
    else if badToken c then .fail s .headerChar
    else .more (s.startName c)
  | .headerName => -- 617-632
    if c = c! ":" then .more { s with headerValue := [], hs := .spaceBeforeValue }
    else if badToken c then .fail s .headerChar
    else if HEADER_NAME_MAX ≤ s.headerName.length then .fail s .headerNameSize
    else .more { s with headerName := s.headerName ++ [c] }
  | .spaceBeforeValue => -- 634-652
    if c = c! " " then .more { s with hs := .headerValue }
    else if c = CR then .more { s.addHeader with hs := .expNewline }
    else if c = LF then .more { s.addHeader with hs := .expCr }
    else if badToken c then .fail s .headerChar
    else .more { s with headerValue := s.headerValue ++ [c], hs := .headerValue }
  | .headerValue => -- 654-678
    if c = CR then .more { s.addHeader with hs := .expNewline }
    else if c = LF then .more { s.addHeader with hs := .expCr }
    else if c ≠ 0x09 && isControl c then .fail s .headerChar
    else if HEADER_VALUE_MAX ≤ s.headerValue.length then .fail s .headerValueSize
    else .more { s with headerValue := s.headerValue ++ [c] }
  | .expFinalNewline => .done s (c == LF) -- 680-684
  | .expFinalCr => .done s (c == CR) -- 686-690

/-- One iteration of the loop of `parse_headers` (/repo/src/http_parser.cpp:260-693). -/
def hstep (cfg : Cfg) (s : S) (c : UInt8) : HRes :=
  hswitch cfg (if cfg.saveRaw then { s with raw := s.raw ++ [c] } else s) c

/-- The loop of `parse_headers` (/repo/src/http_parser.cpp:260-696) without the byte counters:
    result, state, unread bytes. -/
def hloop (cfg : Cfg) (s : S) : Bytes → Tri × S × Bytes
  | [] => (.more, s, [])
  | c :: t =>
    match hstep cfg s c with
    | .more s' => hloop cfg s' t
    | .done s' true => (.yes, s', t)
    | .done s' false => (.yes, s', c :: t)
    | .fail s' e => (.no, { s' with ec := some e }, c :: t)

/-- `parser::parse_headers` (/repo/src/http_parser.cpp:248-696). The byte counters are updated on every
    return except the error returns. -/
def parseHeaders (cfg : Cfg) (s : S) (buf : Bytes) : Tri × S × Bytes :=
  let (rc, s', rest) := hloop cfg { s with lastRead := 0 } buf
  let n := buf.length - rest.length
  match rc with
  | .no => (rc, s', rest)
  | _ => (rc, { s' with lastRead := n, totalRead := s'.totalRead + n }, rest)

/-- Parse several Cookie headers into a cookie dictionary (/repo/src/http_parser.cpp:718-726, 739-747); failures
    are only logged. -/
def addCookies (setCookie : Bool) (cookies : Dict) (values : List Bytes) : Dict :=
  values.foldl (fun d v => (Cookie.parseCookieHeader d v setCookie).2) cookies

/-- `update_message_with_header_data` (/repo/src/http_parser.cpp:698-750). -/
def updateMessage (cfg : Cfg) (s : S) : S :=
  let m := s.msg
  if cfg.isRequest then
    { s with msg := { m with
        method := s.method, resource := s.resource, originalResource := s.resource, queryString := s.query,
        queries := if s.query.isEmpty then m.queries else (Query.parseUrlEncoded m.queries s.query).2,
        cookies := addCookies false m.cookies (cfg.ord (m.headers.values (b! "Cookie"))) } }
  else
    { s with msg := { m with
        statusCode := s.statusCode, statusMessage := s.statusMessage,
        cookies := addCookies true m.cookies (cfg.ord (m.headers.values (b! "Set-Cookie"))) } }

/-- `create_content_buffer` / `content_buffer_t::resize` (/repo/include/pion/http/message.hpp:341-344, 541-551):
    `new char[len+1]` followed by `m_buf[len] = 0`; for `len = 2^64-1` the allocation size wraps to 0 and
    the write is outside the buffer. -/
def createBuffer (s : S) : S :=
  if s.msg.contentLength + 1 = SIZE_MOD then
    { s with fault := some .contentBuffer, msg := { s.msg with content := [] } }
  else { s with msg := { s.msg with content := List.replicate s.msg.contentLength none } }

/-- `finish_header_parsing` (/repo/src/http_parser.cpp:752-837). -/
def finishHeaders (cfg : Cfg) (s : S) : Tri × S :=
  let s := { s with remaining := 0, contentRead := 0,
                    msg := ({ s.msg with contentLength := 0 }).updateTransferEncoding cfg.ord }
  let s := updateMessage cfg s
  if s.msg.isChunked then
    (if cfg.headersOnly then .yes else .more, { s with ms := .chunks })
  else if s.msg.contentLengthImplied cfg.isRequest then
    (.yes, { s with ms := .end_ })
  else if s.msg.headers.has (b! "Content-Length") then
    match s.msg.updateContentLength cfg.ord with
    | none => (.no, { s with ec := some .invalidContentLength })
    | some m =>
      let s := { s with msg := m }
      if m.contentLength = 0 then (.yes, { s with ms := .end_ })
      else
        let s := { s with ms := .content, remaining := m.contentLength,
                          msg := if cfg.maxContent < m.contentLength then { m with contentLength := cfg.maxContent } else m }
        if cfg.headersOnly then (.yes, s) else (.more, createBuffer s)
  else if !cfg.isRequest then
    (if cfg.headersOnly then .yes else .more,
      { s with msg := { s.msg with chunkCache := [] }, ms := .noLength })
  else (.yes, { s with ms := .end_ })

/-- Outcome of one iteration of `parse_chunks`; `skip` is the number of further bytes the iteration consumed
    beyond the current one. -/
inductive CRes where
  | more (s : S) (skip : Nat)
  | done (s : S) (consumed : Bool)
  | fail (s : S) (e : Err)
  deriving Repr, DecidableEq

/-- Chunk data (/repo/src/http_parser.cpp:1441-1454): with a payload handler as much of the buffer as belongs
    to the chunk, otherwise one byte, stored if the maximum is not reached. Second component: bytes consumed
    beyond the current one. -/
def chunkData (cfg : Cfg) (s : S) (c : UInt8) (t : Bytes) : S × Nat :=
  if s.chunkRead < s.chunkSize then
    if cfg.handler then
      let len := min (t.length + 1) (s.chunkSize - s.chunkRead)
      ({ s with payload := s.payload ++ (c :: t).take len, chunkRead := s.chunkRead + len }, len - 1)
    else if s.msg.chunkCache.length < cfg.maxContent then
      ({ s with msg := { s.msg with chunkCache := s.msg.chunkCache ++ [c] }, chunkRead := s.chunkRead + 1 }, 0)
    else (s, 0)
  else (s, 0)

/-- The `switch` of `parse_chunks` (/repo/src/http_parser.cpp:1367-1508); `c :: t` is the unread buffer. -/
def cstep (cfg : Cfg) (s : S) (c : UInt8) (t : Bytes) : CRes :=
  match s.cs with
  | .sizeStart => -- 1368-1383
    if isHexDigit c then .more { s with chunkSizeStr := [c], cs := .size } 0
    else if c = c! " " || c = 0x09 || c = CR || c = LF then .more s 0
    else .fail s .chunkChar
  | .size => -- 1385-1402
    if isHexDigit c then .more { s with chunkSizeStr := s.chunkSizeStr ++ [c] } 0
    else if c = CR then .more { s with cs := .expLfAfterSize } 0
    else if c = c! " " || c = 0x09 then .more { s with cs := .expCrAfterSize } 0
    else if c = c! ";" then .more { s with cs := .ignoredText } 0
    else .fail s .chunkChar
  | .ignoredText => -- 1404-1408
    if c = CR then .more { s with cs := .expLfAfterSize } 0 else .more s 0
  | .expCrAfterSize => -- 1410-1421
    if c = CR then .more { s with cs := .expLfAfterSize } 0
    else if c = c! " " || c = 0x09 then .more s 0
    else .fail s .chunkChar
  | .expLfAfterSize => -- 1423-1438
    if c = LF then
      let n := (strtol16 s.chunkSizeStr).toNat
      if n = 0 then .more { s with chunkRead := 0, chunkSize := n, cs := .expFinalCrOrFooters } 0
      else .more { s with chunkRead := 0, chunkSize := n, cs := .chunk } 0
    else .fail s .chunkChar
  | .chunk => -- 1440-1458
    let (s, skip) := chunkData cfg s c t
    if s.chunkRead = s.chunkSize then .more { s with cs := .expCrAfterChunk } skip else .more s skip
  | .expCrAfterChunk => -- 1460-1468
    if c = CR then .more { s with cs := .expLfAfterChunk } 0 else .fail s .chunkChar
  | .expLfAfterChunk => -- 1470-1478
    if c = LF then .more { s with cs := .sizeStart } 0 else .fail s .chunkChar
  | .expFinalCrOrFooters => -- 1480-1495
    if c = CR then .more { s with cs := .expFinalLf } 0
    else .done { s with ms := .footers, hs := .headerStart } false
  | .expFinalLf => -- 1497-1508
    if c = LF then .done s true else .fail s .chunkChar

/-- The loop of `parse_chunks` (/repo/src/http_parser.cpp:1365-1517) without the byte counters; the second
    argument counts bytes already consumed by an earlier iteration (`m_read_ptr += len - 1`). -/
def cloop (cfg : Cfg) (s : S) : Nat → Bytes → Tri × S × Bytes
  | _, [] => (.more, s, [])
  | k + 1, _ :: t => cloop cfg s k t
  | 0, c :: t =>
    match cstep cfg s c t with
    | .more s' skip => cloop cfg s' skip t
    | .done s' true => (.yes, s', t)
    | .done s' false => (.yes, s', c :: t)
    | .fail s' e => (.no, { s' with ec := some e }, c :: t)

/-- `parser::parse_chunks` (/repo/src/http_parser.cpp:1353-1517). -/
def parseChunks (cfg : Cfg) (s : S) (buf : Bytes) : Tri × S × Bytes :=
  let (rc, s', rest) := cloop cfg { s with lastRead := 0 } 0 buf
  let n := buf.length - rest.length
  match rc with
  | .no => (rc, s', rest)
  | _ => (rc, { s' with lastRead := n, totalRead := s'.totalRead + n, contentRead := s'.contentRead + n }, rest)

/-- `message::concatenate_chunks` (/repo/src/http_message.cpp:234-240). -/
def concatenateChunks (s : S) : S :=
  let s := createBuffer { s with msg := { s.msg with contentLength := s.msg.chunkCache.length } }
  if s.msg.content.length < s.msg.chunkCache.length then { s with fault := some .contentBuffer }
  else { s with msg := { s.msg with content := s.msg.chunkCache.map some } }

/-- `memcpy(get_content() + off, data, data.length)`; outside the buffer it is a fault (and the content is
    meaningless from then on: the model clears it). -/
def blit (s : S) (off : Nat) (data : Bytes) : S :=
  if s.msg.content.length < off + data.length then
    { s with fault := some .contentBuffer, msg := { s.msg with content := [] } }
  else { s with msg := { s.msg with
    content := s.msg.content.take off ++ data.map some ++ s.msg.content.drop (off + data.length) } }

/-- Hand `n` bytes of the buffer to the payload handler or copy them to the content buffer, as far as it is not
    full (/repo/src/http_parser.cpp:1543-1554). -/
def storeContent (cfg : Cfg) (s : S) (buf : Bytes) (n : Nat) : S :=
  if cfg.handler then { s with payload := s.payload ++ buf.take n }
  else if s.contentRead < cfg.maxContent then
    if cfg.maxContent < s.contentRead + n then blit s s.contentRead (buf.take (cfg.maxContent - s.contentRead))
    else blit s s.contentRead (buf.take n)
  else s

/-- `parser::consume_content` (/repo/src/http_parser.cpp:1519-1562). -/
def consumeContent (cfg : Cfg) (s : S) (buf : Bytes) : Tri × S × Bytes :=
  if s.remaining = 0 then (.yes, s, buf)
  else
    let (rc, n) := if s.remaining ≤ buf.length then (Tri.yes, s.remaining) else (Tri.more, buf.length)
    let s := storeContent cfg { s with remaining := s.remaining - n } buf n
    (rc, { s with contentRead := s.contentRead + n, totalRead := s.totalRead + n, lastRead := n }, buf.drop n)

/-- `parser::consume_content_as_next_chunk` (/repo/src/http_parser.cpp:1564-1585): stores as much as the maximum
    allows, consumes the whole buffer. -/
def consumeAsNextChunk (cfg : Cfg) (s : S) (buf : Bytes) : S × Bytes :=
  if buf.isEmpty then ({ s with lastRead := 0 }, buf)
  else
    let s := if cfg.handler then { s with payload := s.payload ++ buf }
      else { s with msg := { s.msg with
        chunkCache := s.msg.chunkCache ++ buf.take (cfg.maxContent - s.msg.chunkCache.length) } }
    ({ s with lastRead := buf.length, totalRead := s.totalRead + buf.length,
              contentRead := s.contentRead + buf.length }, [])

/-- `parser::compute_msg_status` (/repo/src/http_parser.cpp:1649-1661). -/
def computeStatus (m : Msg) (ok : Bool) : Msg :=
  { m with status :=
      if m.missing then (if m.afterMissing then .partial_ else .truncated)
      else (if ok then .ok else .truncated) }

/-- Form data in the content of a request (/repo/src/http_parser.cpp:1622-1646). -/
def finishForm (cfg : Cfg) (s : S) : S :=
  if cfg.isRequest && !cfg.handler && !cfg.headersOnly then
    let ct := s.msg.headers.get cfg.ord (b! "Content-Type")
    let body := (s.msg.content.take s.msg.contentLength).map (·.getD 0)
    if (b! "application/x-www-form-urlencoded").isPrefixOf ct then
      if s.msg.content.length < s.msg.contentLength then { s with fault := some .contentBuffer }
      else { s with msg := { s.msg with queries := (Query.parseUrlEncoded s.msg.queries body).2 } }
    else if (b! "multipart/form-data").isPrefixOf ct then
      if s.msg.content.length < s.msg.contentLength then { s with fault := some .contentBuffer }
      else
        match Multipart.parseMultipart s.msg.queries ct body with
        | .ret _ d => { s with msg := { s.msg with queries := d } }
        | _ => { s with fault := some .multipart }
    else s
  else s

/-- `parser::finish` (/repo/src/http_parser.cpp:1587-1647). -/
def finish (cfg : Cfg) (s : S) : S :=
  match s.ms with
  | .start => createBuffer { s with msg := { s.msg with isValid := false, contentLength := 0 } }
  | .end_ => tail { s with msg := { s.msg with isValid := true } }
  | .headers | .footers =>
    let s := updateMessage cfg { s with msg := { s.msg with isValid := false } }
    tail (createBuffer { s with msg := { s.msg with contentLength := 0 } })
  | .content =>
    let s := { s with msg := { s.msg with isValid := false } }
    tail (if s.contentRead < cfg.maxContent then { s with msg := { s.msg with contentLength := s.contentRead } } else s)
  | .chunks =>
    let s := { s with msg := { s.msg with isValid := s.cs == .sizeStart } }
    tail (if cfg.handler then s else concatenateChunks s)
  | .noLength =>
    let s := { s with msg := { s.msg with isValid := true } }
    tail (if cfg.handler then s else concatenateChunks s)
where
  /-- the common part after the switch (/repo/src/http_parser.cpp:1620-1646) -/
  tail (s : S) : S := finishForm cfg { s with msg := computeStatus s.msg s.msg.isValid }

/-- One pass through the `switch` of `parse` (/repo/src/http_parser.cpp:69-115). -/
def iter (cfg : Cfg) (s : S) (buf : Bytes) : Tri × S × Bytes :=
  match s.ms with
  | .start | .headers | .footers =>
    let s := if s.ms = .start then { s with ms := .headers } else s
    let (rc, s, rest) := parseHeaders cfg s buf
    if rc = .yes ∧ s.ms = .headers then
      let (rc, s) := finishHeaders cfg s
      (rc, s, rest)
    else (rc, s, rest)
  | .chunks =>
    let (rc, s, rest) := parseChunks cfg s buf
    if rc = .yes ∧ cfg.handler = false then
      let s := concatenateChunks s
      (if s.ms = .footers then .more else .yes, s, rest)
    else (rc, s, rest)
  | .content => consumeContent cfg s buf
  | .noLength =>
    let (s, rest) := consumeAsNextChunk cfg s buf
    (.more, s, rest)
  | .end_ => (.yes, s, buf)

/-- The `do ... while` loop of `parse` (/repo/src/http_parser.cpp:68-116): result, state, unread bytes and
    `total_bytes_parsed`. `none`: out of fuel. -/
def parseLoop (cfg : Cfg) : Nat → S → Bytes → Nat → Option (Tri × S × Bytes × Nat)
  | 0, _, _, _ => none
  | fuel + 1, s, buf, total =>
    let (rc, s', rest) := iter cfg s buf
    let total := if s.ms = .end_ then total else total + s'.lastRead
    if rc = .more ∧ rest ≠ [] then parseLoop cfg fuel s' rest total
    else some (rc, s', rest, total)

/-- The part of `parse` after the loop (/repo/src/http_parser.cpp:118-131). -/
def parseEnd (cfg : Cfg) (rc : Tri) (s : S) (total : Nat) : S :=
  let s := match rc with
    | .yes => finish cfg { s with ms := .end_ }
    | .no => { s with msg := computeStatus s.msg false }
    | .more => s
  { s with lastRead := total }

/-- The part of `parse` before the loop (/repo/src/http_parser.cpp:63-66). -/
def parseBegin (s : S) : S :=
  if s.msg.missing then { s with msg := { s.msg with afterMissing := true } } else s

/-- `parser::parse` (/repo/src/http_parser.cpp:55-132) on a nonempty buffer: result, state, unread bytes.
    `none` means that the loop did not end (shown impossible in Props/HttpParser). -/
def parse (cfg : Cfg) (s : S) (buf : Bytes) : Option (Tri × S × Bytes) :=
  (parseLoop cfg 4 (parseBegin s) buf 0).map fun (rc, s, rest, total) => (rc, parseEnd cfg rc s total, rest)

/-- The caller's loop: feed buffers one after another while the parser wants more (as in
    /repo/src/http_message.cpp:75-102 and /repo/src/http_reader.cpp). Result: last result, state, unread bytes
    of the current buffer, unused buffers. -/
def feed (cfg : Cfg) (s : S) : List Bytes → Option (Tri × S × Bytes × List Bytes)
  | [] => some (.more, s, [], [])
  | buf :: more =>
    match parse cfg s buf with
    | none => none
    | some (.more, s', _) => feed cfg s' more
    | some (rc, s', rest) => some (rc, s', rest, more)

/-- `parser::check_premature_eof` (/repo/include/pion/http/parser.hpp:209-216). -/
def checkPrematureEof (cfg : Cfg) (s : S) : Bool × S :=
  if s.ms ≠ .noLength then (true, s)
  else (false, finish cfg (concatenateChunks { s with ms := .end_ }))

/-- `'X'`, the filler byte (/repo/src/http_parser.cpp:137). -/
def MISSING : UInt8 := c! "X"

/-- Append `len` filler bytes to the payload or, up to the maximum content length, to the chunk cache
    (/repo/src/http_parser.cpp:161-167, 222-228). -/
def fillCache (cfg : Cfg) (s : S) (len : Nat) : S :=
  if cfg.handler then { s with payload := s.payload ++ List.replicate len MISSING }
  else { s with msg := { s.msg with chunkCache :=
    s.msg.chunkCache ++ List.replicate (min len (cfg.maxContent - s.msg.chunkCache.length)) MISSING } }

/-- The `switch` of `parse_missing_data` (/repo/src/http_parser.cpp:142-236). -/
def missingStep (cfg : Cfg) (s : S) (len : Nat) : Tri × S :=
  match s.ms with
  | .start | .headers | .footers => (.no, { s with ec := some .missingHeaderData })
  | .chunks =>
    if s.cs = .chunk ∧ s.chunkRead < s.chunkSize ∧ len ≤ s.chunkSize - s.chunkRead then
      let s := fillCache cfg s len
      let s := { s with chunkRead := s.chunkRead + len, lastRead := len, totalRead := s.totalRead + len,
                        contentRead := s.contentRead + len }
      (.more, if s.chunkRead = s.chunkSize then { s with cs := .expCrAfterChunk } else s)
    else (.no, { s with ec := some .missingChunkData })
  | .content =>
    if s.remaining = 0 then (.yes, s)
    else if s.remaining < len then (.no, { s with ec := some .missingTooMuchContent })
    else
      let s := if cfg.handler then { s with payload := s.payload ++ List.replicate len MISSING }
        else if s.contentRead + len ≤ cfg.maxContent then
          { blit s s.contentRead (List.replicate len MISSING) with contentRead := s.contentRead + len }
        else { s with contentRead := s.contentRead + len }
      let s := { s with remaining := s.remaining - len, totalRead := s.totalRead + len, lastRead := len }
      (if s.remaining = 0 then .yes else .more, s)
  | .noLength =>
    let s := fillCache cfg s len
    (.more, { s with lastRead := len, totalRead := s.totalRead + len, contentRead := s.contentRead + len })
  | .end_ => (.yes, s)

/-- `parser::parse_missing_data` (/repo/src/http_parser.cpp:134-246). -/
def parseMissing (cfg : Cfg) (s : S) (len : Nat) : Tri × S :=
  match missingStep cfg { s with msg := { s.msg with missing := true } } len with
  | (.yes, s) => (.yes, finish cfg { s with ms := .end_ })
  | (.no, s) => (.no, { s with msg := computeStatus s.msg false })
  | (.more, s) => (.more, s)

end Verif.Http
