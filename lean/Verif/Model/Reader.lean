import Verif.Model.MessageIo
import Verif.Model.Writer
import Verif.Spec.HttpOutcome
/-
Model of receiving a message from a connection: `http::reader` (/repo/src/http_reader.cpp:27-164) and
`message::receive` (/repo/src/http_message.cpp:48-141).
-/
namespace Verif.Reader
open Verif.Http
open Verif.Writer (Lifecycle)

/-- The state of a `tcp::connection` that matters between messages: `m_lifecycle` and the saved read position, i.e.
    the bytes `[m_read_position.first, m_read_position.second)` (/repo/include/pion/tcp/connection.hpp:46-48,
    600-636). -/
structure Conn where
  lifecycle : Lifecycle := .close
  saved : Bytes := []
  deriving Repr, DecidableEq

/-- What a read from the socket gives: some bytes, or an error (end of file, abort, timeout). -/
inductive Read where
  | data (buf : Bytes)
  | error
  deriving Repr, DecidableEq

/-- State of a receive operation: `finished_reading(ec)` was called, with or without an error, or a read is
    pending. -/
inductive Status where
  | done (error : Bool)
  | waiting
  deriving Repr, DecidableEq

/-- The decision on the connection after a complete message (/repo/src/http_reader.cpp:91-111 and
    /repo/src/http_message.cpp:110-128); `unread` is the rest of the read buffer. -/
def afterMessage (ord : Dict.Order) (c : Conn) (m : Msg) (unread : Bytes) : Conn :=
  if m.checkKeepAlive ord then
    if unread.isEmpty then { c with lifecycle := .keepAlive }
    else { lifecycle := .pipelined, saved := unread }
  else { c with lifecycle := .close }

/-- `message::set_is_valid(false)` on the message being read. -/
def invalidate (s : S) : S := { s with msg := { s.msg with isValid := false } }

/-- `reader::consume_bytes()` (/repo/src/http_reader.cpp:70-125). `none`: the parser does not return. -/
def consume (cfg : Cfg) (c : Conn) (s : S) (buf : Bytes) : Option (Conn × S × Status) :=
  match parse cfg s buf with
  | none => none
  | some (.yes, s, rest) => some (afterMessage cfg.ord c s.msg rest, s, .done s.ec.isSome)
  | some (.no, s, _) => some ({ c with lifecycle := .close }, invalidate s, .done s.ec.isSome)
  | some (.more, s, _) => some (c, s, .waiting)

/-- Reading and consuming until the message is finished: `read_bytes_with_timeout`,
    `consume_bytes(read_error, bytes_read)` (/repo/src/http_reader.cpp:41-67,127-136) and `handle_read_error`
    (/repo/src/http_reader.cpp:138-164). The list is what the socket delivers; the last component of the result is
    what was not read. The read timer is not modelled here: a timeout appears as an error. -/
def readMore (cfg : Cfg) (c : Conn) (s : S) : List Read → Option (Conn × S × Status × List Read)
  | [] => some (c, s, .waiting, [])
  | .error :: more =>
    some ({ c with lifecycle := .close }, (checkPrematureEof cfg s).2, .done (checkPrematureEof cfg s).1, more)
  | .data [] :: more => some (c, s, .done true, more)
  | .data (b :: bs) :: more =>
    match consume cfg c s (b :: bs) with
    | none => none
    | some (c, s, .waiting) => readMore cfg c s more
    | some (c, s, st) => some (c, s, st, more)

/-- `reader::receive` (/repo/src/http_reader.cpp:27-39). -/
def receive (cfg : Cfg) (c : Conn) (s : S) (reads : List Read) : Option (Conn × S × Status × List Read) :=
  if c.lifecycle = .pipelined then
    match consume cfg { c with lifecycle := .close } s c.saved with
    | none => none
    | some (c, s, .waiting) => readMore cfg c s reads
    | some (c, s, st) => some (c, s, st, reads)
  else readMore cfg { c with lifecycle := .close } s reads

/-- What the user of a reader is told about a message: whether there was an error, and the message. -/
structure Got where
  error : Bool
  message : Msg
  deriving Repr, DecidableEq

/-- A server on one connection: a new reader for each message; after the response the connection is closed, or
    used for the next message if `get_keep_alive()` (/repo/src/http_server.cpp:29-36 and
    `server::finish_connection`, /repo/src/tcp_server.cpp:247-267, of a listening server). At most `n` messages are
    received; `m` is the message each reader starts with. Handlers that change the lifecycle themselves are not
    modelled. -/
def serve (cfg : Cfg) (m : Msg) : Nat → Conn → List Read → Option (List Got)
  | 0, _, _ => some []
  | n + 1, c, reads =>
    match receive cfg c (fresh cfg m) reads with
    | none => none
    | some (_, _, .waiting, _) => some []
    | some (c, s, .done e, reads) =>
      if c.lifecycle = .close then some [⟨e, s.msg⟩]
      else (serve cfg m n c reads).map (⟨e, s.msg⟩ :: ·)

/-! ### The blocking variant -/

/-- One round of the loop of `message::receive` (/repo/src/http_message.cpp:75-78), with what follows the loop if it
    is left (/repo/src/http_message.cpp:104-140). The caller's `ec` is without an error before the call. -/
def syncStep (cfg : Cfg) (c : Conn) (s : S) (buf : Bytes) : Option (Conn × S × Status) :=
  match parse cfg s buf with
  | none => none
  | some (.no, s, _) => some (c, s, .done s.ec.isSome)
  | some (.yes, s, rest) =>
    some (if s.msg.checkKeepAlive cfg.ord then afterMessage cfg.ord c s.msg rest
      else { lifecycle := .close, saved := if cfg.headersOnly then rest else c.saved }, s, .done s.ec.isSome)
  | some (.more, s, _) => some (c, s, .waiting)

/-- The end of the stream in the loop of `message::receive` (/repo/src/http_message.cpp:82-98,126-138). -/
def syncEof (cfg : Cfg) (c : Conn) (s : S) : Conn × S × Status :=
  if (checkPrematureEof cfg s).1 then (c, (checkPrematureEof cfg s).2, .done true)
  else ({ lifecycle := .close, saved := if cfg.headersOnly then [] else c.saved }, (checkPrematureEof cfg s).2,
    .done false)

/-- The loop of `message::receive` (/repo/src/http_message.cpp:75-102), with the bytes in the buffer and what the
    socket delivers next. An error or 0 bytes is the end of the stream. -/
def syncLoop (cfg : Cfg) (c : Conn) : S → Bytes → List Read → Option (Conn × S × Status × List Read)
  | s, buf, [] => (syncStep cfg c s buf).map fun (c, s, st) => (c, s, st, [])
  | s, buf, r :: more =>
    match syncStep cfg c s buf with
    | none => none
    | some (_, s, .waiting) =>
      match r with
      | .data (b :: bs) => syncLoop cfg c s (b :: bs) more
      | _ => some ((syncEof cfg c s).1, (syncEof cfg c s).2.1, (syncEof cfg c s).2.2, more)
    | some (c, s, st) => some (c, s, st, r :: more)

/-- `message::receive(tcp_conn, ec, parser)` with a new parser (/repo/src/http_message.cpp:48-141). -/
def syncReceive (cfg : Cfg) (c : Conn) (m : Msg) (reads : List Read) : Option (Conn × S × Status × List Read) :=
  if c.lifecycle = .pipelined then syncLoop cfg c (fresh cfg (m.clear cfg.isRequest)) c.saved reads
  else
    match reads with
    | [] => some (c, fresh cfg (m.clear cfg.isRequest), .waiting, [])
    | .data buf :: more => syncLoop cfg c (fresh cfg (m.clear cfg.isRequest)) buf more
    | .error :: more => some (c, fresh cfg (m.clear cfg.isRequest), .done true, more)

end Verif.Reader
