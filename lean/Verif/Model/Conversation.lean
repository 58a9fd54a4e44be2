import Verif.Model.Reader
import Verif.Model.Responses
/-
A whole conversation over one connection: the server reads requests and answers each before it reads the next
(`http::server`, /repo/src/http_server.cpp:29-130; `tcp::server::finish_connection`, /repo/src/tcp_server.cpp:247-267),
the client reads one response per request (`http::response_reader`).
-/
namespace Verif.Conversation
open Verif.Http Verif.Reader Verif.Responses
open Verif.Writer (Lifecycle)

/-- One message the server received and the bytes it sent back; `none`: the connection is finished without an answer. -/
structure Exchange where
  got : Got
  response : Option Bytes
  deriving Repr, DecidableEq

/-- How a handler answers: it changes the response as in `reply` and writes. With `chunks = none` it then calls `send`
    once. With `chunks = some cs` it writes and sends each part of `cs` with `send_chunk`, calling `clear` before the next one
    (as /repo/services/FileService.cpp:932, 965 does), then writes what is in `reply` and calls `send_final_chunk`. -/
structure Answer where
  reply : Reply
  chunks : Option (List (List Writer.Op)) := none

/-- The calls after the response has been changed. -/
def Answer.calls (a : Answer) : List Writer.Op :=
  match a.chunks with
  | none => a.reply.writes ++ [.send]
  | some cs => (cs.map (· ++ [.sendChunk, .clear])).flatten ++ (a.reply.writes ++ [.sendFinal])

/-- The writer at the end; as `Reply.writer`. -/
def Answer.writer (t : TableOrder) (req : Msg) (lc : Lifecycle) (a : Answer) : Writer.W :=
  Writer.run t { Writer.newResponseWriterFor req lc with
    msg := { Writer.responseTo req with
      statusCode := a.reply.code, statusMessage := a.reply.text, headers := a.reply.headers } } a.calls

/-- `server::handle_request` (/repo/src/http_server.cpp:38-62, 64-130): a faulty request is answered by the bad request
    handler if the parser found the fault (`parserError`: the error code is of the parser's category), and by nothing if
    the connection failed; the connection will be closed. A valid request is answered by a handler; redirection,
    authentication and the choice of the handler (models `Server`, `Auth`) are all in `answer`, which
    must send one response through a writer for the request. `lc`: the lifecycle the reader has set. -/
def respond (t : TableOrder) (answer : Msg → Answer) (parserError : Bool) (g : Got) (lc : Lifecycle) : Option Writer.W :=
  if g.error || !g.message.isValid then
    if parserError then some (badRequest.writer t g.message .close) else none
  else some ((answer g.message).writer t g.message lc)

/-- A server on one connection, with its answers: as `Reader.serve`, but the lifecycle is the one the writer has left:
    `send_chunk` to a client that does not know of chunks changes it (/repo/include/pion/http/writer.hpp:195-204). At most `n`
    requests; `m` is the message each request reader starts with. That the response is written before the next request is read
    is how `tcp::connection::finish` is called (from the writer's finished handler). -/
def converse (cfg : Cfg) (m : Msg) (t : TableOrder) (answer : Msg → Answer) : Nat → Conn → List Read → Option (List Exchange)
  | 0, _, _ => some []
  | n + 1, c, reads =>
    match receive cfg c (fresh cfg m) reads with
    | none => none
    | some (_, _, .waiting, _) => some []
    | some (c, s, .done e, reads) =>
      let w := respond t answer s.ec.isSome ⟨e, s.msg⟩ c.lifecycle
      let c : Conn := { c with lifecycle := (w.map (·.lifecycle)).getD c.lifecycle }
      let x : Exchange := ⟨⟨e, s.msg⟩, w.map (·.wire)⟩
      if e || !s.msg.isValid then some [x]
      else if c.lifecycle = .close then some [x]
      else (converse cfg m t answer n c reads).map (x :: ·)

/-- A client on one connection: one `response_reader` per request it has sent
    (/repo/include/pion/http/response_reader.hpp:40-100); each starts with the response made from that request
    (`Writer.responseTo`). It goes on as long as the connection stays open. The result: what was received, the connection,
    and what was not read. -/
def collect (cfg : Cfg) : List Msg → Conn → List Read → Option (List Got × Conn × List Read)
  | [], c, reads => some ([], c, reads)
  | m :: ms, c, reads =>
    match receive cfg c (fresh cfg m) reads with
    | none => none
    | some (c, _, .waiting, reads) => some ([], c, reads)
    | some (c, s, .done e, reads) =>
      if c.lifecycle = .close then some ([⟨e, s.msg⟩], c, reads)
      else (collect cfg ms c reads).map fun r => (⟨e, s.msg⟩ :: r.1, r.2)

end Verif.Conversation
