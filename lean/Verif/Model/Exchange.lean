import Verif.Model.Writer
/-
Model of one connection of an HTTP server with everything that happens on it at the same time: the reader
(/repo/src/http_reader.cpp), `http::server::handle_request` with its request handlers, the writes they start
(/repo/include/pion/http/writer.hpp), the functions called when a write ends, and `tcp::server::finish_connection`
(/repo/src/tcp_server.cpp:247-267), which gives the connection to a new reader.

A handler is any code; what matters of it is what it does with the connection (`Prog`). The threads of the scheduler are
not distinguished: any number of calls can be under way, and each step is one of one of them. What the bytes mean is not
modelled here (C27, C65, C75): a request is a number, and the answers are arbitrary bytes.
-/
namespace Verif.Exchange
open Verif.Writer (Lifecycle)

/-- What a function does with the connection: nothing more; throw an exception (`true`: one that `handle_request` recovers
    from, a `std::exception` but `std::bad_alloc` or a `boost::exception`, /repo/src/http_server.cpp:109-120); start to send
    bytes with an `http::writer` and then do `next`; or call `connection::finish`. `ok` is the function called when the bytes
    have been sent, `failed` the one called when that fails, or instead of sending if the connection is not open
    (/repo/include/pion/http/writer.hpp:166-182, 266-281). Simplification: the last two, the function given to `send` and the
    one given to the constructor of the writer, are the same. -/
inductive Prog where
  | done
  | throw (recovers : Bool)
  | send (bytes : Bytes) (ok failed next : Prog)
  | finish (next : Prog)
  deriving Repr, DecidableEq

/-- One after the other, in the same call. -/
def Prog.seq : Prog → Prog → Prog
  | .done, q => q
  | .throw r, _ => .throw r
  | .send b ok failed next, q => .send b ok failed (next.seq q)
  | .finish next, q => .finish (next.seq q)

/-- What the handlers of the library do: the answer is written, sent with `send()`, and `connection::finish` is called at its end
    (e.g. /repo/src/http_server.cpp:183-200, /repo/services/EchoService.cpp:49-53, 122). -/
def reply (b : Bytes) : Prog := .send b (.finish .done) (.finish .done) .done

/-- What `DiskFileSender` does with a file of several pieces (/repo/services/FileService.cpp:842-981): the next piece is sent when
    the one before has been sent. -/
def parts : List Bytes → Prog
  | [] => .finish .done
  | b :: rest => .send b (parts rest) (.finish .done) .done

/-- The same if the file cannot be opened, or cannot be read after these pieces: an error is logged, and that is all
    (/repo/services/FileService.cpp:868-878, 890-908). -/
def cut : List Bytes → Prog
  | [] => .done
  | b :: rest => .send b (cut rest) (.finish .done) .done

/-- A write that has not been completed: for which request, the bytes not yet sent, and the functions to call. -/
structure Write where
  req : Nat
  rest : Bytes
  ok : Prog
  failed : Prog
  deriving Repr, DecidableEq

/-- A call under way: for which request, what it has still to do; whether it is called by `handle_request` (in its `try`,
    /repo/src/http_server.cpp:102); and, if it is called by a `finish_connection` that handles pipelined requests, the call of
    that. -/
structure Call where
  req : Nat
  prog : Prog
  guarded : Bool := false
  outer : Option (Nat × Prog × Bool) := none
  deriving Repr, DecidableEq

/-- What is seen from outside: a request is given to `handle_request`; `finish` is called for it. -/
inductive Ev where
  | request (n : Nat)
  | finish (n : Nat)
  deriving Repr, DecidableEq

/-- The connection, and of its server `m_is_listening` and whether `m_mutex` is held by a call of `finish_connection` that
    handles a pipelined request. `next` is the number of requests received so far; `broken`: the client receives nothing more;
    `wire`: the bytes that were sent. -/
structure St where
  listening : Bool := true
  held : Bool := false
  isOpen : Bool := true
  broken : Bool := false
  pooled : Bool := true
  lifecycle : Lifecycle := .close
  next : Nat := 0
  readers : Nat := 1
  writes : List Write := []
  calls : List Call := []
  wire : Bytes := []
  log : List Ev := []
  deriving Repr, DecidableEq

/-- The handler called for each request, what the lifecycle of the connection is after reading it, and the page of the error
    handler if the handler of it throws. -/
structure World where
  prog : Nat → Prog
  life : Nat → Lifecycle
  page : Nat → Bytes

inductive Act where
  /-- the reader has got a complete request, or one that is answered as a bad one -/
  | arrive
  /-- reading fails -/
  | readFails
  /-- a call goes on. `whole`: if it finishes a pipelined connection, the bytes already read have a complete request -/
  | call (i : Nat) (whole : Bool)
  /-- some bytes of a write are sent -/
  | write (i k : Nat)
  | writeEnds (i : Nat)
  | writeFails (i : Nat)
  /-- `server::stop`; `now`: with `wait_until_finished` = false -/
  | stop (now : Bool)
  /-- the server is started again -/
  | start
  /-- somebody closes the connection -/
  | close
  /-- `prune_connections`: another connection is waited for, or `stop` waits for connections -/
  | prune
  /-- some other use of the mutex of the server: another connection is accepted or finished, `get_connections`, ... -/
  | other
  deriving Repr, DecidableEq

/-- `finish_connection` (/repo/src/tcp_server.cpp:247-267) with `http::server::handle_connection` (/repo/src/http_server.cpp:27-34)
    and `reader::receive` (/repo/src/http_reader.cpp:27-39), called by `c`, which does `next` afterwards: gives the call as it
    goes on. If the connection is pipelined the parser goes on with the bytes that are there, and if they contain a whole
    request it is handled at once, with the mutex held. The connection object is closed with its last reference, not here. -/
def St.finish (w : World) (s : St) (c : Call) (next : Prog) (whole : Bool) : St × Call :=
  let s : St := { s with log := s.log ++ [.finish c.req] }
  if s.listening && s.lifecycle != .close then
    if s.lifecycle == .pipelined && whole then
      ({ s with held := true, lifecycle := w.life s.next, next := s.next + 1, log := s.log ++ [.request s.next] },
        { req := s.next, prog := w.prog s.next, guarded := true, outer := some (c.req, next, c.guarded) })
    else ({ s with lifecycle := .close, readers := s.readers + 1 }, { c with prog := next })
  else ({ s with pooled := false }, { c with prog := next })

/-- One step of a call; `none` if it has to wait for the mutex. The call is gone after its end. -/
def St.go (w : World) (s : St) (c : Call) (whole : Bool) : Option (St × Option Call) :=
  match c.prog with
  -- the call returns; if it was called by `finish_connection`, the mutex is unlocked
  | .done => match c.outer with
    | some (req, prog, guarded) => some ({ s with held := false }, some { req, prog, guarded })
    | none => some (s, none)
  -- /repo/src/http_server.cpp:109-120, or the exception goes on to the caller, at last to `process_service_work`
  -- (/repo/src/scheduler.cpp:108-118)
  | .throw r =>
    if c.guarded && r then some (s, some { c with prog := reply (w.page c.req), guarded := false })
    else match c.outer with
      | some (req, _, guarded) => some ({ s with held := false }, some { req, prog := .throw r, guarded })
      | none => some (s, none)
  -- /repo/include/pion/http/writer.hpp:266-281
  | .send b ok failed next =>
    if s.isOpen then
      some ({ s with writes := s.writes ++ [{ req := c.req, rest := b, ok, failed }] }, some { c with prog := next })
    else some (s, some { c with prog := failed.seq next })
  | .finish next =>
    if s.held then none else
    let (s, c) := s.finish w c next whole
    some (s, some c)

/-- One step; `none` if it cannot happen. -/
def St.step (w : World) (s : St) : Act → Option St
  -- /repo/src/http_reader.cpp:69-124, /repo/src/http_server.cpp:36-43
  | .arrive =>
    if 0 < s.readers ∧ s.isOpen then
      some { s with
        readers := s.readers - 1, lifecycle := w.life s.next, next := s.next + 1, log := s.log ++ [.request s.next]
        calls := s.calls ++ [{ req := s.next, prog := w.prog s.next, guarded := true }] }
    else none
  -- /repo/src/http_reader.cpp:137-170, /repo/src/http_server.cpp:40-58
  | .readFails =>
    if 0 < s.readers then
      some { s with
        readers := s.readers - 1, lifecycle := .close, calls := s.calls ++ [{ req := s.next, prog := .finish .done }] }
    else none
  | .call i whole => match s.calls[i]? with
    | none => none
    | some c => match s.go w c whole with
      | none => none
      | some (s', some c') => some { s' with calls := s.calls.set i c' }
      | some (s', none) => some { s' with calls := s.calls.eraseIdx i }
  -- asio: `async_write` sends the buffers with as many writes to the socket as it needs
  | .write i k => match s.writes[i]? with
    | none => none
    | some x =>
      if s.isOpen ∧ s.broken = false then
        some { s with wire := s.wire ++ x.rest.take k, writes := s.writes.set i { x with rest := x.rest.drop k } }
      else none
  | .writeEnds i => match s.writes[i]? with
    | none => none
    | some x =>
      if x.rest = [] then
        some { s with writes := s.writes.eraseIdx i, calls := s.calls ++ [{ req := x.req, prog := x.ok }] }
      else none
  | .writeFails i => match s.writes[i]? with
    | none => none
    | some x =>
      some { s with
        broken := true, writes := s.writes.eraseIdx i, calls := s.calls ++ [{ req := x.req, prog := x.failed }] }
  -- /repo/src/tcp_server.cpp:113-130
  | .stop now => if s.held then none else some { s with listening := false, isOpen := s.isOpen && !(now && s.pooled) }
  | .start => if s.held then none else some { s with listening := true }
  | .close => some { s with isOpen := false }
  -- /repo/src/tcp_server.cpp:269-288, called at 135 and 186: readers, writes and calls have references to the connection
  | .prune =>
    if s.held then none
    else if s.pooled ∧ s.readers = 0 ∧ s.writes = [] ∧ s.calls = [] then some { s with isOpen := false, pooled := false }
    else some s
  | .other => if s.held then none else some s

/-- A sequence of steps. -/
def St.run (w : World) (s : St) : List Act → Option St
  | [] => some s
  | a :: as => match s.step w a with
    | none => none
    | some s' => s'.run w as

/-- A new connection (/repo/src/tcp_server.cpp:199-230): a reader waits for the first request. -/
def run (w : World) (as : List Act) : Option St := ({} : St).run w as

end Verif.Exchange
