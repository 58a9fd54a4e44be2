import Verif.Model.Writer
/-
Model of `DiskFileSender` (/repo/services/FileService.cpp:812-992, /repo/services/FileService.hpp:130-227).
-/
namespace Verif.FileSender
open Verif.Writer

/-- The sender. `cached` is the content kept with the file, `disk` the content of the file on disk (`none` if it cannot be
    opened), which does not change while it is sent; the stream's position is `sent`. `buf` is the size of
    `m_content_buf` once it is allocated. -/
structure Sender where
  size : Nat
  cached : Option Bytes
  disk : Option Bytes
  maxChunk : Nat
  toSend : Nat := 0
  sent : Nat := 0
  buf : Option Nat := none
  deriving Repr, DecidableEq

/-- What a call of `send` comes to: a write that will be followed by `handle_write`, the calls on the writer being given;
    `writer.send()` without a handler of the sender; nothing at all; or reading or writing beyond a buffer. -/
inductive SendOut where
  | writing (s : Sender) (ops : List Op)
  | empty
  | gaveUp
  | overrun
  deriving Repr, DecidableEq

/-- The content to send (/repo/services/FileService.cpp:856-912). -/
inductive Block where
  | ok (s : Sender) (d : Bytes)
  | gaveUp
  | overrun
  deriving Repr, DecidableEq

def block (s : Sender) : Block :=
  match s.cached with
  | some c => if c.length < s.sent + s.toSend then .overrun else .ok s ((c.drop s.sent).take s.toSend)
  | none =>
    match s.disk with
    | none => .gaveUp
    | some f =>
      let s := { s with buf := some (s.buf.getD s.toSend) }
      if s.buf.getD 0 < s.toSend then .overrun
      else if f.length < s.sent + s.toSend then .gaveUp
      else .ok s ((f.drop s.sent).take s.toSend)

/-- `send` (/repo/services/FileService.cpp:842-936). -/
def send (s : Sender) : SendOut :=
  if s.size ≤ s.sent then .empty
  else
    let n := s.size - s.sent
    let s := { s with toSend := if 0 < s.maxChunk ∧ s.maxChunk < n then s.maxChunk else n }
    match block s with
    | .gaveUp => .gaveUp
    | .overrun => .overrun
    | .ok s d =>
      let how := if s.size ≤ s.sent + s.toSend then (if 0 < s.sent then .sendFinal else .send) else .sendChunk
      .writing s [.buffer d, how]

/-- How a write ends: the connection was not open when the writer was called
    (/repo/include/pion/http/writer.hpp:270-280); the handler is called with an error; or without. -/
inductive Write where
  | notOpen | error | ok
  deriving Repr, DecidableEq

/-- What can be seen from outside: the calls on the writer; the lifecycle set to LIFECYCLE_CLOSE; `connection::finish`. -/
inductive Ev where
  | call (op : Op)
  | close
  | finish
  deriving Repr, DecidableEq

/-- The end of what has happened so far: a write is going on, the connection is finished, nothing goes on any more
    and it is not finished, or a buffer was overrun. -/
inductive End where
  | writing | finished | gaveUp | overrun
  deriving Repr, DecidableEq

/-- `send`, `handle_write` (/repo/services/FileService.cpp:938-978) and so on; the list says how the writes end, as far as
    they have. A writer that has no open connection, or whose `send` was called without a handler, calls the handler
    given to its constructor, which is `connection::finish` (/repo/services/FileService.cpp:817,
    /repo/include/pion/http/response_writer.hpp:150-167). -/
def deliver : List Write → Sender → List Ev × End
  | ws, s =>
    match send s with
    | .gaveUp => ([], .gaveUp)
    | .overrun => ([], .overrun)
    | .empty =>
      match ws with
      | [] => ([.call .send], .writing)
      | _ :: _ => ([.call .send, .finish], .finished)
    | .writing s ops =>
      match ws with
      | [] => (ops.map .call, .writing)
      | .notOpen :: _ => (ops.map .call ++ [.finish], .finished)
      | .error :: _ => (ops.map .call ++ [.close, .finish], .finished)
      | .ok :: ws =>
        let s := { s with sent := s.sent + s.toSend }
        if s.size ≤ s.sent then (ops.map .call ++ [.finish], .finished)
        else
          let (es, e) := deliver ws s
          (ops.map .call ++ .call .clear :: es, e)

end Verif.FileSender
