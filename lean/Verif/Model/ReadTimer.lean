import Verif.Model.Timer
/-
Model of the time limit for reads of `http::reader` (/repo/src/http_reader.cpp:27-68, 127-164) on a connection over its
whole life: any number of messages, each read with a new reader, with writes in between. The timers are those of
Model.Timer, whose calls hold the mutex of the timer; callbacks of timers may run on other threads at any moment.

What the bytes say is left open: after each read the parser may have finished the message or want more.
-/
namespace Verif.ReadTimer

/-- How an operation of the socket ends: with bytes (or all bytes written), with an error, or cancelled
    (`operation_aborted`). -/
inductive Result where
  | data | failed | aborted
  deriving Repr, DecidableEq

inductive Kind where
  | read | write
  deriving Repr, DecidableEq

/-- The operation of the socket: a completed operation waits for its handler to be called. -/
inductive Op where
  | idle
  | pending (k : Kind)
  | complete (k : Kind) (r : Result)
  deriving Repr, DecidableEq

/-- Where the code for the connection is. -/
inductive Phase where
  /-- no reader is at work: before `receive`, or the message was handed over by `finished_reading` -/
  | user
  /-- in `read_bytes_with_timeout`, before `read_bytes` (/repo/src/http_reader.cpp:135) -/
  | armed
  /-- the read was begun and its handler has not been called -/
  | waiting
  /-- in `consume_bytes()` (/repo/src/http_reader.cpp:70) -/
  | parsing
  deriving Repr, DecidableEq

/-- What happens, in order, with times. -/
inductive Ev where
  /-- `read_bytes_with_timeout` is called: the reader needs bytes -/
  | asked (t : Nat)
  /-- bytes arrive for the pending read -/
  | arrived (t : Nat)
  /-- the handler of the read is called -/
  | got (t : Nat) (r : Result)
  /-- `finished_reading` -/
  | told (t : Nat)
  /-- a timer calls `cancel()` of the connection (/repo/src/tcp_timer.cpp:48) -/
  | cancelled (t : Nat)
  /-- which aborts this operation -/
  | aborted (t : Nat) (k : Kind)
  /-- the handler of a write is called -/
  | wrote (t : Nat) (r : Result)
  deriving Repr, DecidableEq

/-- `timers`: all that were created, kept alive by their waits; `cur`: `m_timer_ptr` of the reader. -/
structure St where
  now : Nat := 0
  timers : List Timer.St := []
  cur : Option Nat := none
  op : Op := .idle
  phase : Phase := .user
  log : List Ev := []
  deriving Repr, DecidableEq

inductive Act where
  /-- `receive()`, with or without bytes left from the last read -/
  | receive (pipelined : Bool)
  /-- `read_bytes()` -/
  | begin
  /-- bytes arrive; the pending operation fails -/
  | arrive | fail
  /-- the handler of the read: `consume_bytes(read_error, bytes_read)` -/
  | handle
  /-- the parser needs more bytes; the message is finished or wrong -/
  | more | finish
  /-- the user of the connection writes; everything is written; the handler of the write -/
  | write | sent | handleWrite
  /-- time passes; the wait of timer `k` expires; its callback is called -/
  | tick (seconds : Nat) | expire (k : Nat) | callback (k : Nat)
  deriving Repr, DecidableEq

/-- `read_bytes_with_timeout` up to `read_bytes` (/repo/src/http_reader.cpp:127-134). `timeout` is `m_read_timeout`. -/
def St.ask (timeout : Nat) (s : St) : St :=
  let s : St := { s with phase := .armed, log := s.log ++ [.asked s.now] }
  if timeout > 0 then
    { s with timers := s.timers ++ [({ now := s.now } : Timer.St).start timeout], cur := some s.timers.length }
  else { s with cur := none }

/-- `connection::cancel()` (/repo/include/pion/tcp/connection.hpp:170-181): pending operations complete as aborted; one
    that has completed before is not changed. -/
def St.cancelConn (s : St) : St :=
  let s : St := { s with log := s.log ++ [.cancelled s.now] }
  match s.op with
  | .pending k => { s with op := .complete k .aborted, log := s.log ++ [.aborted s.now k] }
  | _ => s

/-- `m_timer_ptr->cancel(); m_timer_ptr.reset()` (/repo/src/http_reader.cpp:45-48). -/
def St.disarm (s : St) : St :=
  match s.cur with
  | none => s
  | some k => { s with timers := s.timers.modify k Timer.St.cancel, cur := none }

/-- `none`: impossible now. -/
def St.step (timeout : Nat) (s : St) : Act → Option St
  | .receive pipelined =>
    if s.phase = .user ∧ s.op = .idle then some (if pipelined then { s with phase := .parsing } else s.ask timeout) else none
  | .begin => if s.phase = .armed then some { s with phase := .waiting, op := .pending .read } else none
  | .arrive => if s.op = .pending .read then some { s with op := .complete .read .data, log := s.log ++ [.arrived s.now] } else none
  | .fail => match s.op with
    | .pending k => some { s with op := .complete k .failed }
    | _ => none
  -- /repo/src/http_reader.cpp:41-68, 138-164
  | .handle => match s.op with
    | .complete .read r =>
      let s : St := { s.disarm with op := .idle, log := s.log ++ [.got s.now r] }
      some (if r = .data then { s with phase := .parsing } else { s with phase := .user, log := s.log ++ [.told s.now] })
    | _ => none
  | .more => if s.phase = .parsing then some (s.ask timeout) else none
  | .finish => if s.phase = .parsing then some { s with phase := .user, log := s.log ++ [.told s.now] } else none
  | .write => if s.phase = .user ∧ s.op = .idle then some { s with op := .pending .write } else none
  | .sent => if s.op = .pending .write then some { s with op := .complete .write .data } else none
  | .handleWrite => match s.op with
    | .complete .write r => some { s with op := .idle, log := s.log ++ [.wrote s.now r] }
    | _ => none
  | .tick n => some { s with now := s.now + n, timers := s.timers.map (·.step (.tick n)) }
  | .expire k => match s.timers[k]? with
    | none => none
    | some t => if t.pending > 0 ∧ t.deadline ≤ t.now then some { s with timers := s.timers.set k t.expire } else none
  | .callback k => match s.timers[k]? with
    | none => none
    | some t =>
      if t.queued > 0 then
        let s : St := { s with timers := s.timers.set k t.callback }
        some (if t.cancelled then s else s.cancelConn)
      else none

/-- Any course of events on a new connection. -/
def run (timeout : Nat) (l : List Act) : Option St := l.foldlM (St.step timeout) {}

end Verif.ReadTimer
