import Verif.Base
/-
Model of `tcp::timer` (/repo/include/pion/tcp/timer.hpp, /repo/src/tcp_timer.cpp) on top of an asio `deadline_timer`.
The calls lock the timer's mutex, so each is one step; time and the completion of waits are steps of the environment.
-/
namespace Verif.Timer

/-- What happens around a timer, in order. -/
inductive Ev where
  /-- `start(seconds)` at a time -/
  | started (now seconds : Nat)
  /-- `cancel()` -/
  | cancelled
  /-- a wait completed because its time had come -/
  | expired (now : Nat)
  /-- `m_conn_ptr->cancel()` -/
  | connCancel
  deriving Repr, DecidableEq

/-- The members of the timer (/repo/include/pion/tcp/timer.hpp:62-74). Of the `deadline_timer`: its expiry time, the
    number of waits pending and the number of callbacks queued. Whether a wait was aborted or expired does not matter
    to the callback, which ignores its error code. Seconds are natural numbers. -/
structure St where
  now : Nat := 0
  deadline : Nat := 0
  pending : Nat := 0
  queued : Nat := 0
  active : Bool := false
  cancelled : Bool := false
  log : List Ev := []
  deriving Repr, DecidableEq

inductive Act where
  | start (seconds : Nat)
  | cancel
  | tick (seconds : Nat)
  | expire
  | callback
  deriving Repr, DecidableEq

/-- `timer::start` (/repo/src/tcp_timer.cpp:26-33). Setting an expiry time cancels the waits that are pending: their
    callbacks are queued (asio). -/
def St.start (s : St) (seconds : Nat) : St :=
  { s with
    active := true, deadline := s.now + seconds, queued := s.queued + s.pending, pending := 1,
    log := s.log ++ [.started s.now seconds] }

/-- `timer::cancel` (/repo/src/tcp_timer.cpp:35-41). -/
def St.cancel (s : St) : St :=
  let s := { s with cancelled := true, log := s.log ++ [Ev.cancelled] }
  if s.active then { s with queued := s.queued + s.pending, pending := 0 } else s

/-- asio: when the expiry time has come the callbacks of the pending waits are queued. -/
def St.expire (s : St) : St :=
  if s.pending > 0 ∧ s.deadline ≤ s.now then
    { s with queued := s.queued + s.pending, pending := 0, log := s.log ++ [.expired s.now] }
  else s

/-- `timer::timer_callback` (/repo/src/tcp_timer.cpp:43-49), when one is queued. -/
def St.callback (s : St) : St :=
  if s.queued > 0 then
    let s := { s with queued := s.queued - 1, active := false }
    if s.cancelled then s else { s with log := s.log ++ [.connCancel] }
  else s

def St.step (s : St) : Act → St
  | .start n => s.start n
  | .cancel => s.cancel
  | .tick n => { s with now := s.now + n }
  | .expire => s.expire
  | .callback => s.callback

/-- Any calls and events on a new timer (/repo/src/tcp_timer.cpp:20-24). -/
def run (l : List Act) : St := l.foldl St.step {}

end Verif.Timer
