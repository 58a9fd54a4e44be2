import Verif.Base
/-
Model of any number of `tcp::server` objects that share one scheduler (/repo/src/tcp_server.cpp,
/repo/include/pion/tcp/server.hpp, /repo/src/scheduler.cpp): the calls that start, stop, join and destroy the servers
and that start and shut down the scheduler, made by any threads, and the threads of the scheduler that run the handlers
of the connections.

Steps are the sections between the points at which a mutex is taken or released. Simplifications: the pool of a server
is the set of its connections that are not finished (C40, `pool_exact`); the look at `m_is_listening` in the accept
handler is one step with the one in `listen` (C40 has them apart); a connection that is kept alive waits for its next
request (C40, `keep_alive_deadlock`, has handlers that finish it at once); a server is the only kind of user the
scheduler has (C41 has users of any kind); binding succeeds.
-/
namespace Verif.ServerLife

/-- What has become of a connection object. -/
inductive Status where
  /-- not created yet -/
  | absent
  /-- `async_accept` is pending; the handler refers to the connection -/
  | accepting
  /-- an operation other than the accept is pending; its handler refers to the connection -/
  | waiting
  /-- a handler of the connection is running in thread `t` -/
  | handled (t : Nat)
  /-- only the pool refers to it -/
  | orphan
  /-- removed from the pool -/
  | finished
  deriving Repr, DecidableEq

/-- Where a thread is inside a call. Conditions can wake a thread at any time; the flag says that it was notified. -/
inductive Pc where
  | idle
  /-- in `start` of server `v`, about to call `listen` (/repo/src/tcp_server.cpp:104-105) -/
  | startListen (v : Nat)
  /-- in `start`, about to look whether the scheduler runs (/repo/src/tcp_server.cpp:108, /repo/src/scheduler.cpp:90) -/
  | startLook (v : Nat)
  /-- in `start`, about to call `startup` (/repo/src/scheduler.cpp:90) -/
  | startUp (v : Nat)
  /-- in `start`, about to count the server (/repo/src/scheduler.cpp:91-92) -/
  | startCount (v : Nat)
  /-- in the loop of `stop` (/repo/src/tcp_server.cpp:132-139); `gone`: called by the destructor -/
  | stopLoop (v : Nat) (gone : Bool)
  /-- in `join` of a server (/repo/src/tcp_server.cpp:156) -/
  | joinWait (v : Nat) (notified : Bool)
  /-- in `shutdown`, waiting for the users (/repo/src/scheduler.cpp:39) -/
  | shutWait (notified : Bool)
  /-- in `shutdown`, joining the threads with the mutex held (/repo/src/scheduler.cpp:43-47, 56-60) -/
  | shutJoin
  deriving Repr, DecidableEq

/-- Calls that have returned. `stopped v found`: a `stop` that had found the server listening, or had not. -/
inductive Ev where
  | started (v : Nat) | stopped (v : Nat) (found : Bool) | joined (v : Nat) | destroyed (v : Nat) | shutdown
  deriving Repr, DecidableEq

/-- `m_is_running`, `m_active_users` and whether the mutex of the scheduler is held by `shutdown`; `m_is_listening` of
    every server, and whether the server was destroyed; the connections with their servers, numbered in the order in
    which they are made; the threads; the calls that have returned. `bad`: a server was used that had been destroyed. -/
structure St where
  running : Bool := false
  users : UInt32 := 0
  held : Bool := false
  listening : Nat → Bool := fun _ => false
  gone : Nat → Bool := fun _ => false
  status : Nat → Status := fun _ => .absent
  owner : Nat → Nat := fun _ => 0
  next : Nat := 0
  pc : Nat → Pc := fun _ => .idle
  log : List Ev := []
  bad : Bool := false

inductive Act where
  | start (v : Nat)
  | stop (v : Nat)
  | join (v : Nat)
  | destroy (v : Nat)
  | startup
  | shutdown
  /-- a thread inside a call goes on -/
  | go
  /-- the accept of connection `c` completes -/
  | accept (c : Nat) (ok : Bool)
  /-- another operation of connection `c` completes -/
  | handle (c : Nat)
  /-- the handler returns, having begun another operation -/
  | await (c : Nat)
  /-- the handler finishes the connection; `keep`: its lifecycle says keep-alive -/
  | finish (c : Nat) (keep : Bool)
  /-- the handler returns and nothing refers to the connection any more -/
  | drop (c : Nat)
  deriving Repr, DecidableEq

def set {α : Type} (f : Nat → α) (i : Nat) (x : α) : Nat → α := fun j => if j = i then x else f j

/-- `m_no_more_active_users.notify_all()` (/repo/src/scheduler.cpp:99). -/
def notifyUsers (pc : Nat → Pc) : Nat → Pc := fun i => match pc i with
  | .shutWait _ => .shutWait true
  | p => p

/-- `m_server_has_stopped.notify_all()` of server `v` (/repo/src/tcp_server.cpp:146). -/
def notifyStopped (pc : Nat → Pc) (v : Nat) : Nat → Pc := fun i => match pc i with
  | .joinWait w n => .joinWait w (n || w == v)
  | p => p

/-- The use of a server (`this`): its memory must be there. -/
def St.use (s : St) (v : Nat) : St := { s with bad := s.bad || s.gone v }

/-- `listen` (/repo/src/tcp_server.cpp:173-197): orphans are closed, a connection is made and its accept begins. -/
def St.listen (s : St) (v : Nat) : St :=
  if s.listening v then
    let pruned := fun c => if s.status c = .orphan ∧ s.owner c = v then Status.finished else s.status c
    { s with status := set pruned s.next .accepting, owner := set s.owner s.next v, next := s.next + 1 }
  else s

/-- Connections of a server that `prune_connections` leaves in the pool (/repo/src/tcp_server.cpp:269-287). -/
def St.busy (s : St) (v : Nat) : Bool :=
  (List.range s.next).any fun c =>
    s.owner c == v && s.status c != .absent && s.status c != .finished && s.status c != .orphan

/-- One round of the loop of `stop` and what follows it (/repo/src/tcp_server.cpp:132-147): the orphans are closed; if
    there are no other connections the scheduler is told (`remove_active_user`, /repo/src/scheduler.cpp:95-100) and
    those who wait in `join` are notified. `none`: the mutex of the scheduler is held. -/
def St.stopRound (s : St) (t v : Nat) (gone : Bool) : Option St :=
  let pruned := fun c => if s.status c = .orphan ∧ s.owner c = v then Status.finished else s.status c
  if s.busy v then some { s with status := pruned, pc := set s.pc t (.stopLoop v gone) }
  else if s.held then none
  else
    let told := if s.users - 1 = 0 then notifyUsers s.pc else s.pc
    some { s with
      status := pruned, users := s.users - 1, pc := set (notifyStopped told v) t .idle,
      gone := if gone then set s.gone v true else s.gone,
      log := s.log ++ [if gone then .destroyed v else .stopped v true] }

/-- The loop of `shutdown` on a running scheduler (/repo/src/scheduler.cpp:36-47). -/
def St.shutRound (s : St) (t : Nat) : St :=
  if s.users > 0 then { s with pc := set s.pc t (.shutWait false) }
  else { s with running := false, held := true, pc := set s.pc t .shutJoin }

/-- The loop of `join` (/repo/src/tcp_server.cpp:151-158). -/
def St.joinRound (s : St) (t v : Nat) : St :=
  if s.listening v then { s with pc := set s.pc t (.joinWait v false) }
  else { s with pc := set s.pc t .idle, log := s.log ++ [.joined v] }

/-- A thread runs no handler. -/
def St.free (s : St) (t : Nat) : Bool := (List.range s.next).all fun c => s.status c != .handled t

/-- A thread of the scheduler can take up a handler: the scheduler runs, and the thread is in no call and no handler
    (`process_service_work`, /repo/src/scheduler.cpp:108-118). -/
def St.ready (W : List Nat) (s : St) (t : Nat) : Bool :=
  W.contains t && s.running && s.pc t == .idle && s.free t

/-- The threads of the scheduler have ended: they run no handler and are in no call. -/
def St.ended (W : List Nat) (s : St) : Bool := W.all fun t => s.pc t == .idle && s.free t

/-- `finish_connection` (/repo/src/tcp_server.cpp:247-267). The notification of `m_no_more_connections` only cuts short
    a wait of a quarter of a second. -/
def St.finishConn (s : St) (c : Nat) (keep : Bool) : St :=
  { s with status := set s.status c (if s.listening (s.owner c) && keep then .waiting else .finished) }

/-- A thread inside a call goes on. -/
def St.go (W : List Nat) (s : St) (t : Nat) : Option St :=
  match s.pc t with
  | .idle => none
  -- /repo/src/tcp_server.cpp:104-105
  | .startListen v => some { (s.use v).listen v with pc := set s.pc t (.startLook v) }
  -- /repo/src/tcp_server.cpp:108, /repo/src/scheduler.cpp:90
  | .startLook v =>
    some { s.use v with pc := set s.pc t (if s.running then .startCount v else .startUp v) }
  -- `startup` (/repo/src/scheduler.cpp:123-143, 148-175)
  | .startUp v => if s.held then none else some { s with running := true, pc := set s.pc t (.startCount v) }
  -- /repo/src/scheduler.cpp:91-92
  | .startCount v =>
    if s.held then none
    else some { s with users := s.users + 1, pc := set s.pc t .idle, log := s.log ++ [.started v] }
  | .stopLoop v gone => (s.use v).stopRound t v gone
  | .joinWait v _ => some ((s.use v).joinRound t v)
  | .shutWait _ => if s.held then none else some (s.shutRound t)
  -- /repo/src/scheduler.cpp:43-64
  | .shutJoin =>
    if s.ended W then some { s with held := false, pc := set s.pc t .idle, log := s.log ++ [.shutdown] } else none

/-- One step of thread `t`; `W` are the threads of the scheduler. `none` if the thread cannot do that. -/
def St.step (W : List Nat) (s : St) (t : Nat) (a : Act) : Option St :=
  match a with
  | .go => s.go W t
  -- /repo/src/tcp_server.cpp:70-104
  | .start v =>
    if s.pc t = .idle then
      let s := s.use v
      if s.listening v then some { s with log := s.log ++ [.started v] }
      else some { s with listening := set s.listening v true, pc := set s.pc t (.startListen v) }
    else none
  -- /repo/src/tcp_server.cpp:112-139; connections that are closed (129-130) are finished by their handlers
  | .stop v =>
    if s.pc t = .idle then
      let s := s.use v
      if s.listening v then ({ s with listening := set s.listening v false } : St).stopRound t v false
      else some { s with log := s.log ++ [.stopped v false] }
    else none
  -- /repo/src/tcp_server.cpp:151-158
  | .join v => if s.pc t = .idle then some ((s.use v).joinRound t v) else none
  -- `~server` (/repo/include/pion/tcp/server.hpp:38)
  | .destroy v =>
    if s.pc t = .idle then
      let s := s.use v
      if s.listening v then ({ s with listening := set s.listening v false } : St).stopRound t v true
      else some { s with gone := set s.gone v true, log := s.log ++ [.destroyed v] }
    else none
  -- /repo/src/scheduler.cpp:123-143, 148-175
  | .startup => if s.pc t = .idle ∧ s.held = false then some { s with running := true } else none
  -- /repo/src/scheduler.cpp:27-60
  | .shutdown =>
    if s.pc t = .idle ∧ s.held = false then
      if s.running then some (s.shutRound t) else some { s with held := true, pc := set s.pc t .shutJoin }
    else none
  -- `handle_accept` (/repo/src/tcp_server.cpp:199-230)
  | .accept c ok =>
    if s.ready W t ∧ s.status c = .accepting then
      let s := (s.use (s.owner c)).listen (s.owner c)
      some { s with status := set s.status c (if ok then .handled t else .finished) }
    else none
  | .handle c =>
    if s.ready W t ∧ s.status c = .waiting then
      some { s.use (s.owner c) with status := set s.status c (.handled t) }
    else none
  | .await c =>
    if s.pc t = .idle ∧ s.status c = .handled t then some { s with status := set s.status c .waiting } else none
  | .finish c keep =>
    if s.pc t = .idle ∧ s.status c = .handled t then some ((s.use (s.owner c)).finishConn c keep) else none
  | .drop c =>
    if s.pc t = .idle ∧ s.status c = .handled t then some { s with status := set s.status c .orphan } else none

/-- A schedule: which thread does what. -/
def St.run (W : List Nat) (s : St) : List (Nat × Act) → Option St
  | [] => some s
  | (t, a) :: rest => match s.step W t a with
    | none => none
    | some s' => s'.run W rest

end Verif.ServerLife
