import Verif.Base
/-
Model of `tcp::server` (/repo/include/pion/tcp/server.hpp, /repo/src/tcp_server.cpp): its connection pool, and the
calls and handlers that change it, interleaved where the mutex is taken.

Not modelled: endpoints, SSL (a handshake is part of serving a connection; one that fails is a connection that
finishes), failures to bind (`start` throws and nothing has changed).
-/
namespace Verif.TcpServer

/-- What has become of a connection object. -/
inductive Status where
  /-- not created yet -/
  | absent
  /-- `async_accept` is pending -/
  | accepting
  /-- the accept handler is running (/repo/src/tcp_server.cpp:199-230): `ok` without error; `due`: it has seen that the
      server is listening and will call `listen` -/
  | accepted (ok due : Bool)
  /-- handed to `handle_connection` and not finished -/
  | serving
  /-- its user has let go of it without finishing it; only the pool refers to it -/
  | orphan
  /-- finished, or closed as an orphan -/
  | finished
  deriving Repr, DecidableEq

/-- What can be seen from outside: the server was started; a call of `stop` returned, one that had found the server
    listening (`found`) or one that had not. -/
inductive Ev where
  | started | stopped (found : Bool)
  deriving Repr, DecidableEq

/-- `m_is_listening` and `m_conn_pool`; the connections made so far; threads inside `start` (before its `listen`,
    /repo/src/tcp_server.cpp:106) and in the loop of `stop`; and whether the mutex is held for ever. -/
structure St where
  listening : Bool := false
  pool : List Nat := []
  status : Nat → Status := fun _ => .absent
  next : Nat := 0
  starting : Nat := 0
  stopping : Nat := 0
  dead : Bool := false
  log : List Ev := []

inductive Act where
  | start
  | startListen
  /-- an accept completes -/
  | accept (c : Nat) (ok : Bool)
  /-- the accept handler calls `listen` -/
  | listen (c : Nat)
  /-- the accept handler calls `handle_connection` -/
  | serve (c : Nat)
  /-- the accept handler calls `finish_connection`, the accept having failed -/
  | fail (c : Nat)
  /-- the user of a connection calls its `finish`. `keep`: its lifecycle says keep-alive. `nested`: if the connection
      is handled again, `handle_connection` calls `finish` itself before it returns. -/
  | finish (c : Nat) (keep nested : Bool)
  /-- the user lets go of a connection -/
  | drop (c : Nat)
  | stop
  /-- one round of the loop of `stop` -/
  | stopLoop
  deriving Repr, DecidableEq

def upd (f : Nat → Status) (c : Nat) (v : Status) : Nat → Status := fun i => if i = c then v else f i

/-- `prune_connections` (/repo/src/tcp_server.cpp:269-287): closes the connections that only the pool refers to. -/
def St.prune (s : St) : St :=
  { s with
    pool := s.pool.filter fun c => s.status c ≠ .orphan
    status := fun c => if s.status c = .orphan then .finished else s.status c }

/-- `listen` (/repo/src/tcp_server.cpp:173-197). -/
def St.listen (s : St) : St :=
  if s.listening then
    let s := s.prune
    { s with pool := s.pool ++ [s.next], status := upd s.status s.next .accepting, next := s.next + 1 }
  else s

/-- The removal in `finish_connection` (/repo/src/tcp_server.cpp:256-265). -/
def St.remove (s : St) (c : Nat) : St :=
  { s with pool := s.pool.erase c, status := upd s.status c .finished }

/-- `finish_connection` (/repo/src/tcp_server.cpp:247-267). `handle_connection` is called with the mutex held; if it
    finishes the connection itself the mutex is locked again by the same thread, which waits for ever. -/
def St.finish (s : St) (c : Nat) (keep nested : Bool) : St :=
  if s.listening && keep then { s with dead := nested } else s.remove c

/-- One step; `none` if it cannot happen. -/
def St.step (s : St) (a : Act) : Option St :=
  match a with
  -- /repo/src/tcp_server.cpp:71-105
  | .start =>
    if s.dead then none
    else if s.listening then some s
    else some { s with listening := true, starting := s.starting + 1, log := s.log ++ [.started] }
  -- /repo/src/tcp_server.cpp:106
  | .startListen => if s.dead ∨ s.starting = 0 then none else some { s.listen with starting := s.starting - 1 }
  -- /repo/src/tcp_server.cpp:199-219: `m_is_listening` is read without the mutex
  | .accept c ok =>
    if s.status c = .accepting then some { s with status := upd s.status c (.accepted ok s.listening) } else none
  -- /repo/src/tcp_server.cpp:206, 217
  | .listen c => match s.status c with
    | .accepted ok true => if s.dead then none else some ({ s with status := upd s.status c (.accepted ok false) } : St).listen
    | _ => none
  -- /repo/src/tcp_server.cpp:220-229
  | .serve c => if s.status c = .accepted true false then some { s with status := upd s.status c .serving } else none
  -- /repo/src/tcp_server.cpp:209: the lifecycle of a new connection is "close"
  | .fail c => if s.status c = .accepted false false ∧ ¬ s.dead then some (s.finish c false false) else none
  | .finish c keep nested => if s.status c = .serving ∧ ¬ s.dead then some (s.finish c keep nested) else none
  | .drop c => if s.status c = .serving then some { s with status := upd s.status c .orphan } else none
  -- /repo/src/tcp_server.cpp:113-130; closing the connections is up to their users
  | .stop =>
    if s.dead then none
    else if s.listening then some { s with listening := false, stopping := s.stopping + 1 }
    else some { s with log := s.log ++ [.stopped false] }
  -- /repo/src/tcp_server.cpp:132-147; `wait` lets go of the mutex for a quarter of a second at most
  | .stopLoop =>
    if s.dead ∨ s.stopping = 0 then none
    else if s.prune.pool = [] then
      some { s.prune with stopping := s.stopping - 1, log := s.log ++ [.stopped true] }
    else some s.prune

/-- A sequence of steps. -/
def St.run (s : St) : List Act → Option St
  | [] => some s
  | a :: as => match s.step a with
    | none => none
    | some s' => s'.run as

/-- `get_connections` (/repo/src/tcp_server.cpp:289-293), a `size_t`. -/
def St.connections (s : St) : UInt64 :=
  if s.listening then UInt64.ofNat s.pool.length - 1 else UInt64.ofNat s.pool.length

end Verif.TcpServer
