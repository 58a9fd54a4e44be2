import Verif.Base
/-
Web services that throw when they are started or stopped: `plugin_server::before_starting`, `after_stopping` and `clear`
(/repo/include/pion/http/plugin_server.hpp:128-147) within `tcp::server::start`, `stop` and `join` (/repo/src/tcp_server.cpp:71-158).

Simplifications: no connections (C40, C66), so that `start` and `stop` hold the mutex of the server from the beginning to the end and
are single steps; an exception unlocks the mutexes (they are scoped locks). Which calls throw is decided from outside: `throws n` for
the n-th call of `start` or `stop` of any service. Threads in `join` are only counted. The services lie in the order of the map that
holds them (/repo/include/pion/plugin_manager.hpp:337-345): a new one is put in at any place. A failure to bind the address (C93) is
an exception after the services were started. Redirects and resources are not modelled here.
-/
namespace Verif.ServiceFaults

/-- What happens to services, and what the users of the server see. -/
inductive Ev where
  /-- `start` of a service returned, or threw -/
  | started (o : Nat)
  | startThrew (o : Nat)
  /-- `stop` of a service returned, or threw -/
  | stopped (o : Nat)
  | stopThrew (o : Nat)
  | destroyed (o : Nat)
  /-- a thread returned from `join` -/
  | joined
  deriving DecidableEq, Repr

/-- How a call of the server ends; `terminates`: an exception leaves a destructor, which ends the process. -/
inductive Res where
  | returned
  | threw
  | terminates
  deriving DecidableEq, Repr

/-- A plug-in server. `users`: how often it is registered with the scheduler. `waiting`, `woken`: threads that sleep in `join`, and
    those that were notified and have not gone on yet. `calls`: calls of `start` and `stop` of services so far. -/
structure St where
  services : List Nat := []
  listening : Bool := false
  users : Nat := 0
  waiting : Nat := 0
  woken : Nat := 0
  calls : Nat := 0
  log : List Ev := []
  deriving DecidableEq, Repr

/-- `plugin_manager::run` (/repo/include/pion/plugin_manager.hpp:337-345): call the function of each service in turn; an exception ends
    the loop. `true`: all have returned. -/
def runAll (throws : Nat → Bool) (ok bad : Nat → Ev) : List Nat → St → St × Bool
  | [], s => (s, true)
  | o :: os, s =>
    if throws s.calls then ({ s with calls := s.calls + 1, log := s.log ++ [bad o] }, false)
    else runAll throws ok bad os { s with calls := s.calls + 1, log := s.log ++ [ok o] }

/-- `tcp::server::start` (/repo/src/tcp_server.cpp:71-110) with `before_starting` (plugin_server.hpp:138-141). `binds`: the address can
    be bound. -/
def St.start (throws : Nat → Bool) (binds : Bool) (s : St) : St × Res :=
  if s.listening then (s, .returned)
  else
    match runAll throws .started .startThrew s.services s with
    | (s, false) => (s, .threw)
    | (s, true) => if binds then ({ s with listening := true, users := s.users + 1 }, .returned) else (s, .threw)

/-- `tcp::server::stop` (/repo/src/tcp_server.cpp:113-148) with `after_stopping` (plugin_server.hpp:144-147): the server is taken off the
    scheduler before the services are stopped, and the threads in `join` are notified afterwards. -/
def St.stop (throws : Nat → Bool) (s : St) : St × Res :=
  if s.listening then
    match runAll throws .stopped .stopThrew s.services { s with listening := false, users := s.users - 1 } with
    | (s, false) => (s, .threw)
    | (s, true) => ({ s with woken := s.woken + s.waiting, waiting := 0 }, .returned)
  else (s, .returned)

/-- `plugin_server::clear` (plugin_server.hpp:128-132): stop, then destroy the services. -/
def St.clear (throws : Nat → Bool) (s : St) : St × Res :=
  match s.stop throws with
  | (s, .returned) => ({ s with services := [], log := s.log ++ s.services.map .destroyed }, .returned)
  | r => r

/-- What is done with a server. -/
inductive Op where
  /-- a service is added, at any place of the map -/
  | add (o place : Nat)
  | start (binds : Bool)
  | stop
  | clear
  /-- `~plugin_server` (plugin_server.hpp:38), which calls `clear` -/
  | destroy
  /-- a thread calls `join` (/repo/src/tcp_server.cpp:150-157) -/
  | join
  /-- a thread that was notified goes on: it looks at the server again -/
  | wake
  deriving DecidableEq, Repr

/-- One call. -/
def St.step (throws : Nat → Bool) (s : St) : Op → St × Res
  | .add o k => ({ s with services := s.services.take k ++ o :: s.services.drop k }, .returned)
  | .start binds => s.start throws binds
  | .stop => s.stop throws
  | .clear => s.clear throws
  | .destroy =>
    match s.clear throws with
    | (s, .threw) => (s, .terminates)
    | r => r
  | .join => if s.listening then ({ s with waiting := s.waiting + 1 }, .returned) else ({ s with log := s.log ++ [.joined] }, .returned)
  | .wake =>
    if s.woken = 0 then (s, .returned)
    else if s.listening then ({ s with woken := s.woken - 1, waiting := s.waiting + 1 }, .returned)
    else ({ s with woken := s.woken - 1, log := s.log ++ [.joined] }, .returned)

/-- A sequence of calls: the state afterwards. -/
def St.run (throws : Nat → Bool) : St → List Op → St
  | s, [] => s
  | s, a :: as => ((s.step throws a).1).run throws as

end Verif.ServiceFaults
