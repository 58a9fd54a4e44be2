import Verif.Model.TcpServer
import Verif.Model.PluginManager
/-
Model of `http::plugin_server` (/repo/include/pion/http/plugin_server.hpp, /repo/src/http_plugin_server.cpp): a TCP
server, the manager of its web services and the table of its resources, and the calls services get.

Not modelled: services that throw in `start` or `stop` (C98, Model/ServiceFaults); the authenticator (a request it refuses reaches no service).
-/
namespace Verif.PluginServer
open Verif.Server (stripSlash Tables)

/-- What a resource is bound to: a service (by its address), or a function registered with `add_resource`. -/
inductive Handler where
  | service (obj : Nat)
  | other (n : Nat)
  deriving Repr, DecidableEq

/-- Calls a service gets (/repo/include/pion/http/plugin_service.hpp:31-68), and its destruction. -/
inductive Ev where
  /-- `set_resource` -/
  | told (obj : Nat) (resource : Bytes)
  /-- `set_option` -/
  | option (obj : Nat) (name value : Bytes)
  | start (obj : Nat)
  | stop (obj : Nat)
  /-- `operator()` with a request received on connection `c` -/
  | request (obj c : Nat) (req : Msg)
  | destroyed (obj : Nat) (how : Plugins.How)

/-- The server; `busy`: the service that handles the request received on a connection. Threads inside `clear`: waiting in
    `stop` (`clearStop`), before `m_services.clear()` (`clearing`), before `http::server::clear` (`unbinding`), waiting in
    the `stop` called by that (`unbindStop`). -/
structure St where
  tcp : TcpServer.St := {}
  services : Plugins.Mgr := {}
  tables : Tables Handler := {}
  busy : Nat → Option Nat := fun _ => none
  clearStop : Nat := 0
  clearing : Nat := 0
  unbinding : Nat := 0
  unbindStop : Nat := 0
  trace : List Ev := []

/-- The call that a thread in the loop of `stop` is part of. -/
inductive Who where
  | stop | clear | unbind
  deriving Repr, DecidableEq

inductive Act where
  | addService (resource : Bytes) (obj : Nat)
  /-- `opens`, `obj`: whether the library can be opened, and the object it creates -/
  | loadService (resource lib : Bytes) (opens : Bool) (obj : Nat)
  | setOption (resource name value : Bytes)
  | addResource (resource : Bytes) (n : Nat)
  | removeResource (resource : Bytes)
  | addRedirect (resource target : Bytes)
  /-- `binds`: the acceptor can be bound; otherwise `start` throws -/
  | start (binds : Bool)
  | startListen
  /-- something happens to a connection -/
  | conn (a : TcpServer.Act)
  /-- a request was received on a connection -/
  | request (c : Nat) (req : Msg)
  | stop
  /-- one round of the loop of `stop` -/
  | stopLoop (who : Who)
  | clear
  /-- `m_services.clear()` in `clear` -/
  | clearServices
  /-- `http::server::clear()` in `clear` -/
  | clearResources

/-- The services managed, in the order of their resources. -/
def St.objs (s : St) : List Nat := s.services.map.map (·.2.obj)

/-- The steps of connections: `none` for the calls of `start` and `stop`, which are steps of their own. The user of a
    connection that finishes it or lets go of it is the service that handles its request. -/
def St.conn (s : St) (a : TcpServer.Act) : Option St :=
  match a with
  | .start | .startListen | .stop | .stopLoop => none
  | .finish c _ _ | .drop c =>
    (s.tcp.step a).map fun t => { s with tcp := t, busy := fun i => if i = c then none else s.busy i }
  | .accept _ _ | .listen _ | .serve _ | .fail _ => (s.tcp.step a).map fun t => { s with tcp := t }

/-- `handle_request` (/repo/src/http_server.cpp:38-132) for a request received without error. The service has the
    request until the connection is finished. -/
def St.request (s : St) (c : Nat) (req : Msg) : Option St :=
  if s.tcp.status c = .serving ∧ s.busy c = none then
    match (Server.handleRequest (σ := Unit) (fun _ => .returns) none s.tables () .ok req).1 with
    | [.handler (.service o) q] =>
      some { s with busy := fun i => if i = c then some o else s.busy i, trace := s.trace ++ [.request o c q] }
    | _ => some s
  else none

/-- One round of the loop of `stop` (/repo/src/tcp_server.cpp:132-149); if it is the last one, `after_stopping`
    (/repo/include/pion/http/plugin_server.hpp:145-148) and what the caller does next. -/
def St.stopLoop (s : St) (who : Who) : Option St :=
  match s.tcp.step .stopLoop with
  | none => none
  | some t =>
    if t.stopping < s.tcp.stopping then
      let s' := { s with tcp := t, trace := s.trace ++ s.objs.map .stop }
      match who with
      | .stop => if s.clearStop + s.unbindStop < s.tcp.stopping then some s' else none
      | .clear => if s.clearStop = 0 then none
        else some { s' with clearStop := s.clearStop - 1, clearing := s.clearing + 1 }
      | .unbind => if s.unbindStop = 0 then none
        else some { s' with unbindStop := s.unbindStop - 1, tables := Server.step s.tables .clear }
    else some { s with tcp := t }

/-- One step; `none` if it cannot happen. `add_service`, `load_service`, `set_service_option`: calls are atomic. -/
def St.step (s : St) (a : Act) : Option St :=
  match a with
  -- /repo/src/http_plugin_server.cpp:24-32
  | .addService r o =>
    some { s with
      trace := s.trace ++ [.told o (stripSlash r)]
      services := (Plugins.step s.services (.add (stripSlash r) o)).2
      tables := Server.step s.tables (.addResource (stripSlash r) (.service o)) }
  -- /repo/src/http_plugin_server.cpp:34-42; `load` throws if the name is in use or the library cannot be opened
  | .loadService r lib opens o =>
    match Plugins.step s.services (.load (stripSlash r) lib opens o) with
    | (.ok, m) =>
      some { s with
        services := m
        tables := Server.step s.tables (.addResource (stripSlash r) (.service o))
        trace := s.trace ++ [.told o (stripSlash r)] }
    | _ => some s
  -- /repo/src/http_plugin_server.cpp:44-51; throws if there is no such service
  | .setOption r n v =>
    match Plugins.get s.services (stripSlash r) with
    | some o => some { s with trace := s.trace ++ [.option o n v] }
    | none => some s
  -- /repo/src/http_server.cpp:160-185
  | .addResource r n => some { s with tables := Server.step s.tables (.addResource r (.other n)) }
  | .removeResource r => some { s with tables := Server.step s.tables (.removeResource r) }
  | .addRedirect r t => some { s with tables := Server.step s.tables (.addRedirect r t) }
  -- /repo/src/tcp_server.cpp:71-105 with `before_starting` (/repo/include/pion/http/plugin_server.hpp:138-142)
  | .start binds =>
    if s.tcp.dead then none
    else if s.tcp.listening then some s
    else if binds then (s.tcp.step .start).map fun t => { s with tcp := t, trace := s.trace ++ s.objs.map .start }
    else some { s with trace := s.trace ++ s.objs.map .start }
  | .startListen => (s.tcp.step .startListen).map fun t => { s with tcp := t }
  | .conn a => s.conn a
  | .request c req => s.request c req
  | .stop => (s.tcp.step .stop).map fun t => { s with tcp := t }
  | .stopLoop who => s.stopLoop who
  -- /repo/include/pion/http/plugin_server.hpp:125-126, also the destructor (37)
  | .clear =>
    if s.tcp.listening then (s.tcp.step .stop).map fun t => { s with tcp := t, clearStop := s.clearStop + 1 }
    else some { s with clearing := s.clearing + 1 }
  -- /repo/include/pion/http/plugin_server.hpp:127
  | .clearServices =>
    if s.clearing = 0 then none
    else some { s with
      services := (Plugins.step s.services .clear).2
      trace := s.trace ++ s.services.map.map (fun e => .destroyed e.2.destroy.1 e.2.destroy.2)
      clearing := s.clearing - 1, unbinding := s.unbinding + 1 }
  -- /repo/include/pion/http/plugin_server.hpp:128, /repo/include/pion/http/server.hpp:148-152
  | .clearResources =>
    if s.unbinding = 0 then none
    else if s.tcp.listening then
      (s.tcp.step .stop).map fun t => { s with tcp := t, unbinding := s.unbinding - 1, unbindStop := s.unbindStop + 1 }
    else some { s with tables := Server.step s.tables .clear, unbinding := s.unbinding - 1 }

/-- A sequence of steps. -/
def St.run (s : St) : List Act → Option St
  | [] => some s
  | a :: as => (s.step a).bind fun s' => s'.run as

end Verif.PluginServer
