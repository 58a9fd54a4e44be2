import Verif.Model.Server
/-
Model of `http::server` that is changed while several threads handle requests (/repo/src/http_server.cpp:38-185,
/repo/include/pion/http/server.hpp:148-152). `handle_request` is split at its accesses to shared memory: every
`m_redirects.find`, which is made without the mutex; the authenticator; `find_request_handler`, which is one section under
`m_resource_mutex` and copies the handler; the call of the copy, without the mutex. The calls that change the tables are one
section under the mutex each, and may come from other threads or from handlers.

Simplifications: memory is sequentially consistent (the searches without the mutex are data races, hence undefined behaviour,
which `Props.ServerThreads` shows to be reachable). The authenticator (C76) is any decision; it and the other handlers are
not replaced while requests are handled. Requests are valid: for others no table is looked at. Requests have numbers, each
used once. `clear` is the section of `clear` (it calls `stop` before).
-/
namespace Verif.ServerThreads
open Verif.Server

/-- Where a call of `handle_request` is. -/
inductive Pc (H : Type) where
  /-- before `m_redirects.find(resource)`, after `n` redirects (/repo/src/http_server.cpp:70, 80) -/
  | redirect (n : Nat) (resource : Bytes) (req : Msg)
  /-- in `m_auth_ptr->handle_request` (/repo/src/http_server.cpp:86) -/
  | auth (resource : Bytes) (req : Msg)
  /-- before `find_request_handler` (/repo/src/http_server.cpp:99) -/
  | find (resource : Bytes) (req : Msg)
  /-- after it -/
  | found (h : Option H) (req : Msg)
  /-- in the handler (/repo/src/http_server.cpp:103) -/
  | handling (h : H) (req : Msg)
  | ended

/-- `log`: what the calls did, in order. -/
structure St (H : Type) where
  tables : Tables H := {}
  calls : Nat → Option (Msg × Pc H) := fun _ => none
  log : List (Nat × Call H) := []

/-- A request comes; its call goes on, up to the authenticator or the end of the handler; the authenticator has
    decided about the request it was given; the handler has ended; somebody changes the tables. -/
inductive Act (H : Type) where
  | request (i : Nat) (req : Msg)
  | step (i : Nat)
  | auth (i : Nat) (q : Msg) (ok : Bool)
  | returns (i : Nat) (r : Ret)
  | admin (op : Op H)

variable {H : Type}

def St.set (s : St H) (i : Nat) (req : Msg) (pc : Pc H) (calls : List (Call H)) : St H :=
  { s with calls := fun k => if k = i then some (req, pc) else s.calls k, log := s.log ++ calls.map fun c => (i, c) }

/-- The next step of a call (/repo/src/http_server.cpp:67-132): where it is then, and what it has called. `none`: it is in the
    authenticator or in the handler, or has ended. `hasAuth`: there is an authenticator. -/
def own (hasAuth : Bool) (t : Tables H) : Pc H → Option (Pc H × List (Call H))
  | .redirect n resource req =>
    match t.redirects.lookup resource with
    | none => some (if hasAuth then .auth resource req else .find resource req, [])
    | some target =>
      if n + 1 > MAX_REDIRECTS then some (.ended, [.redirectError])
      else some (.redirect (n + 1) target { req with resource := target }, [])
  | .find resource req => some (.found (findHandler t.resources resource) req, [])
  | .found (some h) req => some (.handling h req, [.handler h req])
  | .found none _ => some (.ended, [.notFound])
  | .auth .. | .handling .. | .ended => none

/-- What follows the end of the handler (/repo/src/http_server.cpp:109-120). -/
def afterHandler : Ret → List (Call H)
  | .returns => []
  | .throwsStd => [.handlerError]
  | .throwsBoost => [.handlerError]
  | .throwsBadAlloc => [.rethrow]

def St.step (hasAuth : Bool) (s : St H) : Act H → Option (St H)
  | .request i req => match s.calls i with
    | none => if req.isValid then some (s.set i req (.redirect 0 (stripSlash req.resource) req) []) else none
    | some _ => none
  | .step i => match s.calls i with
    | none => none
    | some (req, pc) => match own hasAuth s.tables pc with
      | none => none
      | some (pc, l) => some (s.set i req pc l)
  | .auth i given ok => match s.calls i with
    | some (req, .auth resource q) =>
      if given = q then some (if ok then s.set i req (.find resource q) [] else s.set i req .ended [.refused]) else none
    | _ => none
  | .returns i r => match s.calls i with
    | some (req, .handling _ _) => some (s.set i req .ended (afterHandler r))
    | _ => none
  | .admin op => some { s with tables := Server.step s.tables op }

/-- The state after some actions on a new server; `none`: they are impossible in this order. -/
def run (hasAuth : Bool) (tr : List (Act H)) : Option (St H) := tr.foldlM (St.step hasAuth) {}

end Verif.ServerThreads
