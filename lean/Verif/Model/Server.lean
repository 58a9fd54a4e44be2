import Verif.Model.SortedMap
import Verif.Model.HttpMessage
/-
Model of `http::server` (/repo/src/http_server.cpp, /repo/include/pion/http/server.hpp): registration of
resources and redirects, and `handle_request`.
-/
namespace Verif.Server

/-- `server::strip_trailing_slash` (/repo/include/pion/http/server.hpp:160-165): removes one slash. -/
def stripSlash (s : Bytes) : Bytes := if s.getLast? = some (c! "/") then s.dropLast else s

/-- The test inside the backward walk (/repo/src/http_server.cpp:147-150, /repo/src/http_auth.cpp:72-75):
    `key.empty() || resource.compare(0, key.size(), key) == 0`, then
    `resource.size() == key.size() || resource[key.size()] == '/'`. Reading `resource[resource.size()]`
    gives the terminating zero, which is not a slash: `[n]? = none`. -/
def matchKey (key resource : Bytes) : Bool :=
  (key.isEmpty || resource.take key.length == key) &&
    (resource.length == key.length || resource[key.length]? == some (c! "/"))

/-- The backward walk from `upper_bound(resource)` to `begin()`
    (/repo/src/http_server.cpp:142-157, /repo/src/http_auth.cpp:68-80): the first entry that matches. -/
def walkBack {V : Type} (m : SMap V) (resource : Bytes) : Option (Bytes × V) :=
  (m.upTo resource).reverse.find? fun e => matchKey e.1 resource

/-- `server::find_request_handler` (/repo/src/http_server.cpp:134-158). -/
def findHandler {H : Type} (m : SMap H) (resource : Bytes) : Option H :=
  if m.isEmpty then none else (walkBack m resource).map (·.2)

/-- The tables `m_resources` and `m_redirects` of a server. -/
structure Tables (H : Type) where
  resources : SMap H := []
  redirects : SMap Bytes := []

/-- Calls that change the tables. -/
inductive Op (H : Type) where
  | addResource (resource : Bytes) (h : H)
  | removeResource (resource : Bytes)
  | addRedirect (resource target : Bytes)
  | clear

/-- `add_resource`, `remove_resource`, `add_redirect` (/repo/src/http_server.cpp:160-185) and `clear`
    (/repo/include/pion/http/server.hpp:148-152), which leaves the redirects in place. -/
def step {H : Type} (t : Tables H) : Op H → Tables H
  | .addResource r h => { t with resources := t.resources.insert (stripSlash r) h }
  | .removeResource r => { t with resources := t.resources.erase (stripSlash r) }
  | .addRedirect r n => { t with redirects := t.redirects.insert (stripSlash r) (stripSlash n) }
  | .clear => { t with resources := [] }

/-- A sequence of calls on a new server. -/
def build {H : Type} (ops : List (Op H)) : Tables H := ops.foldl step {}

/-- `server::MAX_REDIRECTS` (/repo/src/http_server.cpp:24). -/
def MAX_REDIRECTS : Nat := 10

/-- The `while` loop of `handle_request` (/repo/src/http_server.cpp:70-81). `fuel` counts the redirects that
    may still be followed; `none` is the "maximum number exceeded" exit. The result is `resource_requested`
    and the request after the calls of `change_resource` (/repo/include/pion/http/request.hpp:99). -/
def redirectLoop (redirects : SMap Bytes) : Nat → Bytes → Msg → Option (Bytes × Msg)
  | fuel, resource, req =>
    match redirects.lookup resource with
    | none => some (resource, req)
    | some target =>
      match fuel with
      | 0 => none
      | fuel + 1 => redirectLoop redirects fuel target { req with resource := target }

/-- How the read of the request ended, as far as `handle_request` looks at it (/repo/src/http_server.cpp:41-43):
    an error code, its category, and whether the connection is still open. -/
inductive ReadResult where
  | ok
  | parserError (isOpen : Bool)
  | otherError
  deriving Repr, DecidableEq

/-- What a request handler does: return, or throw (/repo/src/http_server.cpp:102-120). -/
inductive Ret where
  | returns | throwsStd | throwsBoost | throwsBadAlloc
  deriving Repr, DecidableEq

/-- Observable calls made by `handle_request`. -/
inductive Call (H : Type) where
  /-- `m_bad_request_handler` -/
  | badRequest
  /-- `tcp_conn->finish()` without an answer -/
  | finish
  /-- `m_server_error_handler` because of too many redirects -/
  | redirectError
  /-- `m_server_error_handler` because the request handler threw -/
  | handlerError
  /-- the authenticator answered the request -/
  | refused
  /-- `m_not_found_handler` -/
  | notFound
  /-- a request handler, with the request it is given -/
  | handler (h : H) (req : Msg)
  /-- `std::bad_alloc` leaves `handle_request` -/
  | rethrow
  deriving Repr, DecidableEq

/-- An authenticator with internal state `σ`: `auth::handle_request`. -/
abbrev Auth (σ : Type) := Msg → σ → Bool × σ

/-- The end of `handle_request` (/repo/src/http_server.cpp:97-131): search and call the handler. -/
def dispatch {H : Type} (run : H → Ret) (resources : SMap H) (resource : Bytes) (req : Msg) : List (Call H) :=
  match findHandler resources resource with
  | none => [.notFound]
  | some h =>
    match run h with
    | .returns => [.handler h req]
    | .throwsStd => [.handler h req, .handlerError]
    | .throwsBoost => [.handler h req, .handlerError]
    | .throwsBadAlloc => [.handler h req, .rethrow]

/-- `server::handle_request` (/repo/src/http_server.cpp:38-132). Logging is left out. `auth = none` when no
    authenticator is installed. -/
def handleRequest {H σ : Type} (run : H → Ret) (auth : Option (Auth σ)) (t : Tables H) (st : σ)
    (rd : ReadResult) (req : Msg) : List (Call H) × σ :=
  if rd ≠ .ok ∨ req.isValid = false then
    (match rd with
     | .parserError true => ([.badRequest], st)
     | _ => ([.finish], st))
  else
    match redirectLoop t.redirects MAX_REDIRECTS (stripSlash req.resource) req with
    | none => ([.redirectError], st)
    | some (resource, req') =>
      match auth with
      | none => (dispatch run t.resources resource req', st)
      | some a =>
        let (ok, st') := a req' st
        if ok then (dispatch run t.resources resource req', st') else ([.refused], st')

end Verif.Server
