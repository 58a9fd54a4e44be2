import Verif.Model.BasicSite
import Verif.Model.CookieAuth
import Verif.Model.FileAnswers
import Verif.Model.Piond
/-
A web server as `piond` sets it up and runs it: the services and the authenticator of a command line or a configuration
file, and what is sent for a request. The parts are modelled elsewhere (`Model/Piond`, `Model/ServiceConfig`,
`Model/Server`, `Model/Auth`, `Model/FileService`, `Model/FileAnswers`); this file connects them.

Simplified: requests are handled one after the other (C66, C76, C82, C83 have several threads). Of the services only
`FileService` has a state here.
-/
namespace Verif.FileSite
open Verif.FileService (Cfg Fs Cache)
open Verif.Server Verif.Responses
open Verif.Writer (W Lifecycle)

/-- What the program finds around it, and what the other models leave open. -/
structure World where
  /-- the library of the plug-in with this name can be opened (C61, C38) -/
  opens : Bytes → Bool
  /-- the text of a configuration file that can be found and read -/
  configs : Bytes → Option Bytes := fun _ => none
  /-- `lexical_cast<unsigned long>` -/
  number : Bytes → Option Nat := fun _ => none
  /-- `types::get_date_string` -/
  date : Int → Bytes
  /-- the current directory -/
  cwd : Spec.Path.Place := []
  /-- the regular files below the directory of a service, as a scan meets them -/
  files : Cfg → List (List Bytes) := fun _ => []
  /-- what other services send: their name, their resource and the request -/
  other : Bytes → Bytes → Msg → W
  /-- the authenticator's surroundings, and the order of its tables and of those of requests -/
  auth : Auth.Env
  /-- the random numbers of authenticators with cookies -/
  gen : CookieAuth.Gen := fun _ _ => 0
  /-- the order of the tables of responses -/
  table : TableOrder := {}
  /-- the value of bytes that have not been written -/
  byte : Option UInt8 → UInt8 := fun b => b.getD 0
  /-- descriptions of exceptions -/
  diagnostic : Bytes := []
  error : Bytes := []

/-- A web service. -/
inductive Service where
  | file (c : Cfg) (cache : Cache)
  | other (plugin : Bytes)

/-- `m_auth_ptr`: none, or a basic authenticator or one with cookies, with the second it was created and what has happened to
    it. -/
inductive Guard where
  | open_
  | basic (created : Nat) (hist : List Auth.Event)
  | cookie (created : Nat) (calls : List CookieAuth.Call)

/-- The server: the services by their resource (`m_services`), the calls of `add_resource`, the authenticator, and the file
    system. -/
structure Site where
  fs : Fs
  services : SMap Service := []
  ops : List (Op Bytes) := []
  guard : Guard := .open_

/-- `plugin_server::load_service` (/repo/src/http_plugin_server.cpp:34-42), `FileService::FileService`
    (/repo/services/FileService.cpp:46-51); `none` is an exception. -/
def Site.load (w : World) (s : Site) (resource plugin : Bytes) : Option Site :=
  let id := stripSlash resource
  if (s.services.lookup id).isSome || !w.opens plugin then none
  else
    let new : Service :=
      if plugin = b! "FileService" then .file { resource := id, date := w.date, cwd := w.cwd } [] else .other plugin
    some { s with services := s.services.insert id new, ops := s.ops ++ [.addResource id id] }

/-- `plugin_server::set_service_option` (/repo/src/http_plugin_server.cpp:44-51). Only `FileService` has options: the others
    throw (/repo/include/pion/http/plugin_service.hpp:54-56). `none` is an exception. -/
def Site.option (w : World) (s : Site) (resource name value : Bytes) : Option Site :=
  let id := stripSlash resource
  match s.services.lookup id with
  | some (.file c cache) =>
    match FileService.setOption w.number s.fs c name value with
    | .ok c => some { s with services := s.services.assign id (.file c cache) }
    | .thrown _ => none
  | _ => none

/-- The calls of `load_service_config` (/repo/src/http_plugin_server.cpp:164-217). -/
def Site.call (w : World) (s : Site) : Config.Call → Option Site
  | .addDirectory _ => some s
  | .loadService r p => s.load w r p
  | .setOption r n v => s.option w r n v

def Site.calls (w : World) (s : Site) : List Config.Call → Option Site
  | [] => some s
  | c :: cs => (s.call w c).bind fun s => s.calls w cs

/-- Which calls throw. -/
def throws (w : World) (s : Site) : Config.Env := fun before c => ((s.calls w before).bind fun s => s.call w c).isNone

/-- What the configuration file has told the new authenticator: `add_user` and `add_restrict`
    (/repo/src/http_plugin_server.cpp:176-199). Users and restrictions do not affect each other; here the users come first. -/
def told (a : Config.Auth) : List Auth.Event :=
  a.users.map (fun u => .users (.add u.1 u.2)) ++ a.restrict.map .restrict

/-- The same for an authenticator with cookies. -/
def toldCookie (a : Config.Auth) : List CookieAuth.Call :=
  a.users.map (fun u => .users (.add u.1 u.2)) ++ a.restrict.map .restrict

/-- `set_authentication` (/repo/src/http_plugin_server.cpp:238), the authenticator being created in the second `now`. -/
def guardOf (now : Nat) : Option Config.Auth → Guard
  | none => .open_
  | some a => match a.kind with
    | .basic => .basic now (told a)
    | .cookie => .cookie now (toldCookie a)

/-- The authenticator with cookies: `new http::cookie_auth(user_mgr)` (/repo/src/http_plugin_server.cpp:177), that is with the
    login page "/login", the logout page "/logout" and no page to be sent to (/repo/include/pion/http/cookie_auth.hpp:52-55).
    Simplified: the two clocks its constructor reads show the same second. -/
def sessionAuth (w : World) (created : Nat) (calls : List CookieAuth.Call) : CookieAuth.Object :=
  CookieAuth.after w.gen w.auth (CookieAuth.create created created {}) calls

/-- `load_service_config` (/repo/src/http_plugin_server.cpp:54-239). -/
def Site.configure (w : World) (now : Nat) (s : Site) (text : Bytes) : Option Site :=
  match Config.load (throws w s) text with
  | .finished a cs => (s.calls w cs).map fun s => { s with guard := guardOf now a }
  | _ => none

/-- `plugin_service::start` of one service. -/
def Service.start (w : World) (fs : Fs) : Service → Option Service
  | .file c cache => (FileService.start c { fs := fs, cache := cache } (w.files c)).map fun r => .file r.1 r.2.cache
  | .other p => some (.other p)

def startAll (w : World) (fs : Fs) : SMap Service → Option (SMap Service)
  | [] => some []
  | e :: m => (e.2.start w fs).bind fun v => (startAll w fs m).map ((e.1, v) :: ·)

/-- `start` with `before_starting` (/repo/include/pion/http/plugin_server.hpp:138-142). -/
def Site.start (w : World) (s : Site) : Option Site := (startAll w s.fs s.services).map fun m => { s with services := m }

/-- The end of `main` (/repo/utils/piond.cpp:144-174); `none`: an exception was caught and the program ends. -/
def Site.do (w : World) (now : Nat) (s : Site) : Piond.Do → Option Site
  | .listen _ _ | .sslKey _ | .waitForShutdown => some s
  | .loadService r p => s.load w r p
  | .setOption r n v => s.option w r n v
  | .loadConfig file => (w.configs file).bind (s.configure w now)
  | .start => s.start w

def Site.doAll (w : World) (now : Nat) (s : Site) : List Piond.Do → Option Site
  | [] => some s
  | d :: ds => (s.do w now d).bind fun s => s.doAll w now ds

/-- `piond` with these arguments, once its server is started; `none` if it ends instead. -/
def piond (w : World) (args : Piond.World) (now : Nat) (fs : Fs) (line : List Bytes) : Option Site :=
  match Piond.commandLine args line with
  | .ok o => ({ fs := fs } : Site).doAll w now (Piond.serve o)
  | _ => none

/-- Who gets a request (/repo/src/http_server.cpp:38-132). -/
def Site.receivers (w : World) (s : Site) (now : Nat) (m : Msg) : List (Call Bytes) :=
  match s.guard with
  | .open_ => (handleRequest (σ := Unit) (fun _ => .returns) none (build s.ops) () .ok m).1
  | .basic created hist =>
    (handleRequest (fun _ => .returns) (some (BasicSite.authenticator w.auth now)) (build s.ops)
      (Auth.basicAfter w.auth created hist) .ok m).1
  | .cookie created calls =>
    (handleRequest (fun _ => .returns)
      (some fun req a => ((CookieAuth.handle w.gen w.auth now a req).1.pass, (CookieAuth.handle w.gen w.auth now a req).2)) (build s.ops)
      (sessionAuth w created calls) .ok m).1

/-- The request in the history of the authenticator. -/
def Guard.saw (now : Nat) (m : Msg) : Guard → Guard
  | .basic created hist => .basic created (hist ++ [.request now [] m])
  | .cookie created calls => .cookie created (calls ++ [.request now m])
  | .open_ => .open_

/-- The realm of basic authenticators (/repo/include/pion/http/basic_auth.hpp:32). -/
def REALM : Bytes := b! "PION"

/-- What an authenticator sends that does not pass the request on (/repo/src/http_basic_auth.cpp:133-154,
    /repo/src/http_cookie_auth.cpp:53-91). -/
def Site.refusal (w : World) (s : Site) (now : Nat) (m : Msg) : Reply :=
  match s.guard with
  | .cookie created calls =>
    (cookieReply w.auth {} m (CookieAuth.handle w.gen w.auth now (sessionAuth w created calls) m).1).getD cookieUnauthorized
  | _ => basicUnauthorized REALM

/-- What is sent for a request that was read without error, in the second `now`, and the site afterwards. Nothing for what
    is not modelled here. -/
def Site.request (w : World) (s : Site) (now : Nat) (m : Msg) (lc : Lifecycle) : Option W × Site :=
  let after : Site := { s with guard := s.guard.saw now m }
  match s.receivers w now m with
  | [.refused] => (some ((s.refusal w now m).writer w.table m lc), after)
  | [.notFound] => (some ((notFound m).writer w.table m lc), after)
  | [.handler id q] =>
    match s.services.lookup id with
    | some (.file c cache) =>
      let r := FileAnswers.respond w.table w.auth.ord c w.byte w.diagnostic w.error { fs := s.fs, cache := cache } q lc now
      (some r.1, { after with fs := r.2.fs, services := s.services.assign id (.file c r.2.cache) })
    | some (.other p) => (some (w.other p id q), after)
    | none => (none, after)
  | _ => (none, after)

end Verif.FileSite
