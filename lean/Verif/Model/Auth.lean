import Verif.Model.Server
import Verif.Model.User
import Verif.Model.Base64
/-
Model of `http::auth`, `http::basic_auth` and `http::cookie_auth` (/repo/src/http_auth.cpp,
/repo/src/http_basic_auth.cpp, /repo/src/http_cookie_auth.cpp).

Time is a number of seconds. Each call reads the clock once (`second_clock::universal_time()`); the reading is
an argument. A cached `user_ptr` is represented by the user's name: nothing else of it is looked at again.
Every call runs without interruption here; `Model.AuthThreads` interleaves the calls of several threads.
-/
namespace Verif.Auth
open Verif.Server Verif.Users

/-- The lists `m_restrict_list` and `m_white_list` (/repo/include/pion/http/auth.hpp:158-162). -/
structure Paths where
  restrict : SMap Unit := []
  white : SMap Unit := []
  deriving Repr, DecidableEq

/-- `auth::add_restrict` (/repo/src/http_auth.cpp:21-27). -/
def addRestrict (p : Paths) (r : Bytes) : Paths := { p with restrict := p.restrict.insert (stripSlash r) () }

/-- `auth::add_permit` (/repo/src/http_auth.cpp:29-35). -/
def addPermit (p : Paths) (r : Bytes) : Paths := { p with white := p.white.insert (stripSlash r) () }

/-- `auth::find_resource` (/repo/src/http_auth.cpp:65-81). -/
def findResource (s : SMap Unit) (resource : Bytes) : Bool := (walkBack s resource).isSome

/-- `auth::need_authentication` (/repo/src/http_auth.cpp:37-63). -/
def needAuthentication (users : Manager) (p : Paths) (req : Msg) : Bool :=
  if isEmpty users then false
  else if p.restrict.isEmpty then false
  else if findResource p.restrict (stripSlash req.resource) then
    if p.white.isEmpty then true else !findResource p.white (stripSlash req.resource)
  else false

/-- An entry of `user_cache_type` (/repo/include/pion/http/auth.hpp:127): time stamp and user. -/
abbrev Cache := SMap (Nat × Bytes)

/-- The environment of the calls: the build, whether `char` is signed, the order of equal keys in the message's
    dictionaries, and what `base64_decode` makes of an input for which it reads outside its table
    (see `Verif.Base64.decode`): anything. -/
structure Env where
  build : Build
  charSigned : Bool := false
  ord : Dict.Order := id
  wild : Bytes → Option Bytes := fun _ => none

/-- State shared by both kinds of authenticators. -/
structure St where
  users : Manager := []
  paths : Paths := {}
  cache : Cache := []
  cleanup : Nat := 0
  deriving Repr, DecidableEq

/-- The expiry pass (/repo/src/http_basic_auth.cpp:42-56, /repo/src/http_cookie_auth.cpp:261-278). -/
def expire (limit now : Nat) (s : St) : St :=
  if s.cleanup + limit < now then
    { s with cache := s.cache.filter fun e => !decide (e.2.1 + limit < now), cleanup := now }
  else s

/-! ### basic_auth -/

/-- `basic_auth::CACHE_EXPIRATION` (/repo/src/http_basic_auth.cpp:23). -/
def BASIC_EXPIRATION : Nat := 300

/-- `parse_authorization` (/repo/src/http_basic_auth.cpp:104-112). -/
def parseAuthorization (authorization : Bytes) : Option Bytes :=
  if (b! "Basic ").isPrefixOf authorization then
    let credentials := authorization.drop 6
    if credentials.isEmpty then none else some credentials
  else none

/-- `algorithm::base64_decode(credentials, user_password)` as used here, in a build without assertions. -/
def decodeCredentials (e : Env) (credentials : Bytes) : Option Bytes :=
  match Base64.decode e.charSigned credentials with
  | .ok out => some out
  | .assertFail out => some out
  | .fail => none
  | .oob => e.wild credentials

/-- `parse_credentials` (/repo/src/http_basic_auth.cpp:114-131). -/
def parseCredentials (e : Env) (credentials : Bytes) : Option (Bytes × Bytes) :=
  match decodeCredentials e credentials with
  | none => none
  | some up =>
    match up.idxOf? (c! ":") with
    | none => none
    | some 0 => none
    | some i => some (up.take i, up.drop (i + 1))

/-- Credentials presented by a request: `get_header(HEADER_AUTHORIZATION)` and `parse_authorization`
    (/repo/src/http_basic_auth.cpp:59-62). -/
def presented (e : Env) (req : Msg) : Option Bytes :=
  let authorization := req.headers.get e.ord (b! "Authorization")
  if authorization.isEmpty then none else parseAuthorization authorization

/-- What an authenticator decides about a request. -/
inductive Verdict where
  /-- no authentication needed: the request is passed on -/
  | open_
  /-- passed on, with this user attached to the request -/
  | user (name : Bytes)
  /-- 401 -/
  | unauthorized
  /-- cookie_auth: 302 to the configured page -/
  | redirectLogin
  /-- cookie_auth: login done, the cookie is set -/
  | loggedIn (cookie : Bytes)
  /-- cookie_auth: logout done, the cookie is deleted -/
  | loggedOut
  deriving Repr, DecidableEq

/-- The return value of `handle_request`: pass the request on? -/
def Verdict.pass : Verdict → Bool
  | .open_ => true
  | .user _ => true
  | _ => false

/-- The part of `basic_auth::handle_request` under the cache lock (/repo/src/http_basic_auth.cpp:64-87). -/
def basicCheck (e : Env) (now : Nat) (s : St) (credentials : Bytes) : Verdict × St :=
  match s.cache.lookup credentials with
  | some (_, name) => (.user name, { s with cache := s.cache.assign credentials (now, name) })
  | none =>
    match parseCredentials e credentials with
    | none => (.unauthorized, s)
    | some (name, pw) =>
      match getUserPw e.build s.users name pw with
      | none => (.unauthorized, s)
      | some _ => (.user name, { s with cache := s.cache.insert credentials (now, name) })

/-- `basic_auth::handle_request` (/repo/src/http_basic_auth.cpp:35-94). -/
def basic (e : Env) (now : Nat) (s : St) (req : Msg) : Verdict × St :=
  if needAuthentication s.users s.paths req then
    let s := expire BASIC_EXPIRATION now s
    match presented e req with
    | none => (.unauthorized, s)
    | some credentials => basicCheck e now s credentials
  else (.open_, s)

/-! ### cookie_auth -/

/-- `cookie_auth::CACHE_EXPIRATION` (/repo/src/http_cookie_auth.cpp:24). -/
def COOKIE_EXPIRATION : Nat := 3600

/-- The options `m_login`, `m_logout`, `m_redirect` (/repo/include/pion/http/cookie_auth.hpp). -/
structure Opts where
  login : Bytes := b! "/login"
  logout : Bytes := b! "/logout"
  redirect : Bytes := []

/-- `AUTH_COOKIE_NAME` (/repo/src/http_cookie_auth.cpp:26) and the value presented by a request. -/
def sessionCookie (e : Env) (req : Msg) : Bytes := req.cookies.get e.ord (b! "pion_session_id")

/-- `handle_unauthorized` (/repo/src/http_cookie_auth.cpp:171-197). -/
def cookieRefuse (o : Opts) : Verdict := if o.redirect.isEmpty then .unauthorized else .redirectLogin

/-- `process_login` (/repo/src/http_cookie_auth.cpp:105-169); `none`: the request is no login or logout. `rand`
    are the random bytes drawn for a new cookie. -/
def processLogin (e : Env) (o : Opts) (now : Nat) (rand : Bytes) (s : St) (req : Msg) : Option (Verdict × St) :=
  let resource := stripSlash req.resource
  if resource ≠ o.login ∧ resource ≠ o.logout then none
  else if resource = o.login then
    match getUserPw e.build s.users (req.queries.get e.ord (b! "user")) (req.queries.get e.ord (b! "pass")) with
    | none => some (cookieRefuse o, s)
    | some _ =>
      let cookie := Base64.encode rand
      some (.loggedIn cookie,
        { s with cache := s.cache.insert cookie (now, req.queries.get e.ord (b! "user")) })
  else
    let cookie := sessionCookie e req
    some (.loggedOut, if cookie.isEmpty then s else { s with cache := s.cache.erase cookie })

/-- The check of the session cookie (/repo/src/http_cookie_auth.cpp:72-90). -/
def cookieCheck (e : Env) (o : Opts) (now : Nat) (s : St) (req : Msg) : Verdict × St :=
  let cookie := sessionCookie e req
  if cookie.isEmpty then (cookieRefuse o, s)
  else
    match s.cache.lookup cookie with
    | some (_, name) => (.user name, { s with cache := s.cache.assign cookie (now, name) })
    | none => (cookieRefuse o, s)

/-- `cookie_auth::handle_request` (/repo/src/http_cookie_auth.cpp:53-91). -/
def cookie (e : Env) (o : Opts) (now : Nat) (rand : Bytes) (s : St) (req : Msg) : Verdict × St :=
  match processLogin e o now rand s req with
  | some r => r
  | none =>
    if needAuthentication s.users s.paths req then
      if !o.redirect.isEmpty && o.redirect == req.resource then (.open_, s)
      else cookieCheck e o now (expire COOKIE_EXPIRATION now s) req
    else (.open_, s)

/-! ### Histories -/

/-- What can happen to an authenticator. `rand`: random bytes drawn if the request is a successful login. -/
inductive Event where
  | request (now : Nat) (rand : Bytes) (req : Msg)
  | users (op : Users.Op)
  | restrict (r : Bytes)
  | permit (r : Bytes)

/-- Effect of an event, given the authenticator's request function. -/
def event (b : Build) (handle : Nat → Bytes → St → Msg → Verdict × St) (s : St) : Event → St
  | .request now rand req => (handle now rand s req).2
  | .users op => { s with users := (Users.step b s.users op).1 }
  | .restrict r => { s with paths := addRestrict s.paths r }
  | .permit r => { s with paths := addPermit s.paths r }

/-- State of a `basic_auth` object created at time `t0`, after a history. -/
def basicAfter (e : Env) (t0 : Nat) (h : List Event) : St :=
  h.foldl (event e.build fun now _ => basic e now) { cleanup := t0 }

/-- State of a `cookie_auth` object created at time `t0`, after a history. -/
def cookieAfter (e : Env) (o : Opts) (t0 : Nat) (h : List Event) : St :=
  h.foldl (event e.build fun now rand => cookie e o now rand) { cleanup := t0 }

end Verif.Auth
