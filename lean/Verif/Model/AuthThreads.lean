import Verif.Model.Auth
/-
Model of `http::basic_auth` and `http::cookie_auth` used by several threads at once (/repo/src/http_auth.cpp,
/repo/src/http_basic_auth.cpp, /repo/src/http_cookie_auth.cpp, /repo/include/pion/user.hpp).

Each call of `handle_request` is split at its accesses to shared memory. A section under a mutex that takes no other mutex
is one step. The section of `basic_auth` under `m_cache_mutex` that calls `get_user` is several steps, during which the
mutex is held. Accesses without a lock are steps of their own: `m_cache_cleanup_time` is read outside of the mutex
(/repo/src/http_basic_auth.cpp:42, /repo/src/http_cookie_auth.cpp:263), and the random number generator is used without
one (/repo/src/http_cookie_auth.cpp:136): a draw reads its state and writes the next one.

Simplifications: memory is sequentially consistent (the unlocked accesses are data races, hence undefined behaviour, which
`Props.AuthThreads` shows to be reachable); the clock does not run backwards; the generator is a fixed sequence of bytes
with a position; the options (`m_realm`, `m_login`, `m_logout`, `m_redirect`) are not changed while requests are handled.
Calls have numbers, each used once; any number of calls may run at once.
-/
namespace Verif.AuthThreads
open Verif.Auth Verif.Server Verif.Users

/-- The class of the authenticator. -/
inductive Kind where
  | basic
  | cookie (o : Opts)

/-- `gen`: the bytes that the random number generator gives one after another. -/
structure Cfg where
  env : Env
  kind : Kind
  gen : Nat → UInt8

/-- `CACHE_EXPIRATION` (/repo/src/http_basic_auth.cpp:23, /repo/src/http_cookie_auth.cpp:24). -/
def Cfg.limit (cfg : Cfg) : Nat := match cfg.kind with | .basic => BASIC_EXPIRATION | .cookie _ => COOKIE_EXPIRATION

/-- `RANDOM_COOKIE_BYTES` (/repo/src/http_cookie_auth.cpp:25). -/
def COOKIE_BYTES : Nat := 20

/-- Where a call of `handle_request` is. -/
inductive Pc where
  /-- before `m_user_manager->empty()` (/repo/src/http_auth.cpp:40) -/
  | empty
  /-- before locking `m_resource_mutex` (/repo/src/http_auth.cpp:46) -/
  | lists
  /-- before reading the clock (/repo/src/http_basic_auth.cpp:41, /repo/src/http_cookie_auth.cpp:69) -/
  | clock
  /-- before reading `m_cache_cleanup_time` -/
  | cleanup (now : Nat)
  /-- before locking `m_cache_mutex` for the expiry pass -/
  | expire (now : Nat)
  /-- before locking `m_cache_mutex` to look the credentials or the cookie up -/
  | lookup (now : Nat)
  /-- `basic_auth`: before `get_user`, holding `m_cache_mutex` (/repo/src/http_basic_auth.cpp:79) -/
  | getUser (now : Nat) (cred name pw : Bytes)
  /-- `basic_auth`: before the insertion into the cache, holding `m_cache_mutex` (/repo/src/http_basic_auth.cpp:82) -/
  | store (now : Nat) (cred name : Bytes)
  /-- `cookie_auth`: before `get_user` (/repo/src/http_cookie_auth.cpp:125) -/
  | login
  /-- before reading the state of the generator, with the bytes drawn so far -/
  | draw (acc : Bytes)
  /-- before writing the state of the generator, which was read as `pos` -/
  | drawn (acc : Bytes) (pos : Nat)
  /-- before reading the clock (/repo/src/http_cookie_auth.cpp:141) -/
  | loginClock (cookie : Bytes)
  /-- before locking `m_cache_mutex` to insert the session (/repo/src/http_cookie_auth.cpp:142) -/
  | insert (now : Nat) (cookie : Bytes)
  /-- before locking `m_cache_mutex` to remove the session (/repo/src/http_cookie_auth.cpp:149) -/
  | logout
  /-- decided -/
  | done (v : Verdict)
  | returned (v : Verdict)

/-- What the threads share: users, lists, cache and clean-up time; the holder of `m_cache_mutex` between steps; the clock;
    the position of the generator. -/
structure Shared where
  auth : Auth.St := {}
  lock : Option Nat := none
  clock : Nat := 0
  rng : Nat := 0

structure St where
  sh : Shared := {}
  calls : Nat → Option (Msg × Pc) := fun _ => none

/-- The part of `need_authentication` under `m_resource_mutex` (/repo/src/http_auth.cpp:46-62). -/
def needLists (p : Paths) (req : Msg) : Bool :=
  if p.restrict.isEmpty then false
  else if findResource p.restrict (stripSlash req.resource) then
    if p.white.isEmpty then true else !findResource p.white (stripSlash req.resource)
  else false

/-- The beginning of `handle_request` (/repo/src/http_cookie_auth.cpp:55-57, 107-118, 146-149). -/
def first (cfg : Cfg) (req : Msg) : Pc :=
  match cfg.kind with
  | .basic => .empty
  | .cookie o =>
    let resource := stripSlash req.resource
    if resource ≠ o.login ∧ resource ≠ o.logout then .empty
    else if resource = o.login then .login
    else if (sessionCookie cfg.env req).isEmpty then .done .loggedOut
    else .logout

/-- After `need_authentication` returned true (/repo/src/http_basic_auth.cpp:41, /repo/src/http_cookie_auth.cpp:63-66). -/
def needed (cfg : Cfg) (req : Msg) : Pc :=
  match cfg.kind with
  | .basic => .clock
  | .cookie o => if !o.redirect.isEmpty && o.redirect == req.resource then .done .open_ else .clock

/-- After the expiry pass (/repo/src/http_basic_auth.cpp:59-64, /repo/src/http_cookie_auth.cpp:73-76, 89). -/
def expired (cfg : Cfg) (req : Msg) (now : Nat) : Pc :=
  match cfg.kind with
  | .basic => match presented cfg.env req with
    | none => .done .unauthorized
    | some _ => .lookup now
  | .cookie o => if (sessionCookie cfg.env req).isEmpty then .done (cookieRefuse o) else .lookup now

/-- The section that looks the credentials or the cookie up (/repo/src/http_basic_auth.cpp:64-77,
    /repo/src/http_cookie_auth.cpp:76-85), up to the call of `get_user`, if it comes to that. -/
def lookUp (cfg : Cfg) (i : Nat) (sh : Shared) (req : Msg) (now : Nat) : Shared × Pc :=
  match cfg.kind with
  | .basic => match presented cfg.env req with
    | none => (sh, .done .unauthorized)
    | some cred => match sh.auth.cache.lookup cred with
      | some (_, name) =>
        ({ sh with auth := { sh.auth with cache := sh.auth.cache.assign cred (now, name) } }, .done (.user name))
      | none => match parseCredentials cfg.env cred with
        | none => (sh, .done .unauthorized)
        | some (name, pw) => ({ sh with lock := some i }, .getUser now cred name pw)
  | .cookie o =>
    let cookie := sessionCookie cfg.env req
    match sh.auth.cache.lookup cookie with
    | some (_, name) =>
      ({ sh with auth := { sh.auth with cache := sh.auth.cache.assign cookie (now, name) } }, .done (.user name))
    | none => (sh, .done (cookieRefuse o))

/-- The answer to a login that fails. -/
def refusal (cfg : Cfg) : Verdict := match cfg.kind with | .basic => .unauthorized | .cookie o => cookieRefuse o

/-- The next step of call `i`; `none`: it waits for `m_cache_mutex`, or is decided. -/
def own (cfg : Cfg) (i : Nat) (sh : Shared) (req : Msg) : Pc → Option (Shared × Pc)
  | .empty => some (sh, if isEmpty sh.auth.users then .done .open_ else .lists)
  | .lists => some (sh, if needLists sh.auth.paths req then needed cfg req else .done .open_)
  | .clock => some (sh, .cleanup sh.clock)
  | .cleanup now => some (sh, if sh.auth.cleanup + cfg.limit < now then .expire now else expired cfg req now)
  | .expire now =>
    if sh.lock.isSome then none
    else some ({ sh with auth := { sh.auth with
      cache := sh.auth.cache.filter fun e => !decide (e.2.1 + cfg.limit < now), cleanup := now } }, expired cfg req now)
  | .lookup now => if sh.lock.isSome then none else some (lookUp cfg i sh req now)
  | .getUser now cred name pw =>
    match getUserPw cfg.env.build sh.auth.users name pw with
    | none => some ({ sh with lock := none }, .done .unauthorized)
    | some _ => some (sh, .store now cred name)
  | .store now cred name =>
    some ({ sh with lock := none, auth := { sh.auth with cache := sh.auth.cache.insert cred (now, name) } },
      .done (.user name))
  | .login =>
    match getUserPw cfg.env.build sh.auth.users (req.queries.get cfg.env.ord (b! "user"))
        (req.queries.get cfg.env.ord (b! "pass")) with
    | none => some (sh, .done (refusal cfg))
    | some _ => some (sh, .draw [])
  | .draw acc => some (sh, .drawn acc sh.rng)
  | .drawn acc pos =>
    let acc := acc ++ [cfg.gen pos]
    some ({ sh with rng := pos + 1 }, if acc.length < COOKIE_BYTES then .draw acc else .loginClock (Base64.encode acc))
  | .loginClock cookie => some (sh, .insert sh.clock cookie)
  | .insert now cookie =>
    if sh.lock.isSome then none
    else some ({ sh with auth := { sh.auth with
      cache := sh.auth.cache.insert cookie (now, req.queries.get cfg.env.ord (b! "user")) } }, .done (.loggedIn cookie))
  | .logout =>
    if sh.lock.isSome then none
    else some ({ sh with auth := { sh.auth with cache := sh.auth.cache.erase (sessionCookie cfg.env req) } },
      .done .loggedOut)
  | .done _ => none
  | .returned _ => none

/-- What can happen: a call begins, makes a step, returns; other threads call the user manager, `add_restrict` or
    `add_permit` (each one section under a mutex); time passes. -/
inductive Act where
  | call (i : Nat) (req : Msg)
  | step (i : Nat)
  | ret (i : Nat) (v : Verdict)
  | users (op : Users.Op)
  | restrict (r : Bytes)
  | permit (r : Bytes)
  | tick (d : Nat)

def St.set (s : St) (i : Nat) (c : Msg × Pc) (sh : Shared) : St :=
  { sh := sh, calls := fun k => if k = i then some c else s.calls k }

def St.step (cfg : Cfg) (s : St) : Act → Option St
  | .call i req => match s.calls i with
    | none => some (s.set i (req, first cfg req) s.sh)
    | some _ => none
  | .step i => match s.calls i with
    | none => none
    | some (req, pc) => match own cfg i s.sh req pc with
      | none => none
      | some (sh, pc) => some (s.set i (req, pc) sh)
  | .ret i v => match s.calls i with
    | some (req, .done w) => if v = w then some (s.set i (req, .returned v) s.sh) else none
    | _ => none
  | .users op => some { s with sh := { s.sh with auth := { s.sh.auth with users := (Users.step cfg.env.build s.sh.auth.users op).1 } } }
  | .restrict r => some { s with sh := { s.sh with auth := { s.sh.auth with paths := addRestrict s.sh.auth.paths r } } }
  | .permit r => some { s with sh := { s.sh with auth := { s.sh.auth with paths := addPermit s.sh.auth.paths r } } }
  | .tick d => some { s with sh := { s.sh with clock := s.sh.clock + d } }

/-- The state after some actions, of an authenticator created at time `t0`; `none`: they are impossible in this order. -/
def run (cfg : Cfg) (t0 : Nat) (tr : List Act) : Option St :=
  tr.foldlM (St.step cfg) { sh := { auth := { cleanup := t0 }, clock := t0 } }

end Verif.AuthThreads
