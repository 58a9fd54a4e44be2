import Verif.Model.Auth
/-
The objects `http::cookie_auth` and `http::basic_auth` with their constructors and options (/repo/src/http_cookie_auth.cpp,
/repo/src/http_basic_auth.cpp), and the random number generator that makes up the session identifiers.

`Model.Auth` takes the random bytes of a login as an argument; here they come from the generator of the object. One thread
calls the object at a time (`Model.AuthThreads` has several). The generator (`boost::mt19937` with a uniform distribution
over 0..255) is a parameter: which bytes it gives for which seed.
-/
namespace Verif.CookieAuth
open Verif.Auth

/-- `m_random_die` (/repo/include/pion/http/cookie_auth.hpp:160-167): the byte number `i` that is drawn after seeding with
    `seed`. -/
abbrev Gen := Nat → Nat → UInt8

/-- A `cookie_auth` object: the seed of its generator, the number of bytes drawn from it so far, the options and the rest of
    its state. -/
structure Object where
  seed : Nat
  drawn : Nat
  opts : Opts
  st : St

/-- The constructor (/repo/src/http_cookie_auth.cpp:31-50). `now` is the reading of `second_clock::universal_time()`, `time`
    the one of `::time(NULL)`, of which the lower 32 bits are the seed; 100 bytes are drawn and thrown away. -/
def create (now time : Nat) (opts : Opts) : Object where
  seed := time % 2 ^ 32
  drawn := 100
  opts := opts
  st := { cleanup := now }

/-- `cookie_auth::set_option` (/repo/src/http_cookie_auth.cpp:93-102); `none`: `error::bad_arg` is thrown. -/
def setOption (a : Object) (name value : Bytes) : Option Object :=
  if name = b! "login" then some { a with opts := { a.opts with login := value } }
  else if name = b! "logout" then some { a with opts := { a.opts with logout := value } }
  else if name = b! "redirect" then some { a with opts := { a.opts with redirect := value } }
  else none

/-- `basic_auth::set_option` (/repo/src/http_basic_auth.cpp:96-102) on `m_realm`; `none`: `error::bad_arg` is thrown. -/
def setRealm (_realm name value : Bytes) : Option Bytes := if name = b! "realm" then some value else none

/-- `RANDOM_COOKIE_BYTES` (/repo/src/http_cookie_auth.cpp:25). -/
def RANDOM_COOKIE_BYTES : Nat := 20

/-- The bytes that are drawn for the next session (/repo/src/http_cookie_auth.cpp:133-137). -/
def draw (g : Gen) (a : Object) : Bytes := (List.range RANDOM_COOKIE_BYTES).map fun i => g a.seed (a.drawn + i)

/-- The call has opened a session. -/
def opened : Verdict → Bool
  | .loggedIn _ => true
  | _ => false

/-- `cookie_auth::handle_request` (/repo/src/http_cookie_auth.cpp:53-91): only a successful login draws. -/
def handle (g : Gen) (e : Env) (now : Nat) (a : Object) (req : Msg) : Verdict × Object :=
  let r := cookie e a.opts now (draw g a) a.st req
  (r.1, { a with st := r.2, drawn := a.drawn + if opened r.1 then RANDOM_COOKIE_BYTES else 0 })

/-- What happens to the object: requests (with the reading of the clock), and changes of the users and of the lists. -/
inductive Call where
  | request (now : Nat) (req : Msg)
  | users (op : Users.Op)
  | restrict (r : Bytes)
  | permit (r : Bytes)

/-- The effect of a call. -/
def call (g : Gen) (e : Env) (a : Object) : Call → Object
  | .request now req => (handle g e now a req).2
  | .users op => { a with st := { a.st with users := (Users.step e.build a.st.users op).1 } }
  | .restrict r => { a with st := { a.st with paths := addRestrict a.st.paths r } }
  | .permit r => { a with st := { a.st with paths := addPermit a.st.paths r } }

/-- The object after some calls. -/
def after (g : Gen) (e : Env) (a : Object) (calls : List Call) : Object := calls.foldl (call g e) a

end Verif.CookieAuth
