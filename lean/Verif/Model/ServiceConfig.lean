import Verif.Model.Chars
/-
Model of `plugin_server::load_service_config` (/repo/src/http_plugin_server.cpp:54-239).
-/
namespace Verif.Config

/-- `isalpha` in the "C" locale, for a character read with `get()`. -/
def isAlpha (c : UInt8) : Bool := (0x41 ≤ c && c ≤ 0x5a) || (0x61 ≤ c && c ≤ 0x7a)
/-- `tolower` in the "C" locale. -/
def toLower (c : UInt8) : UInt8 := if 0x41 ≤ c ∧ c ≤ 0x5a then c + 0x20 else c

/-- The two kinds of authenticators (/repo/src/http_plugin_server.cpp:179-184). -/
inductive Kind where
  | basic | cookie
  deriving Repr, DecidableEq

/-- `my_auth_ptr`: the kind of the object and the calls of `add_restrict` and `add_user` it has got, in order. -/
structure Auth where
  kind : Kind
  restrict : List Bytes := []
  users : List (Bytes × Bytes) := []
  deriving Repr, DecidableEq

/-- Calls with an effect outside the function: `plugin::add_plugin_directory`, `load_service`,
    `set_service_option`. -/
inductive Call where
  | addDirectory (dir : Bytes)
  | loadService (resource name : Bytes)
  | setOption (resource name value : Bytes)
  deriving Repr, DecidableEq

/-- How the function ends, with the calls made until then. `finished`: `set_authentication(auth)` was called, with a
    null pointer for `none`; `badConfig`: `error::bad_config` was thrown; `threw`: `load_service` or
    `set_service_option` (the last call of the list) threw. In the last two cases the authenticator is lost. -/
inductive Out where
  | finished (auth : Option Auth) (calls : List Call)
  | badConfig (calls : List Call)
  | threw (calls : List Call)
  deriving Repr, DecidableEq

/-- Which of the calls of `load_service` and `set_service_option` throw, given the calls made before. An exception of
    `add_plugin_directory` is caught (/repo/src/http_plugin_server.cpp:172-175). -/
abbrev Env := List Call → Call → Bool

/-- `ParseState` (/repo/src/http_plugin_server.cpp:68-70). -/
inductive PState where
  | newline | command | resource | value | comment | username
  deriving Repr, DecidableEq

/-- The local variables (/repo/src/http_plugin_server.cpp:67-76), and the calls made so far. -/
structure St where
  ps : PState := .newline
  command : Bytes := []
  resource : Bytes := []
  username : Bytes := []
  value : Bytes := []
  auth : Option Auth := none
  calls : List Call := []
  deriving Repr, DecidableEq

inductive Step where
  | next (s : St)
  | stop (o : Out)
  deriving Repr, DecidableEq

/-- A call which may throw. -/
def St.make (env : Env) (s : St) (c : Call) : Step :=
  if env s.calls c then .stop (.threw (s.calls ++ [c])) else .next { s with calls := s.calls ++ [c] }

/-- `throw error::bad_config()`. -/
def St.bad (s : St) : Step := .stop (.badConfig s.calls)

/-- The value is finished (/repo/src/http_plugin_server.cpp:164-217), without the last two assignments. -/
def St.finishValue (env : Env) (s : St) : Step :=
  if s.value.isEmpty then s.bad
  else if s.command = b! "path" then .next { s with calls := s.calls ++ [.addDirectory s.value] }
  else if s.command = b! "auth" then
    if s.value = b! "basic" then .next { s with auth := some { kind := .basic } }
    else if s.value = b! "cookie" then .next { s with auth := some { kind := .cookie } }
    else s.bad
  else if s.command = b! "restrict" then
    match s.auth with
    | none => s.bad
    | some a => .next { s with auth := some { a with restrict := a.restrict ++ [s.value] } }
  else if s.command = b! "user" then
    match s.auth with
    | none => s.bad
    | some a => .next { s with auth := some { a with users := a.users ++ [(s.username, s.value)] } }
  else if s.command = b! "service" then s.make env (.loadService s.resource s.value)
  else if s.command = b! "option" then
    match s.value.idxOf? (c! "=") with
    | none => s.bad
    | some pos => s.make env (.setOption s.resource (s.value.take pos) (s.value.drop (pos + 1)))
  else .next s

/-- One character (/repo/src/http_plugin_server.cpp:80-231). -/
def St.step (env : Env) (s : St) (c : UInt8) : Step :=
  match s.ps with
  | .newline =>
    if c = c! "#" then .next { s with ps := .comment }
    else if isAlpha c then .next { s with ps := .command, command := s.command ++ [toLower c] }
    else if c ≠ 0x0d ∧ c ≠ 0x0a then s.bad
    else .next s
  | .command =>
    if c = c! " " ∨ c = 0x09 then
      if s.command = b! "path" ∨ s.command = b! "auth" ∨ s.command = b! "restrict" then
        .next { s with value := [], ps := .value }
      else if s.command = b! "service" ∨ s.command = b! "option" then .next { s with resource := [], ps := .resource }
      else if s.command = b! "user" then .next { s with username := [], ps := .username }
      else s.bad
    else if !isAlpha c then s.bad
    else .next { s with command := s.command ++ [toLower c] }
  | .resource =>
    if c = c! " " ∨ c = 0x09 then
      if s.resource.isEmpty then .next s else .next { s with value := [], ps := .value }
    else if c = 0x0d ∨ c = 0x0a then s.bad
    else .next { s with resource := s.resource ++ [c] }
  | .username =>
    if c = c! " " ∨ c = 0x09 then
      if s.username.isEmpty then .next s else .next { s with value := [], ps := .value }
    else if c = 0x0d ∨ c = 0x0a then s.bad
    else .next { s with username := s.username ++ [c] }
  | .value =>
    if c = 0x0d ∨ c = 0x0a then
      match s.finishValue env with
      | .next s => .next { s with command := [], ps := .newline }
      | .stop o => .stop o
    else if c = c! " " ∨ c = 0x09 then
      if s.value.isEmpty then .next s else .next { s with value := s.value ++ [c] }
    else .next { s with value := s.value ++ [c] }
  | .comment => if c = 0x0d ∨ c = 0x0a then .next { s with ps := .newline } else .next s

/-- The `while` loop and the end of the function (/repo/src/http_plugin_server.cpp:79-239). -/
def loop (env : Env) (s : St) : Bytes → Out
  | [] => .finished s.auth s.calls
  | c :: t => match s.step env c with
    | .next s => loop env s t
    | .stop o => o

/-- `load_service_config` (/repo/src/http_plugin_server.cpp:54-239) on a file with this text; finding and opening the
    file is not modelled. -/
def load (env : Env) (text : Bytes) : Out := loop env {} text

end Verif.Config
