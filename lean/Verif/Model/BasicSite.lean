import Verif.Model.Auth
import Verif.Model.Responses
/-
An HTTP server with a basic authenticator, as its clients see it: what is answered to a request.
-/
namespace Verif.BasicSite
open Verif.Auth Verif.Server Verif.Responses

/-- A server: the calls that registered its handlers, what they do, how the authenticator names itself. A handler answers with
    one response writer; how it ends (`run`) and what it writes (`reply`) are parameters. -/
structure Site (H : Type) where
  env : Env
  ops : List (Op H)
  run : H → Ret
  reply : H → Msg → Reply
  realm : Bytes

/-- `m_auth_ptr->handle_request(http_request_ptr, tcp_conn)` (/repo/src/http_server.cpp:88-99) with a basic authenticator in
    the second `now`. -/
def authenticator (e : Env) (now : Nat) : Server.Auth St := fun req s => ((basic e now s req).1.pass, (basic e now s req).2)

/-- Who answers (/repo/src/http_server.cpp:38-132): the authenticator (/repo/src/http_basic_auth.cpp:91-93, 133-154), or the
    handler. `none`: anything else (errors, nothing found). -/
def answerOf {H : Type} (w : Site H) : List (Call H) → Option Reply
  | [.refused] => some (basicUnauthorized w.realm)
  | [.handler h q] => some (w.reply h q)
  | _ => none

/-- What the server answers to a request that was read without error, after the history `hist` of its authenticator, which was
    created in the second `start`. -/
def answer {H : Type} (w : Site H) (start : Nat) (hist : List Event) (now : Nat) (req : Msg) : Option Reply :=
  answerOf w (handleRequest w.run (some (authenticator w.env now)) (build w.ops) (basicAfter w.env start hist) .ok req).1

end Verif.BasicSite
