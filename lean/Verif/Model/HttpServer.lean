import Verif.Model.Reader
import Verif.Model.Server
/-
Model of the life of a connection in `http::server`: reading requests and handling them, one after another
(/repo/src/http_server.cpp:28-132).
-/
namespace Verif.HttpServer
open Verif.Http Verif.Reader Verif.Server

/-- What the server is like when a request of this connection is handled. Other connections and other threads may change
    all of it between two requests, so that nothing is assumed about it. -/
structure Turn (H σ : Type) where
  /-- `m_resources` and `m_redirects` -/
  tables : Tables H
  /-- `m_auth_ptr`, and the state of the authenticator -/
  auth : Option (Auth σ)
  state : σ
  /-- what the handlers do -/
  run : H → Ret
  /-- `tcp_conn->is_open()` -/
  isOpen : Bool := true
  /-- `m_is_listening`, when the connection is finished with the request -/
  listening : Bool := true

/-- The error code that `handle_request` gets (/repo/src/http_server.cpp:38-43): that of the parser
    (/repo/src/http_reader.cpp:82,116), or that of the read (/repo/src/http_reader.cpp:163). -/
def readResult (isOpen error : Bool) (s : S) : Server.ReadResult :=
  if error then (if s.ec.isSome then .parserError isOpen else .otherError) else .ok

/-- `handle_request` for the request that a reader has read: the calls it makes. -/
def handled {H σ : Type} (t : Turn H σ) (error : Bool) (s : S) : List (Call H) :=
  (handleRequest t.run t.auth t.tables t.state (readResult t.isOpen error s) s.msg).1

/-- A connection of `http::server`: `handle_connection` creates a reader (/repo/src/http_server.cpp:28-36), which calls
    `handle_request`; if that gets an error or an invalid request, it marks the connection to be closed
    (/repo/src/http_server.cpp:41-42). After the answer `finish_connection` calls `handle_connection` again, if the
    connection is to be kept and the server is listening (/repo/src/tcp_server.cpp:247-267). The result is the calls
    made for each request. At most `n` requests are handled; `i` is the number of the first one, `m` the empty message
    that each reader starts with. `none`: the parser does not return. The handlers' answers are not modelled here, and
    handlers do not change the lifecycle of the connection. -/
def session {H σ : Type} (cfg : Cfg) (m : Msg) (turn : Nat → Turn H σ) : Nat → Nat → Conn → List Read →
    Option (List (List (Call H)))
  | 0, _, _, _ => some []
  | n + 1, i, c, reads =>
    match receive cfg c (fresh cfg m) reads with
    | none => none
    | some (_, _, .waiting, _) => some []
    | some (c, s, .done e, reads) =>
      if e = true ∨ s.msg.isValid = false ∨ c.lifecycle = .close ∨ (turn i).listening = false then
        some [handled (turn i) e s]
      else (session cfg m turn n (i + 1) c reads).map (handled (turn i) e s :: ·)

end Verif.HttpServer
