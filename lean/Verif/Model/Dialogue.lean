import Verif.Model.Conversation
/-
A client made of blocking calls: `request.send(connection)`, `response.receive(connection)`, again and again over one
connection (`message::send` and `message::receive`, /repo/src/http_message.cpp:33-46, 48-141), with a server as in
Model/Conversation at the other end.
-/
namespace Verif.Conversation
open Verif.Http Verif.Reader

/-- What one round of the client led to: what the server received and sent, and the response the client has (`none`: an
    error, or it waits). -/
structure Round where
  served : Exchange
  response : Option Msg
  deriving Repr, DecidableEq

/-- The client sends `ms` one after another, and reads a response after each, with the object `rm`, as long as there is no error and
    the connection is to be kept open (`get_keep_alive`, /repo/include/pion/tcp/connection.hpp:597-600); what `message::send` writes
    into the `Connection` header is the same flag. `cc` and `sc` are the connections at the two ends, `cr` and `sr` what was
    delivered and not read. `cut k` is how the network cuts what is sent; the requests have even numbers, the responses odd ones.
    The server waits for the next request or ends the connection as in `converse`. Writing succeeds; a client that goes on although
    the server has ended the connection gets nothing more. -/
def dialogue (ccfg scfg : Cfg) (rm sm : Msg) (ct st : TableOrder) (answer : Msg → Answer) (cut : Nat → Bytes → List Bytes) :
    Nat → Conn → Conn → List Read → List Read → List Msg → Option (List Round)
  | _, _, _, _, _, [] => some []
  | k, cc, sc, cr, sr, m :: ms =>
    match m.transmit ct true (cc.lifecycle != .close) false with
    | none => none
    | some (_, wire) =>
      match receive scfg sc (fresh scfg sm) (sr ++ (cut (2 * k) wire).map .data) with
      | none => none
      | some (_, _, .waiting, _) => some []
      | some (sc, s, .done e, sr) =>
        let w := respond st answer s.ec.isSome ⟨e, s.msg⟩ sc.lifecycle
        let sc : Conn := { sc with lifecycle := (w.map (·.lifecycle)).getD sc.lifecycle }
        let x : Exchange := ⟨⟨e, s.msg⟩, w.map (·.wire)⟩
        let ends : Bool := e || !s.msg.isValid || sc.lifecycle == .close
        match syncReceive ccfg cc rm (cr ++ (cut (2 * k + 1) (x.response.getD [])).map .data ++ if ends then [.error] else []) with
        | none => none
        | some (cc, r, .done false, cr) =>
          if cc.lifecycle = .close || ends then some [⟨x, some r.msg⟩]
          else (dialogue ccfg scfg rm sm ct st answer cut (k + 1) cc sc cr sr ms).map (⟨x, some r.msg⟩ :: ·)
        | some _ => some [⟨x, none⟩]

end Verif.Conversation
