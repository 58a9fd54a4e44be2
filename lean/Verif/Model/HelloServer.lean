import Verif.Model.TcpServer
import Verif.Model.Piond
/-
Model of the program `helloserver` (/repo/utils/helloserver.cpp): a `tcp::server` (`Model/TcpServer`) that sends a greeting to
whoever connects.

Not modelled: signals and the log; what the client sends is never read by the program.
-/
namespace Verif.HelloServer
open Verif

/-- `HELLO_MESSAGE` (/repo/utils/helloserver.cpp:27). -/
def message : Bytes := b! "Hello there!\r\n"

/-- The server; for each connection how much of the message the system has taken, and what has been sent. -/
structure St where
  tcp : TcpServer.St := {}
  pos : Nat → Nat := fun _ => 0
  out : Nat → Bytes := fun _ => []

inductive Act where
  /-- a step of the server that does not concern the use of a connection -/
  | server (a : TcpServer.Act)
  /-- the accept handler calls `handle_connection` (/repo/utils/helloserver.cpp:25-31), which begins to write -/
  | serve (c : Nat)
  /-- the system takes `n` bytes (`boost::asio::async_write` goes on until all are written) -/
  | take (c n : Nat)
  /-- the write fails, and the handler is called: `finish`, which is not told of the error (/repo/utils/helloserver.cpp:30) -/
  | broken (c : Nat)
  /-- the write is complete, and the handler is called: `finish` (/repo/utils/helloserver.cpp:30) -/
  | done (c : Nat)
  deriving Repr, DecidableEq

/-- Steps that only the user of a connection makes; this user makes them as below. -/
def own : TcpServer.Act → Bool
  | .serve _ | .finish .. | .drop _ => true
  | _ => false

/-- One step; `none` if it cannot happen. The lifecycle is "close" (/repo/utils/helloserver.cpp:28). -/
def St.step (s : St) (a : Act) : Option St :=
  match a with
  | .server a => if own a then none else (s.tcp.step a).map fun t => { s with tcp := t }
  | .serve c => (s.tcp.step (.serve c)).map fun t => { s with tcp := t }
  | .take c n =>
    if s.tcp.status c = .serving ∧ 0 < n ∧ s.pos c + n ≤ message.length then
      some { s with
        pos := fun d => if d = c then s.pos c + n else s.pos d
        out := fun d => if d = c then s.out c ++ (message.drop (s.pos c)).take n else s.out d }
    else none
  | .broken c =>
    if s.pos c < message.length then (s.tcp.step (.finish c false false)).map fun t => { s with tcp := t } else none
  | .done c =>
    if s.pos c = message.length then (s.tcp.step (.finish c false false)).map fun t => { s with tcp := t } else none

def St.run (s : St) : List Act → Option St
  | [] => some s
  | a :: as => match s.step a with
    | none => none
    | some s' => s'.run as

/-- `main` (/repo/utils/helloserver.cpp:38-51) and the constructor of `tcp::server` (/repo/src/tcp_server.cpp:44-53), which
    gives an `unsigned int` where an endpoint has `unsigned short`: the port the program listens on, 0 being any free one;
    `none` if it says how it is to be used. The arguments are those after the name of the program. -/
def port : List Bytes → Option UInt16
  | [] => some (8080 : UInt32).toUInt16
  | [a] =>
    let p := UInt32.ofNat (Piond.strtoul10 a)
    some (if p = 0 then (8080 : UInt32) else p).toUInt16
  | _ => none

end Verif.HelloServer
