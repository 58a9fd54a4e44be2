import Verif.Model.PluginServer
import Verif.Spec.TcpServer
import Verif.Spec.Dispatch
/-
Vocabulary for what the author of a web service expects of the server that uses it.
-/
namespace Verif.Spec.PluginServer
open Verif.PluginServer

/-- The service an event happens to. -/
def subject : Ev → Nat
  | .told o _ | .option o _ _ | .start o | .stop o | .request o _ _ | .destroyed o _ => o

/-- The life of a service. -/
inductive Phase where
  /-- not handed over yet -/
  | new
  /-- handed over, not started -/
  | idle
  /-- started and not stopped -/
  | running
  | gone
  /-- it got a call it was not ready for -/
  | fault
  deriving Repr, DecidableEq

/-- What may happen when: a service is told its resource first; it is started, gets requests and is stopped, any number of
    times; options may be set at any time; it is destroyed when it is not running, and that is the end. -/
def Phase.next : Phase → Ev → Phase
  | .new, .told _ _ => .idle
  | .idle, .start _ => .running
  | .idle, .option _ _ _ => .idle
  | .idle, .destroyed _ _ => .gone
  | .running, .request _ _ _ => .running
  | .running, .option _ _ _ => .running
  | .running, .stop _ => .idle
  | _, _ => .fault

/-- The phase of service `o` after the events. -/
def phase (o : Nat) (trace : List Ev) : Phase :=
  trace.foldl (fun p e => if subject e = o then p.next e else p) .new

/-- States reached when the steps meet a contract. -/
inductive Reach (ok : St → Act → Prop) : St → Prop where
  | init : Reach ok {}
  | step {s s' : St} {a : Act} : Reach ok s → ok s a → s.step a = some s' → Reach ok s'

def Any (_ : St) (_ : Act) : Prop := True

/-- Calls of the user of the server; the other steps are continuations of calls and events on connections. -/
def isCall : Act → Bool
  | .addService _ _ | .loadService _ _ _ _ | .setOption _ _ _ | .addResource _ _ | .removeResource _ | .addRedirect _ _
  | .start _ | .stop | .clear => true
  | _ => false

/-- Calls do not overlap. -/
def Serial (s : St) (a : Act) : Prop :=
  isCall a = true → s.tcp.starting = 0 ∧ s.tcp.stopping = 0 ∧ s.clearing = 0 ∧ s.unbinding = 0

/-- The object handed over, if any. -/
def handed : Act → Option Nat
  | .addService _ o | .loadService _ _ _ o => some o
  | _ => none

/-- No object is handed over twice (nor is the memory of a destroyed one used again). -/
def Fresh (s : St) (a : Act) : Prop := ∀ o r, handed a = some o → .told o r ∉ s.trace

/-- Calls do not overlap and no object is handed over twice. -/
def Orderly (s : St) (a : Act) : Prop := Serial s a ∧ Fresh s a

/-- Moreover services are handed over while the server is stopped, not under a name that is in use, and the server can
    be started when it is told to. -/
structure Prepared (s : St) (a : Act) : Prop where
  orderly : Orderly s a
  stopped : ∀ o, handed a = some o → s.tcp.listening = false
  unused : ∀ r o, a = .addService r o → Plugins.get s.services (Server.stripSlash r) = none
  binds : ∀ b, a = .start b → b = true

/-- The resource a service is handed over with, if any. -/
def handedFor : Act → Option Bytes
  | .addService r _ | .loadService r _ _ _ => some r
  | _ => none

/-- The names under which services are handed over do not end with two slashes. -/
structure Clean (s : St) (a : Act) : Prop where
  orderly : Orderly s a
  clean : ∀ r, handedFor a = some r → ∀ p, r ≠ p ++ b! "//"

/-- What a step registers with the server: services under the names they are handed over with (if loading succeeds), the
    resources and redirects of the user; `clear` takes the resources away at its end. -/
def registers (s s' : St) : Act → List (Server.Op Handler)
  | .addService r o => [.addResource (Spec.Dispatch.noSlash r) (.service o)]
  | .loadService r _ _ o =>
    if s'.trace.length = s.trace.length then [] else [.addResource (Spec.Dispatch.noSlash r) (.service o)]
  | .addResource r n => [.addResource r (.other n)]
  | .removeResource r => [.removeResource r]
  | .addRedirect r t => [.addRedirect r t]
  | .stopLoop .unbind => if s'.unbindStop < s.unbindStop then [.clear] else []
  | .clearResources => if s'.unbindStop = s.unbindStop then [.clear] else []
  | _ => []

/-- The server is in state `s` after some steps, which registered `ops`. -/
inductive History : St → List (Server.Op Handler) → Prop where
  | init : History {} []
  | step {s s' : St} {ops : List (Server.Op Handler)} {a : Act} : History s ops → s.step a = some s' →
      History s' (ops ++ registers s s' a)

end Verif.Spec.PluginServer
