import Verif.Model.TcpServer
/-
Vocabulary for what users expect of a TCP server.
-/
namespace Verif.Spec.TcpServer
open Verif.TcpServer

/-- The connection exists and is not finished. -/
def Alive (s : St) (c : Nat) : Prop := s.status c ≠ .absent ∧ s.status c ≠ .finished

instance (s : St) (c : Nat) : Decidable (Alive s c) := inferInstanceAs (Decidable (_ ∧ _))

/-- A connection from a client, not finished: it was accepted or is about to be refused. -/
def open' : Status → Bool
  | .accepted _ _ => true
  | .serving => true
  | .orphan => true
  | _ => false

/-- The number of connections from clients that are not finished: the numbers below `next` are those given out. -/
def openCount (s : St) : Nat := (List.range s.next).countP fun c => open' (s.status c)

/-- States reached when the steps meet a contract. -/
inductive Reach (ok : St → Act → Prop) : St → Prop where
  | init : Reach ok {}
  | step {s s' : St} {a : Act} : Reach ok s → ok s a → s.step a = some s' → Reach ok s'

def Any (_ : St) (_ : Act) : Prop := True

/-- `start` and `stop` are not called while another call of `start` or `stop` is running. -/
def Serial (s : St) (a : Act) : Prop := (a = .start ∨ a = .stop) → s.starting = 0 ∧ s.stopping = 0

end Verif.Spec.TcpServer
