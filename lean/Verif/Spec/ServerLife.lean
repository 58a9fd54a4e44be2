import Verif.Model.ServerLife
/-
Vocabulary for what users expect of servers that share a scheduler, and the contract under which it holds.
-/
namespace Verif.Spec.ServerLife
open Verif.ServerLife

/-- The server in whose `start` the thread is. -/
def starts : Pc → Option Nat
  | .startListen v => some v
  | .startLook v => some v
  | .startUp v => some v
  | .startCount v => some v
  | _ => none

/-- The server in whose `stop` or destructor the thread is. -/
def stops : Pc → Option Nat
  | .stopLoop v _ => some v
  | _ => none

/-- The server in whose destructor the thread is. -/
def destroys : Pc → Option Nat
  | .stopLoop v true => some v
  | _ => none

/-- The server in whose `join` the thread is. -/
def joins : Pc → Option Nat
  | .joinWait v _ => some v
  | _ => none

/-- The thread is in `shutdown` of the scheduler. -/
def shuts : Pc → Bool
  | .shutWait _ => true
  | .shutJoin => true
  | _ => false

/-- The connection exists and is not finished. -/
def Alive (s : St) (c : Nat) : Prop := s.status c ≠ .absent ∧ s.status c ≠ .finished

/-- The states reached by schedules whose steps all meet a contract. -/
inductive Reach (W : List Nat) (ok : St → Nat → Act → Prop) : St → Prop where
  | init : Reach W ok {}
  | step {s s' : St} {t : Nat} {a : Act} : Reach W ok s → ok s t a → s.step W t a = some s' → Reach W ok s'

/-- From one state to another by steps that all meet a contract. -/
inductive Steps (W : List Nat) (ok : St → Nat → Act → Prop) (s : St) : St → Prop where
  | refl : Steps W ok s s
  | step {s1 s2 : St} {t : Nat} {a : Act} : Steps W ok s s1 → ok s1 t a → s1.step W t a = some s2 → Steps W ok s s2

/-- No contract: any calls by any threads. -/
def Any (_ : St) (_ : Nat) (_ : Act) : Prop := True

/-- No thread is in `start`, `stop` or the destructor of the server. -/
def Quiet (s : St) (v : Nat) : Prop := ∀ i, starts (s.pc i) ≠ some v ∧ stops (s.pc i) ≠ some v

/-- The contract: a server that was destroyed is not used; `start`, `stop` and the destructor of one server are not
    called while another call of them is running; the destructor is not called, and does not run, while a thread is in
    `join`; `shutdown` is not called while a thread is in `start`, nor `start` while a thread is in `shutdown`. There
    are less than 2^32 servers. -/
def Careful (s : St) (_ : Nat) : Act → Prop
  | .start v => s.gone v = false ∧ Quiet s v ∧ (∀ i, shuts (s.pc i) = false) ∧ v < 2 ^ 32 - 1
  | .stop v => s.gone v = false ∧ Quiet s v
  | .join v => s.gone v = false ∧ ∀ i, destroys (s.pc i) ≠ some v
  | .destroy v => s.gone v = false ∧ Quiet s v ∧ ∀ i, joins (s.pc i) ≠ some v
  | .shutdown => ∀ i, starts (s.pc i) = none
  | _ => True

/-- No thread goes on from a wait before it was notified. -/
def Notified (s : St) (t : Nat) (a : Act) : Prop :=
  a = .go → (∀ v, s.pc t ≠ .joinWait v false) ∧ s.pc t ≠ .shutWait false

end Verif.Spec.ServerLife
