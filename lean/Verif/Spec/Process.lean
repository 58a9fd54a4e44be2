import Verif.Model.Process
/-
What is said about `process` (C70, C71).
-/
namespace Verif.Spec.Process
open Verif.Process

/-- The states that can come about, if `ok` is what callers and the environment are allowed to do. -/
inductive Reach (ok : St → Nat → Act → Prop) : St → Prop where
  | init : Reach ok St.init
  | step {s s' : St} {t : Nat} {a : Act} : Reach ok s → ok s t a → s.step t a = some s' → Reach ok s'

/-- No condition. -/
def Any (_ : St) (_ : Nat) (_ : Act) : Prop := True

/-- No signal arrives on a thread while that thread has the mutex. -/
def Calm (s : St) (t : Nat) (a : Act) : Prop := a = .signal → s.owner ≠ some t

/-- A thread is in no call. -/
def Idle (s : St) (t : Nat) : Prop := s.stack t = []

/-- The steps that do not come from outside: no new call and no signal. -/
def Inner (l : List (Nat × Act)) : Prop := ∀ x ∈ l, x.2 = .go ∨ x.2 = .spurious

/-- No thread can go on. -/
def Still (s : St) : Prop := ∀ t, s.step t .go = none

end Verif.Spec.Process
