import Verif.Model.Scheduler
/-
Vocabulary for what callers expect of a scheduler, and the contracts under which it holds.
-/
namespace Verif.Spec.Sched
open Verif.Sched

/-- Calls of `add_active_user` and of `remove_active_user` that have returned. -/
def adds (s : St) : Nat := s.log.count .added
def removes (s : St) : Nat := s.log.count .removed

/-- The step makes a call of `shutdown` return (`wasRunning`: one that found the scheduler running). -/
def Completes (s : St) (t : Nat) (a : Act) (wasRunning : Bool) : Prop :=
  ∃ s', s.step t a = some s' ∧ s'.log = s.log ++ [.shutdown wasRunning]

/-- The states reached by schedules whose steps all meet a contract. -/
inductive Reach (ok : St → Nat → Act → Prop) : St → Prop where
  | init : Reach ok .init
  | step {s s' : St} {t : Nat} {a : Act} : Reach ok s → ok s t a → s.step t a = some s' → Reach ok s'

/-- No contract: any calls by any threads. -/
def Any (_ : St) (_ : Nat) (_ : Act) : Prop := True

/-- Users are removed only after they were added, and there are less than 2^32 of them at a time. -/
def Paired (s : St) (t : Nat) (a : Act) : Prop :=
  (a = .remove → removes s < adds s) ∧ (s.pc t = .addCount → adds s < removes s + (2 ^ 32 - 1))

/-- And no call of `shutdown` returns while `add_active_user`, in another thread, has seen the scheduler running and
    has not counted its user yet. -/
def Calm (s : St) (t : Nat) (a : Act) : Prop :=
  Paired s t a ∧ ((∃ b, Completes s t a b) → ∀ i, s.pc i ≠ .addCount)

end Verif.Spec.Sched
