import Verif.Model.ServiceFaults
/-
What users expect of services that may throw: when they are started, stopped and destroyed.
-/
namespace Verif.Spec.ServiceFaults
open Verif.ServiceFaults

/-- The events of one service. -/
def about (o : Nat) : Ev → Bool
  | .started p | .startThrew p | .stopped p | .stopThrew p | .destroyed p => p == o
  | .joined => false

/-- The last thing that has happened to a service. -/
def latest (o : Nat) (log : List Ev) : Option Ev := (log.filter (about o)).getLast?

/-- Every service is added once, and while the server does not listen (for others see C66). -/
def Early (throws : Nat → Bool) : St → List Op → Prop
  | _, [] => True
  | s, .add o k :: as => s.listening = false ∧ o ∉ s.services ∧ (∀ e ∈ s.log, about o e = false) ∧
      Early throws (s.step throws (.add o k)).1 as
  | s, a :: as => Early throws (s.step throws a).1 as

end Verif.Spec.ServiceFaults
