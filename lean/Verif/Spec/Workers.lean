import Verif.Model.Workers
/-
What the theorems about the workers of a scheduler speak of.
-/
namespace Verif.Workers

/-- The user's handler, unless it is the one of the scheduler's own timer. -/
def userOf : Handler → Option Nat
  | .keep => none
  | .user n => some n

/-- The handlers of users among these, in order. -/
def users (q : List Handler) : List Nat := q.filterMap userOf

/-- The step is one of worker `t`. -/
def ofWorker (t : Nat) (a : Step) : Bool := a = .go t || a = .throw t

/-- The step is one of a worker. -/
def ofAny : Step → Bool
  | .go _ => true
  | .throw _ => true
  | _ => false

end Verif.Workers
