import Verif.Model.ContentBuffer
/-
Specification: the contents of messages are values. Every object has its own list of bytes; copying copies the list.
-/
namespace Verif.Spec.ContentBuffer
open Verif.ContentBuffer (Op Cell)

/-- The contents of the objects that exist. -/
abbrev Contents := Nat → Option (List Cell)

def put (v : Contents) (i : Nat) (c : Option (List Cell)) : Contents := fun n => if n = i then c else v n

/-- What each operation should do. `none`: not allowed. -/
def step (v : Contents) : Op → Option Contents
  | .new i => if v i = none then some (put v i (some [])) else none
  | .copy i j => if v i = none ∧ v j ≠ none then some (put v i (v j)) else none
  | .assign i j => if v i ≠ none ∧ v j ≠ none then some (put v i (v j)) else none
  | .create i n => if v i ≠ none then some (put v i (some (List.replicate n none))) else none
  | .write i k c =>
    match v i with
    | none => none
    | some l => if k < l.length then some (put v i (some (l.set k (some c)))) else none
  | .destroy i => if v i ≠ none then some (put v i none) else none

def run (v : Contents) : List Op → Option Contents
  | [] => some v
  | op :: ops => (step v op).bind fun v => run v ops

/-- No object is assigned to itself. -/
def NoSelf (ops : List Op) : Prop := ∀ i, Op.assign i i ∉ ops

end Verif.Spec.ContentBuffer
