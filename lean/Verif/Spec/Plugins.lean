import Verif.Model.PluginManager
import Verif.Spec.Paths
/-
What a plug-in manager should hold after a sequence of calls, as a plain function, and who owns an object.
-/
namespace Verif.Spec.Plugins
open Verif.Plugins Verif.Spec.Paths

/-- The entry registered for each identifier after one more call. -/
def step (t : Table Entry) : Op → Table Entry
  | .add id obj => fun k => if k = id ∧ t id = none then some { obj } else t k
  | .load id lib opens obj => fun k => if k = id ∧ t id = none ∧ opens then some { obj, lib := some lib } else t k
  | .remove id => fun k => if k = id then none else t k
  | .replace id obj => fun k => if k = id then (t id).map ({ · with obj }) else t k
  | .clear => fun _ => none

def table (ops : List Op) : Table Entry := ops.foldl step fun _ => none

/-- The calls that hand the object over to the manager, given what is registered. -/
def takes (t : Table Entry) (obj : Nat) : Op → Bool
  | .add id o => o == obj && (t id).isNone
  | .load id _ opens o => o == obj && opens && (t id).isNone
  | .replace id o => o == obj && (t id).isSome
  | _ => false

/-- How often the object was handed over. -/
def taken (obj : Nat) : Table Entry → List Op → Nat
  | _, [] => 0
  | t, op :: ops => (takes t obj op).toNat + taken obj (step t op) ops

/-- How often the object was destroyed. -/
def destroyed (m : Mgr) (obj : Nat) : Nat := m.destroyed.countP (·.1 == obj)

/-- Under how many identifiers the object is registered. -/
def registered (m : Mgr) (obj : Nat) : Nat := m.map.countP (·.2.obj == obj)

/-- The list of the identifiers registered, in strictly ascending order (so each once), with their objects. -/
def Objects (t : Table Entry) (l : List (Bytes × Nat)) : Prop :=
  l.Pairwise (fun a b => bytesLt a.1 b.1 = true) ∧ ∀ id obj, (id, obj) ∈ l ↔ (t id).map (·.obj) = some obj

end Verif.Spec.Plugins
