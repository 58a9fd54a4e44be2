import Verif.Model.Plugin
/-
When a library is loaded, and which plug-in objects refer to it.
-/
namespace Verif.Spec.Plugin
open Verif.Plugin

/-- The library was opened and not closed since. -/
def Loaded (s : St) (lib : Nat) : Prop := .opened lib ∈ s.log ∧ .closed lib ∉ s.log

/-- Plug-in object `i` is open, on a live record. -/
def Uses (s : St) (i : Nat) (r : Rec) : Prop := ∃ sl d, s.slots[i]? = some sl ∧ sl.ptr = some d ∧ s.heap d = some r

/-- Plug-in object `i` is open. -/
def IsOpen (s : St) (i : Nat) : Prop := ∃ sl, s.slots[i]? = some sl ∧ sl.ptr.isSome

end Verif.Spec.Plugin
