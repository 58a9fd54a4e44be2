import Verif.Model.PluginCode
/-
The rules for programs that use plug-ins, and what is right for the objects of plug-ins.
-/
namespace Verif.Spec.PluginCode
open Verif.PluginCode

/-- The object lives and belongs to the program: no manager has it. -/
def Free (s : St) (o : Nat) : Prop := (s.objs o).isSome ∧ ∀ e ∈ s.entries, e.obj ≠ o

/-- The object lives, and a manager has it, or it was made by the program itself, or a manager or a `plugin_ptr` of the
    program has the plug-in that made it open. -/
def Held (s : St) (o : Nat) : Prop :=
  (∃ e ∈ s.entries, e.obj = o) ∨ s.objs o = some .program ∨
  ∃ i, (i ∈ s.ptrs ∨ ∃ e ∈ s.entries, e.slot = i) ∧ s.objs o = some (maker s.lib i)

/-- The rules: a program hands over and destroys only what it has. It adds objects that it has made itself, it replaces an
    object by one of the same origin (a clone), and it destroys objects with the function that fits. -/
def Allowed (s : St) : Op → Prop
  | .add _ _ o => Free s o ∧ s.objs o = some .program
  | .replace m id o => Free s o ∧ ∀ e, s.find m id = some e → s.objs o = some (maker s.lib e.slot)
  | .delete o => Free s o ∧ s.objs o = some .program
  | .destroy i o => Free s o ∧ s.objs o = some (maker s.lib i)
  | .call o => Held s o
  | _ => True

/-- The rules are obeyed all the way. -/
def Obeys (s : St) : List Op → Prop
  | [] => True
  | op :: ops => Allowed s op ∧ Obeys (s.step op).2 ops

/-- An object is destroyed while it lives, by a function of whoever made it, and its functions are in memory whenever it is
    called or destroyed. -/
def Good : Ev → Prop
  | .destroyed _ made by_ code => made = some by_ ∧ code = true
  | .called _ made code => made.isSome ∧ code = true

/-- The objects destroyed. -/
def destroyed (s : St) : List Nat := s.log.filterMap fun
  | .destroyed o _ _ _ => some o
  | .called _ _ _ => none

/-- The plug-in in the table of the process under a name: its library (`none`: linked statically) and its name. -/
def record (l : Verif.Plugin.St) (name : Bytes) : Option (Option Nat × Bytes) :=
  ((l.map.lookup name).bind l.heap).map fun r => (r.lib, r.name)

/-- What opening a file gives: the plug-in of its base name, if there is one; otherwise the file is loaded, as library number
    `l.libs`, if that can be done. -/
def fromFile (l : Verif.Plugin.St) (base : Bytes) (loads : Bool) : Option (Option Nat × Bytes) :=
  match record l base with
  | some c => some c
  | none => if loads then some (some l.libs, base) else none

/-- What opening by name gives: the plug-in of this name, or that of the file found for it. -/
def found (l : Verif.Plugin.St) (name : Bytes) (file : Option (Bytes × Bool)) : Option (Option Nat × Bytes) :=
  match record l name with
  | some c => some c
  | none =>
    match file with
    | none => none
    | some (base, loads) => fromFile l base loads

/-- A file that is a plug-in: it can be loaded and has both functions under the names expected. -/
def IsPlugin (base : Bytes) (f : Image) : Prop :=
  f.loads = true ∧ b! "pion_create_" ++ base ∈ f.symbols ∧ b! "pion_destroy_" ++ base ∈ f.symbols

/-- Somebody has the plug-in `name` of a library open: an entry of a manager, or a `plugin_ptr` of the program. -/
def OpenBy (s : St) (h : Nat) (name : Bytes) : Prop :=
  ∃ i, (i ∈ s.ptrs ∨ ∃ e ∈ s.entries, e.slot = i) ∧ codeOf s.lib i = some (some h, name)

/-- Nothing has changed for the program: objects, managers, pointers, and the libraries that are loaded. -/
def SameFor (s s' : St) : Prop :=
  s'.objs = s.objs ∧ s'.entries = s.entries ∧ s'.ptrs = s.ptrs ∧ s'.log = s.log ∧ ∀ h, isLoaded s'.lib h = isLoaded s.lib h

end Verif.Spec.PluginCode
