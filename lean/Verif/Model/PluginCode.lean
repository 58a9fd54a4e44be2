import Verif.Model.Plugin
/-
Objects of plug-ins, the functions that create and destroy them, and the libraries with these functions: `plugin_manager`
(/repo/include/pion/plugin_manager.hpp) and `plugin_ptr` (/repo/include/pion/plugin.hpp:300-348) on top of the reference
counted libraries of Model/Plugin. `Model.PluginManager` has the manager alone.

Simplifications: calls are atomic (several threads are in Model/Plugin and Model/PluginThreads). An entry of a manager has one
`plugin_ptr`, copied once from the local variable of `load`; the copies made on the way are left out. `clear` destroys in the
order of insertion, not of identifiers.
-/
namespace Verif.PluginCode
open Verif.Plugin (Act)

/-- What the system finds in a file: whether it can be loaded, and the names of its functions. -/
structure Image where
  loads : Bool
  symbols : List Bytes
  deriving Repr, DecidableEq

/-- Calls of the dynamic linker that succeed. -/
inductive Dl where
  | opened | closed
  deriving Repr, DecidableEq

/-- `plugin::open_plugin` (/repo/src/plugin.cpp:254-301) for a file with the base name `base`: whether it returns (otherwise
    it throws), and what it did. `PION_PLUGIN_CREATE` and `PION_PLUGIN_DESTROY`: 28-29. -/
def openPlugin (base : Bytes) (f : Image) : Bool × List Dl :=
  if ¬ f.loads then (false, [])
  else if b! "pion_create_" ++ base ∉ f.symbols then (false, [.opened, .closed])
  else if b! "pion_destroy_" ++ base ∉ f.symbols then (false, [.opened, .closed])
  else (true, [.opened])

/-- Who made an object, or whose function destroys it: the program itself (`new`, `delete`), or a plug-in, with its library
    (`none`: linked statically) and its name. -/
inductive Maker where
  | program
  | plugin (lib : Option Nat) (name : Bytes)
  deriving Repr, DecidableEq

/-- An entry of the map of a manager (/repo/include/pion/plugin_manager.hpp:168-178): `slot` is its `plugin_ptr`. -/
structure Entry where
  mgr : Nat
  id : Bytes
  obj : Nat
  slot : Nat
  deriving Repr, DecidableEq

/-- What happens to objects: `made` is who made the object (`none`: it is gone already), `code` whether the code of its maker
    is loaded at this moment. -/
inductive Ev where
  | destroyed (obj : Nat) (made : Option Maker) (by_ : Maker) (code : Bool)
  | called (obj : Nat) (made : Option Maker) (code : Bool)
  deriving Repr, DecidableEq

/-- The process: libraries and `plugin_ptr`s, the objects that live, the entries of all managers, and the `plugin_ptr`s of
    the program itself. -/
structure St where
  lib : Plugin.St := {}
  objs : Nat → Option Maker := fun _ => none
  next : Nat := 0
  entries : List Entry := []
  ptrs : List Nat := []
  log : List Ev := []

/-- The answer of a call: an object, a `plugin_ptr`, or an exception. -/
inductive Res where
  | ok | object (o : Nat) | pointer (i : Nat)
  | duplicate | notFound | noLibrary | undefined | createFailed
  deriving Repr, DecidableEq

/-- `get_create_function`, `get_destroy_function` (/repo/include/pion/plugin.hpp:183-190) of a `plugin_ptr`: those of the
    plug-in, if it is open. -/
def codeOf (l : Plugin.St) (i : Nat) : Option (Option Nat × Bytes) :=
  ((l.slots[i]?.bind (·.ptr)).bind l.heap).map fun r => (r.lib, r.name)

/-- The library is loaded at this moment. -/
def isLoaded (l : Plugin.St) (h : Nat) : Bool := decide (.opened h ∈ l.log) && !decide (.closed h ∈ l.log)

/-- The code of an object's maker is in memory. -/
def codeLoaded (l : Plugin.St) : Option Maker → Bool
  | some (.plugin (some h) _) => isLoaded l h
  | _ => true

/-- Calls of Model/Plugin without interruption. -/
def acts (l : Plugin.St) (as : List Act) : Plugin.St := as.foldl Plugin.St.step l

/-- A new `plugin_ptr`, opened by name (/repo/src/plugin.cpp:85-137); its number is that of the slots before. `file`: the file
    that is found for the name. -/
def openNew (l : Plugin.St) (name : Bytes) (file : Option (Bytes × Image)) : Plugin.St :=
  let n := l.slots.length
  acts l [.create none, .call n (.openName name (file.map fun f => (f.1, (openPlugin f.1 f.2).1))), .sec n, .sec n, .sec n]

/-- A copy of a `plugin_ptr` (/repo/include/pion/plugin.hpp:177). -/
def copy (l : Plugin.St) (i : Nat) : Plugin.St := acts l [.create (some i), .sec l.slots.length]

/-- The destructor of a `plugin_ptr`, or `close` (/repo/include/pion/plugin.hpp:90, 132). -/
def close (l : Plugin.St) (i : Nat) : Plugin.St := acts l [.call i .close, .sec i]

/-- Who made the objects of an entry, as the manager sees it (/repo/include/pion/plugin_manager.hpp:204-208). -/
def maker (l : Plugin.St) (i : Nat) : Maker :=
  match codeOf l i with
  | some (lib, name) => .plugin lib name
  | none => .program

/-- An object is destroyed by a function of `m`. -/
def St.kill (s : St) (o : Nat) (m : Maker) : St :=
  { s with log := s.log ++ [.destroyed o (s.objs o) m (codeLoaded s.lib (s.objs o))], objs := fun x => if x = o then none else s.objs x }

/-- An object is made. -/
def St.make (s : St) (m : Maker) : St :=
  { s with objs := fun x => if x = s.next then some m else s.objs x, next := s.next + 1 }

def St.find (s : St) (m : Nat) (id : Bytes) : Option Entry := s.entries.find? fun e => e.mgr == m && e.id == id

inductive Op where
  /-- the program makes an object (`new`), and destroys one (`delete`) -/
  | new
  | delete (o : Nat)
  /-- a member function of an object is called -/
  | call (o : Nat)
  | addStatic (name : Bytes)
  /-- calls of manager `m`; `creates`: the create function returns (it throws otherwise) -/
  | add (m : Nat) (id : Bytes) (o : Nat)
  | load (m : Nat) (id name : Bytes) (file : Option (Bytes × Image)) (creates : Bool)
  | remove (m : Nat) (id : Bytes)
  | replace (m : Nat) (id : Bytes) (o : Nat)
  | clone (m : Nat) (id : Bytes) (creates : Bool)
  | getLib (m : Nat) (id : Bytes)
  | clear (m : Nat)
  /-- the program's own `plugin_ptr`s -/
  | openPtr (name : Bytes) (file : Option (Bytes × Image))
  | closePtr (i : Nat)
  | create (i : Nat) (creates : Bool)
  | destroy (i : Nat) (o : Nat)

/-- `create` of a `plugin_ptr` (/repo/include/pion/plugin.hpp:326-332). -/
def St.createBy (s : St) (i : Nat) (creates : Bool) : Res × St :=
  match codeOf s.lib i with
  | none => (.undefined, s)
  | some (lib, name) => if creates then (.object s.next, s.make (.plugin lib name)) else (.createFailed, s)

/-- `load` after the look-up (/repo/include/pion/plugin_manager.hpp:246-258): the local `plugin_ptr` is slot `n`. -/
def St.load (s : St) (m : Nat) (id name : Bytes) (file : Option (Bytes × Image)) (creates : Bool) : Res × St :=
  let n := s.lib.slots.length
  let s : St := { s with lib := openNew s.lib name file }
  match codeOf s.lib n with
  | none => (.noLibrary, s)
  | some (lib, plugin) =>
    if creates then
      let o := s.next
      let s := s.make (.plugin lib plugin)
      let slot := s.lib.slots.length
      let e : Entry := { mgr := m, id := id, obj := o, slot := slot }
      (.object o, { s with lib := close (copy s.lib n) n, entries := s.entries ++ [e] })
    else (.createFailed, { s with lib := close s.lib n })

/-- `map_type::clear` (/repo/include/pion/plugin_manager.hpp:384-402), also when the manager is destroyed (172): all objects
    are destroyed, then all entries are erased. -/
def St.clear (s : St) (m : Nat) : St :=
  let es := s.entries.filter (·.mgr == m)
  let s := es.foldl (fun s e => s.kill e.obj (maker s.lib e.slot)) s
  let s : St := { s with entries := s.entries.filter (·.mgr != m) }
  es.foldl (fun (s : St) e => { s with lib := close s.lib e.slot }) s

/-- One call. `add` /repo/include/pion/plugin_manager.hpp:188-195, `remove` 198-210, `replace` 213-226, `clone` 229-236, `load`
    239-259, `get_lib_ptr` 284-292; `destroy` /repo/include/pion/plugin.hpp:335-347; `add_static_entry_point`
    /repo/src/plugin.cpp:394-411. -/
def St.step (s : St) : Op → Res × St
  | .new => (.object s.next, s.make .program)
  | .delete o => (.ok, s.kill o .program)
  | .call o => (.ok, { s with log := s.log ++ [.called o (s.objs o) (codeLoaded s.lib (s.objs o))] })
  | .addStatic name => (.ok, { s with lib := acts s.lib [.addStatic name] })
  | .add m id o =>
    match s.find m id with
    | some _ => (.ok, s)
    | none => (.ok, { s with
        entries := s.entries ++ [{ mgr := m, id := id, obj := o, slot := s.lib.slots.length }], lib := acts s.lib [.create none] })
  | .load m id name file creates =>
    match s.find m id with
    | some _ => (.duplicate, s)
    | none => s.load m id name file creates
  | .remove m id =>
    match s.find m id with
    | none => (.notFound, s)
    | some e =>
      let s := s.kill e.obj (maker s.lib e.slot)
      (.ok, { s with entries := s.entries.erase e, lib := close s.lib e.slot })
  | .replace m id o =>
    match s.find m id with
    | none => (.notFound, s)
    | some e =>
      let s := s.kill e.obj (maker s.lib e.slot)
      (.ok, { s with entries := s.entries.map fun x => if x = e then { e with obj := o } else x })
  | .clone m id creates =>
    match s.find m id with
    | none => (.notFound, s)
    | some e => s.createBy e.slot creates
  | .getLib m id =>
    match s.find m id with
    | none => (.pointer s.lib.slots.length, { s with ptrs := s.ptrs ++ [s.lib.slots.length], lib := acts s.lib [.create none] })
    | some e => (.pointer s.lib.slots.length, { s with ptrs := s.ptrs ++ [s.lib.slots.length], lib := copy s.lib e.slot })
  | .clear m => (.ok, s.clear m)
  | .openPtr name file =>
    let l := openNew s.lib name file
    match codeOf l s.lib.slots.length with
    | none => (.noLibrary, { s with lib := l })
    | some _ => (.pointer s.lib.slots.length, { s with ptrs := s.ptrs ++ [s.lib.slots.length], lib := l })
  | .closePtr i => if i ∈ s.ptrs then (.ok, { s with lib := close s.lib i, ptrs := s.ptrs.erase i }) else (.undefined, s)
  | .create i creates => if i ∈ s.ptrs then s.createBy i creates else (.undefined, s)
  | .destroy i o =>
    if i ∈ s.ptrs then
      match codeOf s.lib i with
      | none => (.undefined, s)
      | some (lib, name) => (.ok, s.kill o (.plugin lib name))
    else (.undefined, s)

/-- A history of the process. -/
def run (ops : List Op) : St := ops.foldl (fun s op => (s.step op).2) {}

end Verif.PluginCode
