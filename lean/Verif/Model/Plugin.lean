import Verif.Model.SortedMap
/-
Model of class `plugin` (/repo/src/plugin.cpp, /repo/include/pion/plugin.hpp): plug-in objects that share reference
counted library records. Any number of threads work on the plug-in objects, one thread at a time on each object.
All work is done in sections guarded by one global mutex, so an execution is an interleaving of sections.
-/
namespace Verif.Plugin

/-- `plugin::data_type` (/repo/include/pion/plugin.hpp:134-166). `lib` is `m_lib_handle`, `none` (NULL) for plug-ins
    linked statically. The create and destroy functions are not modelled. `refs` is an `unsigned long`; that it
    wraps at 2^64 references is ignored. -/
structure Rec where
  lib : Option Nat
  name : Bytes
  refs : Nat
  deriving Repr, DecidableEq

/-- The sections a call consists of. -/
inductive Sec where
  /-- First section of `open` (/repo/src/plugin.cpp:88-98). `file` is what `find_plugin_file` will answer: the base
      name of the file, and whether the library can be loaded. -/
  | byName (name : Bytes) (file : Option (Bytes × Bool))
  /-- `release_data` (/repo/src/plugin.cpp:139-165). -/
  | release
  /-- `open_file` after `release_data` (/repo/src/plugin.cpp:113-136). -/
  | load (base : Bytes) (loads : Bool)
  /-- `grab_data` after `release_data` (/repo/src/plugin.cpp:170-175), `src` is the object copied from. -/
  | grab (src : Nat)
  deriving Repr, DecidableEq

/-- A plug-in object: `m_plugin_data`, and the sections its current call has still to do. -/
structure Slot where
  ptr : Option Nat := none
  todo : List Sec := []
  deriving Repr, DecidableEq

/-- `dlopen` and `dlclose` calls that succeeded. Every `dlopen` gives a new handle (counting references to one file
    is left to the system). -/
inductive Ev where
  | opened (lib : Nat)
  | closed (lib : Nat)
  deriving Repr, DecidableEq

/-- The process: the records on the heap, `m_plugin_map`, all plug-in objects ever made (one that was destroyed
    stays, closed), and the log of library events. `bad` is set when freed memory is used, `stuck` when a thread
    blocks for ever with the mutex locked. -/
structure St where
  heap : Nat → Option Rec := fun _ => none
  next : Nat := 0
  libs : Nat := 0
  map : SMap Nat := []
  slots : List Slot := []
  log : List Ev := []
  stuck : Bool := false
  bad : Bool := false

def St.setPtr (s : St) (i : Nat) (p : Option Nat) : St :=
  match s.slots[i]? with
  | none => s
  | some sl => { s with slots := s.slots.set i { sl with ptr := p } }

def St.setTodo (s : St) (i : Nat) (t : List Sec) : St :=
  match s.slots[i]? with
  | none => s
  | some sl => { s with slots := s.slots.set i { sl with todo := t } }

def St.setRec (s : St) (d : Nat) (r : Option Rec) : St :=
  { s with heap := fun x => if x = d then r else s.heap x }

/-- `m_plugin_data = d; ++m_plugin_data->m_references` (/repo/src/plugin.cpp:94-95, 132-136, 172-174). -/
def St.addRef (s : St) (i d : Nat) : St :=
  match s.heap d with
  | none => { s with bad := true }
  | some r => (s.setRec d (some { r with refs := r.refs + 1 })).setPtr i (some d)

/-- `release_data` (/repo/src/plugin.cpp:139-165): the record of a statically linked plug-in stays, with zero
    references. -/
def St.release (s : St) (i : Nat) : St :=
  match s.slots[i]?.bind (·.ptr) with
  | none => s
  | some d =>
    match s.heap d with
    | none => { s with bad := true }
    | some r =>
      if r.refs = 1 then
        match r.lib with
        | none => (s.setRec d (some { r with refs := 0 })).setPtr i none
        | some h =>
          { (s.setRec d none).setPtr i none with
            map := s.map.erase r.name
            log := s.log ++ [.closed h] }
      else (s.setRec d (some { r with refs := r.refs - 1 })).setPtr i none

/-- `open_file` after its `release_data` (/repo/src/plugin.cpp:113-136): a name that is already loaded is shared;
    otherwise the library is opened, or `open_plugin` throws (any handle it got is closed again, 270-292). -/
def St.load (s : St) (i : Nat) (base : Bytes) (loads : Bool) : St :=
  match s.map.lookup base with
  | some d => s.addRef i d
  | none =>
    if loads then
      ({ s with
        heap := fun x => if x = s.next then some { lib := some s.libs, name := base, refs := 0 } else s.heap x
        next := s.next + 1
        libs := s.libs + 1
        map := s.map.insert base s.next
        log := s.log ++ [Ev.opened s.libs] } : St).addRef i s.next
    else s

/-- `open`, up to the end of its first section (/repo/src/plugin.cpp:85-107). When the name is loaded and this object
    is open, `release_data` locks the mutex that `open` holds: the thread blocks for ever. -/
def St.byName (s : St) (i : Nat) (name : Bytes) (file : Option (Bytes × Bool)) : St :=
  match s.map.lookup name with
  | some d => if (s.slots[i]?.bind (·.ptr)).isSome then { s with stuck := true } else s.addRef i d
  | none =>
    match file with
    | none => s
    | some (base, loads) => s.setTodo i [.release, .load base loads]

/-- `grab_data` after its `release_data` (/repo/src/plugin.cpp:170-175). -/
def St.grab (s : St) (i src : Nat) : St :=
  match s.slots[src]?.bind (·.ptr) with
  | none => s.setPtr i none
  | some d => s.addRef i d

def St.exec (s : St) (i : Nat) : Sec → St
  | .byName name file => s.byName i name file
  | .release => s.release i
  | .load base loads => s.load i base loads
  | .grab src => s.grab i src

/-- Calls on a plug-in object: `open`, `open_file`, `close` (also the destructor), `operator=`
    (/repo/include/pion/plugin.hpp:93, 114, 129, 132, 179). -/
inductive Call where
  | openName (name : Bytes) (file : Option (Bytes × Bool))
  | openFile (base : Bytes) (loads : Bool)
  | close
  | assign (src : Nat)

def Call.sections : Call → List Sec
  | .openName n f => [.byName n f]
  | .openFile b l => [.release, .load b l]
  | .close => [.release]
  | .assign src => [.release, .grab src]

/-- What can happen next. -/
inductive Act where
  /-- A plug-in object is made, by the default constructor or as a copy (/repo/include/pion/plugin.hpp:170-176). -/
  | create (copyOf : Option Nat)
  /-- The thread that works on object `i` starts a call. -/
  | call (i : Nat) (c : Call)
  /-- The thread that works on object `i` runs the next section of its call. -/
  | sec (i : Nat)
  /-- `add_static_entry_point` (/repo/src/plugin.cpp:394-411). -/
  | addStatic (name : Bytes)

/-- One step of an execution; what cannot happen has no effect. -/
def St.step (s : St) (a : Act) : St :=
  if s.stuck then s else
  match a with
  | .create none => { s with slots := s.slots ++ [{}] }
  | .create (some src) => { s with slots := s.slots ++ [{ todo := [.grab src] }] }
  | .call i c =>
    match s.slots[i]? with
    | some { ptr := _, todo := [] } => s.setTodo i c.sections
    | _ => s
  | .sec i =>
    match s.slots[i]? with
    | some { ptr := _, todo := x :: rest } => (s.setTodo i rest).exec i x
    | _ => s
  | .addStatic name =>
    match s.map.lookup name with
    | some _ => s
    | none =>
      { s with
        heap := fun x => if x = s.next then some { lib := none, name := name, refs := 0 } else s.heap x
        next := s.next + 1
        map := s.map.insert name s.next }

/-- An execution from the start of the process. -/
def run (as : List Act) : St := as.foldl St.step {}

end Verif.Plugin
