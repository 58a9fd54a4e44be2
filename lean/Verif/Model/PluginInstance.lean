import Verif.Base
/-
Model of `plugin_instance_ptr` (/repo/include/pion/plugin.hpp:351-406), one object that is used by one thread.
-/
namespace Verif.PluginInstance

/-- What the object finds: the plug-ins that are loaded without it (by others, or linked statically), and the file for a
    name, as the name that the plug-in in it gets and whether it can be loaded. -/
structure World where
  loaded : Bytes → Bool
  file : Bytes → Option (Bytes × Bool)

/-- The object: the plug-in that `m_plugin_ptr` has open, and `m_instance_ptr`. `created` and `destroyed` are the
    calls of the plug-ins' functions so far: the instance, and the plug-in whose function was called. A call of a
    destroy function for an instance that was destroyed before is undefined; it is recorded like any other. -/
structure St where
  plugin : Option Bytes := none
  ptr : Option Nat := none
  created : List (Nat × Bytes) := []
  destroyed : List (Nat × Bytes) := []
  deriving Repr, DecidableEq

inductive Out where
  | ok (s : St)
  | thrown (s : St)
  /-- the thread waits for a mutex that it has locked itself -/
  | stuck
  deriving Repr, DecidableEq

def Out.bind (o : Out) (f : St → Out) : Out :=
  match o with
  | .ok s => f s
  | o => o

/-- `reset` (/repo/include/pion/plugin.hpp:367-371), with `destroy` (335-347). Also the destructor (364). The pointer
    keeps its value. -/
def St.reset (s : St) : Out :=
  match s.ptr with
  | none => .ok s
  | some i =>
    match s.plugin with
    | none => .thrown s
    | some n => .ok { s with destroyed := s.destroyed ++ [(i, n)] }

/-- `m_plugin_ptr.open` (/repo/src/plugin.cpp:85-137): a name that is loaded is shared, unless this object is open;
    then `release_data` locks the mutex a second time (see Model/Plugin). -/
def St.open_ (w : World) (s : St) (name : Bytes) : Out :=
  if w.loaded name = true ∨ s.plugin = some name then
    (if s.plugin.isSome then .stuck else .ok { s with plugin := some name })
  else
    match w.file name with
    | none => .thrown s
    | some (base, loads) =>
      if w.loaded base = true ∨ loads = true then .ok { s with plugin := some base } else .thrown { s with plugin := none }

/-- `m_plugin_ptr.create()` (/repo/include/pion/plugin.hpp:326-332), and keeping the pointer (377). -/
def St.instantiate (s : St) : Out :=
  match s.plugin with
  | none => .thrown s
  | some n => .ok { s with ptr := some s.created.length, created := s.created ++ [(s.created.length, n)] }

/-- `create` (/repo/include/pion/plugin.hpp:374-378). -/
def St.create (w : World) (s : St) (name : Bytes) : Out :=
  s.reset.bind fun s => (s.open_ w name).bind St.instantiate

/-- `empty` (/repo/include/pion/plugin.hpp:381). -/
def St.empty (s : St) : Bool := s.ptr.isNone

/-- Any number of `create` calls after each other. -/
def St.creates (w : World) (s : St) : List Bytes → Out
  | [] => .ok s
  | n :: ns => (s.create w n).bind fun s => s.creates w ns

end Verif.PluginInstance
