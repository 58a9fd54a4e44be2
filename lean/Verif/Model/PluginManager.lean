import Verif.Model.Server
/-
Model of `plugin_manager` (/repo/include/pion/plugin_manager.hpp): a map from identifiers to plug-in objects and
the library each was loaded from. Plug-in objects are numbers (their addresses).
-/
namespace Verif.Plugins

/-- The walk of `find` (/repo/include/pion/plugin_manager.hpp:308-331) over the entries before
    `upper_bound(resource)`, last one first. At an entry that is no prefix of the resource it goes on only if the
    entry before it has a shorter identifier. -/
def findLoop {V : Type} (resource : Bytes) : List (Bytes × V) → Option V
  | [] => none
  | e :: rest =>
    if resource.take e.1.length ≠ e.1 then
      match rest with
      | [] => none
      | j :: _ => if j.1.length < e.1.length then findLoop resource rest else none
    else if resource.length = e.1.length ∨ resource[e.1.length]? = some (c! "/") then some e.2
    else findLoop resource rest

/-- `plugin_manager::find` (/repo/include/pion/plugin_manager.hpp:294-334). -/
def find {V : Type} (m : SMap V) (resource : Bytes) : Option V :=
  if m.isEmpty then none else findLoop resource (m.upTo resource).reverse

/-- An entry of `m_plugin_map` (/repo/include/pion/plugin_manager.hpp:168-178): the object, and the name of the
    library when the entry's `plugin_ptr` is open. -/
structure Entry where
  obj : Nat
  lib : Option Bytes := none
  deriving Repr, DecidableEq

/-- How an object was destroyed: by `delete`, or by the destroy function of a library
    (/repo/include/pion/plugin_manager.hpp:204-208). -/
inductive How where
  | delete
  | library (name : Bytes)
  deriving Repr, DecidableEq

/-- The manager, and the objects destroyed so far, in order. -/
structure Mgr where
  map : SMap Entry := []
  destroyed : List (Nat × How) := []

/-- Calls on a manager. The object of `load` is the one made by the library's create function; `opens` says whether
    the library can be opened (otherwise `load` throws). -/
inductive Op where
  | add (id : Bytes) (obj : Nat)
  | load (id lib : Bytes) (opens : Bool) (obj : Nat)
  | remove (id : Bytes)
  | replace (id : Bytes) (obj : Nat)
  | clear

inductive Res where
  | ok | notFound | duplicate | noLibrary
  deriving Repr, DecidableEq

/-- `if (second.is_open()) second.destroy(first); else delete first;`
    (/repo/include/pion/plugin_manager.hpp:204-208, 220-224, 391-395). `destroy` does not throw: a library without a
    destroy function is not opened (/repo/src/plugin.cpp:285-292). -/
def Entry.destroy (e : Entry) : Nat × How :=
  (e.obj, match e.lib with | some l => .library l | none => .delete)

/-- `add` 188-195 (an insertion without effect goes unnoticed), `load` 239-259, `remove` 198-210, `replace` 213-226
    (the library of the entry stays), `map_type::clear` 384-402; all of /repo/include/pion/plugin_manager.hpp.
    Calls are atomic: `load` reads the map before it takes the lock, which matters only for concurrent calls (Model.PluginThreads). -/
def step (m : Mgr) : Op → Res × Mgr
  | .add id obj => (.ok, { m with map := m.map.insert id { obj } })
  | .load id lib opens obj =>
    match m.map.lookup id with
    | some _ => (.duplicate, m)
    | none => if opens then (.ok, { m with map := m.map.insert id { obj, lib := some lib } }) else (.noLibrary, m)
  | .remove id =>
    match m.map.lookup id with
    | none => (.notFound, m)
    | some e => (.ok, { map := m.map.erase id, destroyed := m.destroyed ++ [e.destroy] })
  | .replace id obj =>
    match m.map.lookup id with
    | none => (.notFound, m)
    | some e => (.ok, { map := m.map.assign id { e with obj }, destroyed := m.destroyed ++ [e.destroy] })
  | .clear => (.ok, { map := [], destroyed := m.destroyed ++ m.map.map (·.2.destroy) })

/-- A sequence of calls on a new manager. -/
def run (ops : List Op) : Mgr := ops.foldl (fun m op => (step m op).2) {}

/-- `get` (/repo/include/pion/plugin_manager.hpp:262-270). -/
def get (m : Mgr) (id : Bytes) : Option Nat := (m.map.lookup id).map (·.obj)

/-- The loop of `run(run_func)` (/repo/include/pion/plugin_manager.hpp:336-345): the objects the function is called with, in
    order, and whether a call threw (`throws obj`), which ends the loop. The lock is held meanwhile, so a function that
    calls the manager waits forever (not modelled). -/
def runLoop (throws : Nat → Bool) : List (Bytes × Entry) → List Nat × Bool
  | [] => ([], false)
  | e :: rest =>
    if throws e.2.obj then ([e.2.obj], true)
    else
      let (l, b) := runLoop throws rest
      (e.2.obj :: l, b)

/-- `run(run_func)`. -/
def runAll (m : Mgr) (throws : Nat → Bool) : List Nat × Bool := runLoop throws m.map

/-- `run(plugin_id, run_func)` and `get_statistic(plugin_id, stat_func)` (/repo/include/pion/plugin_manager.hpp:347-356,
    371-380): the object the function is called with; `none`: `plugin_not_found` is thrown. -/
def runOne (m : Mgr) (id : Bytes) : Option Nat := get m id

/-- `get_statistic(stat_func)` (/repo/include/pion/plugin_manager.hpp:358-369): a sum of `uint64_t`. -/
def statistic (m : Mgr) (stat : Nat → Nat) : Nat :=
  m.map.foldl (fun value e => (value + stat e.2.obj) % 2 ^ 64) 0

/-- The destructor: `map_type::~map_type` clears (/repo/include/pion/plugin_manager.hpp:172). -/
def close (m : Mgr) : Mgr := (step m .clear).2

end Verif.Plugins
