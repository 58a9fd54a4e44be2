import Verif.Model.PluginManager
/-
Model of `plugin_manager` used by several threads at once (/repo/include/pion/plugin_manager.hpp). A section under
`m_plugin_mutex` is one step, except that of `run(run_func)`, which calls a function for every object while it holds the
mutex. `load` looks for the identifier without the mutex, opens the library, and takes the mutex for the insertion only;
`run(plugin_id, run_func)` calls the function after it has released the mutex.

Simplifications: memory is sequentially consistent (the look-up of `load` without the mutex is a data race, hence undefined
behaviour, which `Props.PluginThreads` shows to be reachable). Objects are numbers. `get_statistic` has the same steps as
`run`. `clone` is `getLib` followed by the creation of an object (C62). Calls have numbers, each used once.
-/
namespace Verif.PluginThreads
open Verif.Plugins

/-- Calls. `opens`: the library can be opened and `obj` is the object its create function gives. `callsBack`: the function
    given to `run` calls the manager. -/
inductive Req where
  | add (id : Bytes) (obj : Nat)
  | load (id lib : Bytes) (opens : Bool) (obj : Nat)
  | remove (id : Bytes)
  | replace (id : Bytes) (obj : Nat)
  | clear
  | empty
  | get (id : Bytes)
  | getLib (id : Bytes)
  | find (resource : Bytes)
  | run (id : Bytes)
  | runAll (callsBack : Bool)
  deriving DecidableEq

/-- What calls return or throw; `ran`: the objects that the function was called with. -/
inductive Ans where
  | ok | notFound | duplicate | noLibrary
  | object (o : Option Nat)
  | lib (l : Option Bytes)
  | flag (b : Bool)
  | ran (objs : List Nat)
  deriving DecidableEq

/-- Where a call is. -/
inductive Pc where
  | start
  /-- `load`: before `plugin_ptr.open` and `create` (/repo/include/pion/plugin_manager.hpp:247-251) -/
  | opening
  /-- `load`: before taking the mutex for the insertion (254-256) -/
  | insert
  /-- `run(plugin_id, run_func)`: before `run_func(plugin_object_ptr)` (356) -/
  | calling (obj : Nat)
  /-- `run(run_func)`: the objects that the function was called with, and those to come (341-345); the mutex is held -/
  | each (ran rest : List Nat)
  | done (a : Ans)
  | returned (a : Ans)
  deriving DecidableEq

/-- `lock`: who holds `m_plugin_mutex` between steps. -/
structure Shared where
  mgr : Mgr := {}
  lock : Option Nat := none

structure St where
  sh : Shared := {}
  calls : Nat → Option (Req × Pc) := fun _ => none

def ofRes : Res → Ans
  | .ok => .ok
  | .notFound => .notFound
  | .duplicate => .duplicate
  | .noLibrary => .noLibrary

/-- The calls that are one section under the mutex (/repo/include/pion/plugin_manager.hpp:48-57, 184-226, 261-334); the
    others do not come here. -/
def section_ (m : Mgr) : Req → Ans × Mgr
  | .add id obj => (.ok, (step m (.add id obj)).2)
  | .remove id => (ofRes (step m (.remove id)).1, (step m (.remove id)).2)
  | .replace id obj => (ofRes (step m (.replace id obj)).1, (step m (.replace id obj)).2)
  | .clear => (.ok, (step m .clear).2)
  | .empty => (.flag m.map.isEmpty, m)
  | .get id => (.object (Plugins.get m id), m)
  | .getLib id => (.lib ((m.map.lookup id).bind (·.lib)), m)
  | .find r => (.object ((Plugins.find m.map r).map (·.obj)), m)
  | .load .. | .run _ | .runAll _ => (.ok, m)

/-- The next step of call `i`; `none`: it waits for the mutex, or is at its end. `load`
    /repo/include/pion/plugin_manager.hpp:239-259, `run` 336-357. -/
def own (i : Nat) (sh : Shared) (req : Req) : Pc → Option (Shared × Pc)
  | .start => match req with
    | .load id _ _ _ => some (sh, if (sh.mgr.map.lookup id).isSome then .done .duplicate else .opening)
    | .runAll _ => if sh.lock.isSome then none else some ({ sh with lock := some i }, .each [] (sh.mgr.map.map (·.2.obj)))
    | .run id => if sh.lock.isSome then none else
      match Plugins.get sh.mgr id with
      | none => some (sh, .done .notFound)
      | some o => some (sh, .calling o)
    | r => if sh.lock.isSome then none else some ({ sh with mgr := (section_ sh.mgr r).2 }, .done (section_ sh.mgr r).1)
  | .opening => match req with
    | .load _ _ opens _ => some (sh, if opens then .insert else .done .noLibrary)
    | _ => none
  | .insert => match req with
    | .load id lib _ obj => if sh.lock.isSome then none else
      some ({ sh with mgr := { sh.mgr with map := sh.mgr.map.insert id { obj, lib := some lib } } }, .done .ok)
    | _ => none
  | .calling o => some (sh, .done (.ran [o]))
  | .each ran [] => some ({ sh with lock := none }, .done (.ran ran))
  | .each ran (o :: rest) => match req with
    | .runAll true => none
    | _ => some (sh, .each (ran ++ [o]) rest)
  | .done _ => none
  | .returned _ => none

inductive Act where
  | call (i : Nat) (req : Req)
  | step (i : Nat)
  | ret (i : Nat) (a : Ans)
  deriving DecidableEq

def St.set (s : St) (i : Nat) (c : Req × Pc) (sh : Shared) : St :=
  { sh := sh, calls := fun k => if k = i then some c else s.calls k }

def St.step (s : St) : Act → Option St
  | .call i req => match s.calls i with
    | none => some (s.set i (req, .start) s.sh)
    | some _ => none
  | .step i => match s.calls i with
    | none => none
    | some (req, pc) => match own i s.sh req pc with
      | none => none
      | some (sh, pc) => some (s.set i (req, pc) sh)
  | .ret i a => match s.calls i with
    | some (req, .done b) => if a = b then some (s.set i (req, .returned a) s.sh) else none
    | _ => none

/-- The state after some actions on a new manager; `none`: they are impossible in this order. -/
def run (tr : List Act) : Option St := tr.foldlM St.step {}

end Verif.PluginThreads
