import Verif.Model.PluginThreads
import Verif.Spec.Plugins
/-
Linearizability of a plug-in manager: what the calls of several threads return is what they return one after another.
-/
namespace Verif.Spec.PluginThreads
open Verif.PluginThreads Verif.Plugins

def Called (tr : List Act) (i : Nat) : Prop := ∃ req, .call i req ∈ tr
def Returned (tr : List Act) (i : Nat) : Prop := ∃ a, .ret i a ∈ tr

/-- Call `i` had returned before call `k` began. -/
def Before (tr : List Act) (i k : Nat) : Prop := ∃ a b, tr = a ++ b ∧ Returned a i ∧ ¬Called a k

/-- A call on a manager that nobody else uses, by the model of C30 and C39: what it returns and the manager after it. -/
def seq (m : Mgr) : Req → Ans × Mgr
  | .add id obj => (ofRes (step m (.add id obj)).1, (step m (.add id obj)).2)
  | .load id lib opens obj => (ofRes (step m (.load id lib opens obj)).1, (step m (.load id lib opens obj)).2)
  | .remove id => (ofRes (step m (.remove id)).1, (step m (.remove id)).2)
  | .replace id obj => (ofRes (step m (.replace id obj)).1, (step m (.replace id obj)).2)
  | .clear => (ofRes (step m .clear).1, (step m .clear).2)
  | .empty => (.flag m.map.isEmpty, m)
  | .get id => (.object (get m id), m)
  | .getLib id => (.lib ((m.map.lookup id).bind (·.lib)), m)
  | .find r => (.object ((find m.map r).map (·.obj)), m)
  | .run id => (match get m id with | none => .notFound | some o => .ran [o], m)
  | .runAll _ => (.ran (m.map.map (·.2.obj)), m)

/-- One call after another, each as `R` allows. -/
def Legal (R : Mgr → Req → Ans → Mgr → Prop) : Mgr → List (Nat × Req × Ans) → Mgr → Prop
  | m, [], m' => m' = m
  | m, e :: l, m' => ∃ m1, R m e.2.1 e.2.2 m1 ∧ Legal R m1 l m'

/-- As without other threads. -/
def Strict (m : Mgr) (req : Req) (a : Ans) (m' : Mgr) : Prop := seq m req = (a, m')

/-- As without other threads, except that a `load` of an identifier which is in use may also succeed, and then changes
    nothing: the object it returns is not registered. -/
def Lax (m : Mgr) (req : Req) (a : Ans) (m' : Mgr) : Prop :=
  Strict m req a m' ∨ ∃ id lib obj, req = .load id lib true obj ∧ (m.map.lookup id).isSome = true ∧ a = .ok ∧ m' = m

/-- `lin` is an order in which the calls can have happened one after another: every call that returned is in it, once, with
    what it returned; calls that did not overlap are in the order in which they happened; each returns what `R` allows,
    and `m` is the manager after them. Calls that have not returned may or may not have happened. -/
structure Order (R : Mgr → Req → Ans → Mgr → Prop) (tr : List Act) (m : Mgr) (lin : List (Nat × Req × Ans)) : Prop where
  answered : ∀ i a, .ret i a ∈ tr → ∃ req, (i, req, a) ∈ lin
  called : ∀ e ∈ lin, .call e.1 e.2.1 ∈ tr
  once : (lin.map (·.1)).Nodup
  order : lin.Pairwise fun x y => ¬Before tr y.1 x.1
  legal : Legal R {} lin m

/-- The identifier that a call registers an object for. -/
def Req.registers : Req → Option Bytes
  | .add id _ => some id
  | .load id _ _ _ => some id
  | _ => none

/-- The object that a call hands over to the manager. -/
def Req.hands : Req → Option Nat
  | .add _ obj => some obj
  | .load _ _ _ obj => some obj
  | .replace _ obj => some obj
  | _ => none

/-- The call may destroy objects. -/
def Req.destroys : Req → Bool
  | .remove _ | .replace _ _ | .clear => true
  | _ => false

/-- At no moment do two calls run that register objects for the same identifier. -/
def OneEach (tr : List Act) : Prop :=
  ∀ a b, tr = a ++ b → ∀ i k ri rk id, .call i ri ∈ a → .call k rk ∈ a → ¬Returned a i → ¬Returned a k →
    Req.registers ri = some id → Req.registers rk = some id → i = k

/-- No object is handed over by two calls. -/
def HandedOnce (tr : List Act) : Prop :=
  ∀ i k ri rk obj, .call i ri ∈ tr → .call k rk ∈ tr → Req.hands ri = some obj → Req.hands rk = some obj → i = k

/-- Call `i` is about to call its function with this object. -/
def Uses (s : Verif.PluginThreads.St) (i : Nat) (obj : Nat) : Prop :=
  ∃ req, s.calls i = some (req, .calling obj) ∨ ∃ ran rest, s.calls i = some (req, .each ran (obj :: rest))

end Verif.Spec.PluginThreads
