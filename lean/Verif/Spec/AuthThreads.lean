import Verif.Model.AuthThreads
import Verif.Spec.Auth
/-
What is observed of an authenticator used by several threads: the sequence of calls, returns and changes of the users and
lists. A moment is a beginning of the sequence.
-/
namespace Verif.Spec.AuthThreads
open Verif.AuthThreads Verif.Auth Verif.Spec.Auth

/-- The changes of users and lists. -/
def admin (tr : List Act) : List Event :=
  tr.filterMap fun | .users op => some (.users op) | .restrict r => some (.restrict r) | .permit r => some (.permit r) | _ => none

/-- Seconds that passed. -/
def elapsed (tr : List Act) : Nat := (tr.map fun | .tick d => d | _ => 0).sum

def Called (tr : List Act) (i : Nat) : Prop := ∃ req, .call i req ∈ tr
def Returned (tr : List Act) (i : Nat) : Prop := ∃ v, .ret i v ∈ tr

/-- At some moment while call `i` ran, `P`. -/
def During (tr : List Act) (i : Nat) (P : List Act → Prop) : Prop :=
  ∃ a b, tr = a ++ b ∧ Called a i ∧ ¬Returned a i ∧ P a

/-- Call `i` had returned before call `k` began. -/
def Before (tr : List Act) (i k : Nat) : Prop := ∃ a b, tr = a ++ b ∧ Returned a i ∧ ¬Called a k

/-- What call `i` was decided to answer, whether it has returned or not. -/
def verdict (s : Verif.AuthThreads.St) (i : Nat) : Option Verdict :=
  match s.calls i with
  | some (_, .done v) => some v
  | some (_, .returned v) => some v
  | _ => none

/-- There are users. -/
def UsersExist (e : Env) (h : List Event) : Prop := ∃ name, (Users.getUser (usersOf e h) name).isSome = true

/-- The lists ask for authentication: a restricted path covers the resource and no permitted path does. -/
def ListsAsk (h : List Event) (req : Msg) : Prop :=
  (∃ p ∈ restricted h, Spec.Paths.Covers p (Spec.Dispatch.noSlash req.resource)) ∧
    ∀ p ∈ permitted h, ¬Spec.Paths.Covers p (Spec.Dispatch.noSlash req.resource)

theorem needs_iff (e : Env) (h : List Event) (req : Msg) : Needs e h req ↔ UsersExist e h ∧ ListsAsk h req := Iff.rfl

/-- Not a login or logout. -/
def Plain (cfg : Cfg) (req : Msg) : Prop :=
  ∀ o, cfg.kind = .cookie o → Spec.Dispatch.noSlash req.resource ≠ o.login ∧ Spec.Dispatch.noSlash req.resource ≠ o.logout

/-- The page that users are sent to for logging in. -/
def LoginPage (cfg : Cfg) (req : Msg) : Prop := ∃ o, cfg.kind = .cookie o ∧ o.redirect ≠ [] ∧ o.redirect = req.resource

/-- The request was not let through without asking: there were users at a moment of the call, and the lists asked for
    authentication at a moment. -/
def Asked (cfg : Cfg) (tr : List Act) (i : Nat) (req : Msg) : Prop :=
  Plain cfg req ∧ ¬LoginPage cfg req ∧ During tr i (fun a => UsersExist cfg.env (admin a)) ∧
    During tr i (fun a => ListsAsk (admin a) req)

/-- Call `i` is a login that has not returned. -/
def Logging (cfg : Cfg) (a : List Act) (i : Nat) : Prop :=
  ∃ o req, cfg.kind = .cookie o ∧ .call i req ∈ a ∧ Spec.Dispatch.noSlash req.resource = o.login ∧ ¬Returned a i

/-- At no moment do two logins run. -/
def OneLogin (cfg : Cfg) (tr : List Act) : Prop :=
  ∀ a b, tr = a ++ b → ∀ i k, Logging cfg a i → Logging cfg a k → i = k

/-- `n` bytes of the random number generator, from number `p` on. -/
def block (gen : Nat → UInt8) (p n : Nat) : Bytes := (List.range n).map fun k => gen (p + k)

/-- The steps that call `i` made. -/
def stepsOf (tr : List Act) (i : Nat) : Nat := (tr.filter fun | .step k => k == i | _ => false).length

/-- The variables that are accessed without a lock. -/
inductive Var where
  | cleanupTime
  | generator
  deriving DecidableEq

/-- The access that a call makes next: the variable, whether it is written, whether `m_cache_mutex` is held. -/
def access : Pc → Option (Var × Bool × Bool)
  | .cleanup _ => some (.cleanupTime, false, false)
  | .expire _ => some (.cleanupTime, true, true)
  | .draw _ => some (.generator, false, false)
  | .drawn _ _ => some (.generator, true, false)
  | _ => none

/-- Two calls can access the same variable at the same time, one of them writes it, and not both hold the mutex. -/
def Race (cfg : Cfg) (s : Verif.AuthThreads.St) (x : Var) : Prop :=
  ∃ i k ri pi rk pk, i ≠ k ∧ s.calls i = some (ri, pi) ∧ s.calls k = some (rk, pk) ∧
    (own cfg i s.sh ri pi).isSome = true ∧ (own cfg k s.sh rk pk).isSome = true ∧
    ∃ wi li lk, access pi = some (x, wi, li) ∧ access pk = some (x, true, lk) ∧ ¬(li = true ∧ lk = true)

end Verif.Spec.AuthThreads
