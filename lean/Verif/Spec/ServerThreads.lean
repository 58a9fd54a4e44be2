import Verif.Model.ServerThreads
import Verif.Spec.Dispatch
/-
What is observed of a server that is changed while it handles requests. A moment is a beginning of the sequence of actions.
-/
namespace Verif.Spec.ServerThreads
open Verif.ServerThreads Verif.Server Verif.Spec.Paths Verif.Spec.Dispatch

variable {H : Type}

/-- The calls that changed the tables. -/
def admin (tr : List (Act H)) : List (Op H) := tr.filterMap fun | .admin op => some op | _ => none

/-- What was called for a request, in order. -/
def callsFor (s : St H) (i : Nat) : List (Call H) := (s.log.filter (·.1 == i)).map (·.2)

/-- At this moment request `i` has come, and nothing has been called for it. -/
def Open (hasAuth : Bool) (a : List (Act H)) (i : Nat) : Prop :=
  (∃ req, .request i req ∈ a) ∧ ∃ s, run hasAuth a = some s ∧ callsFor s i = []

/-- The chain of redirects from the path of the request ends at `t` after `n` of them, at most ten. -/
def Ends (ops : List (Op H)) (req : Msg) (n : Nat) (t : Bytes) : Prop :=
  n ≤ 10 ∧ Follows (redirects ops) n (noSlash req.resource) t ∧ redirects ops t = none

/-- The request as the authenticator and the handler see it. -/
def redirected (req : Msg) (n : Nat) (t : Bytes) : Msg := if n = 0 then req else { req with resource := t }

/-- Request `i` was redirected to `t` as the redirects were at one moment while it was open; then the authenticator, if there is
    one, let the redirected request pass; and at a later moment, while it was still open, the tables were such that `P`. -/
def Routed (hasAuth : Bool) (tr : List (Act H)) (i : Nat) (req : Msg) (n : Nat) (t : Bytes) (P : List (Op H) → Prop) : Prop :=
  .request i req ∈ tr ∧ ∃ a b c, tr = a ++ b ++ c ∧ Open hasAuth a i ∧ Ends (admin a) req n t ∧
    (hasAuth = true → .auth i (redirected req n t) true ∈ b) ∧ Open hasAuth (a ++ b) i ∧ P (admin (a ++ b))

/-- The actions of request `i`, after it has come. -/
def actsOf (tr : List (Act H)) (i : Nat) : Nat :=
  (tr.filter fun | .step k => k == i | .auth k _ _ => k == i | .returns k _ => k == i | _ => false).length

/-- Somebody may search the redirects, without the mutex, while somebody else may add one. -/
def RedirectRace (hasAuth : Bool) (s : St H) : Prop :=
  ∃ i req n r q s1 from_ to s2, s.calls i = some (req, .redirect n r q) ∧ s.step hasAuth (.step i) = some s1 ∧
    s.step hasAuth (.admin (.addRedirect from_ to)) = some s2 ∧ s2.tables.redirects ≠ s.tables.redirects

end Verif.Spec.ServerThreads
