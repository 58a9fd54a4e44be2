import Verif.Model.Host
import Verif.Spec.Exchange
/-
A server as one of its clients sees it.
-/
namespace Verif.Spec.Host
open Verif.Host
open Verif.Exchange (St)

/-- What a step is for connection `i`. -/
def forConn (i : Nat) : Act → List Exchange.Act
  | .conn j a => if j = i then [a] else []
  | .accept => [.prune]
  | .stop now => [.stop now]
  | .start => [.start]
  | .prune => [.prune]
  | .other => [.other]

/-- Of all steps those that concern connection `i`, from when it exists; `n` connections exist so far. -/
def project (i : Nat) : Nat → List Act → List Exchange.Act
  | _, [] => []
  | n, a :: as => (if i < n then forConn i a else []) ++ project i (if a = .accept then n + 1 else n) as

/-- Connection `i`, with what it has of the server. -/
def seen (h : Host) (i : Nat) (c : St) : St := { c with listening := h.listening, held := h.held == some i }

/-- What the server and the operating system do by themselves. -/
def own : Act → Bool
  | .conn _ a => Verif.Spec.Exchange.own a
  | _ => false

/-- Clients also go away. -/
def leaves : Act → Bool
  | .conn _ .readFails => true
  | _ => false

/-- Nobody closes a connection, and the server is not started again. -/
def gentle : Act → Bool
  | .conn _ .close | .start => false
  | _ => true

/-- `stop` returns once no connection is left in the pool. -/
def empty (h : Host) : Prop := ∀ c ∈ h.conns, c.pooled = false

end Verif.Spec.Host
