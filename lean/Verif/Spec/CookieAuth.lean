import Verif.Model.CookieAuth
import Verif.Model.Responses
import Verif.Spec.Auth
import Verif.Spec.MessageBuild
/-
Sessions as the two sides of the connection see them, and which session identifiers there can be.
-/
namespace Verif.Spec.CookieAuth
open Verif.Auth Verif.CookieAuth

/-- The history as `Spec.Auth` has it; the random bytes of its events are left out. -/
def history (calls : List Call) : List Event := calls.map fun
  | .request now req => .request now [] req
  | .users op => .users op
  | .restrict r => .restrict r
  | .permit r => .permit r

/-- The verdicts of the calls, in their order. -/
def verdicts (g : Gen) (e : Env) (a : Object) : List Call → List Verdict
  | [] => []
  | .request now req :: calls => (handle g e now a req).1 :: verdicts g e (call g e a (.request now req)) calls
  | c :: calls => verdicts g e (call g e a c) calls

/-- The number of sessions opened. -/
def sessions (g : Gen) (e : Env) (a : Object) (calls : List Call) : Nat :=
  ((verdicts g e a calls).filter opened).length

/-- The identifier number `n` of an object created in the second `time`: nothing else is needed to compute it. -/
def identifier (g : Gen) (time n : Nat) : Bytes :=
  Verif.Base64.encode ((List.range 20).map fun i => g (time % 2 ^ 32) (100 + 20 * n + i))

/-- The identifiers of the first `n` sessions of all objects created in `count` seconds from `first` on. -/
def guesses (g : Gen) (first count n : Nat) : List Bytes :=
  (List.range count).flatMap fun d => (List.range n).map fun k => identifier g (first + d) k

/-- Session number `n` of an object created in the second `time` has an identifier of its own among those before it. -/
def Unrepeated (g : Gen) (time n : Nat) : Prop := ∀ k < n, identifier g time k ≠ identifier g time n

end Verif.Spec.CookieAuth
