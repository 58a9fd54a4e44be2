import Verif.Model.Server
import Verif.Spec.Paths
/-
What a history of registration calls means: which handler is registered under which path, and which path is
redirected to which, as functions.
-/
namespace Verif.Spec.Dispatch
open Verif.Spec.Paths Verif.Server

/-- A path as it is stored: one final slash does not count. -/
def noSlash : Bytes → Bytes
  | [] => []
  | [c] => if c = c! "/" then [] else [c]
  | c :: d :: r => c :: noSlash (d :: r)

/-- Effect of one call on the registered handlers: the first registration of a path counts until it is
    removed. -/
def handlerStep {H : Type} (t : Table H) : Op H → Table H
  | .addResource r h => fun p => if p = noSlash r ∧ t p = none then some h else t p
  | .removeResource r => fun p => if p = noSlash r then none else t p
  | .addRedirect _ _ => t
  | .clear => fun _ => none

/-- Handlers registered after the calls `ops`. -/
def handlers {H : Type} (ops : List (Op H)) : Table H := ops.foldl handlerStep fun _ => none

/-- Effect of one call on the redirects: the first one for a path counts, for ever. -/
def redirectStep {H : Type} (t : Table Bytes) : Op H → Table Bytes
  | .addRedirect r n => fun p => if p = noSlash r ∧ t p = none then some (noSlash n) else t p
  | _ => t

/-- Redirects registered after the calls `ops`. -/
def redirects {H : Type} (ops : List (Op H)) : Table Bytes := ops.foldl redirectStep fun _ => none

end Verif.Spec.Dispatch
