import Verif.Model.Connection
/-
What may be seen on the wire, and which endpoint answers, for C73 and C74.
-/
namespace Verif.Spec.Connection
open Verif Verif.Connection

/-- The data read and written. -/
def data (ops : List Op) : List Bytes := ops.filterMap fun op => match op with | .transfer d => some d | _ => none

def isHandshake : Op → Bool
  | .handshake _ => true
  | _ => false

/-- The data that goes in the clear over a connection that was asked to be encrypted (`flag`) or not: none if it was;
    otherwise that before the first handshake, whether it succeeds or not. -/
def inClear (flag : Bool) (ops : List Op) : List Bytes :=
  if flag then [] else data (ops.takeWhile (fun op => !isHandshake op))

/-- The rest. -/
def encrypted (flag : Bool) (ops : List Op) : List Bytes :=
  if flag then data ops else data (ops.dropWhile (fun op => !isHandshake op))

end Verif.Spec.Connection
