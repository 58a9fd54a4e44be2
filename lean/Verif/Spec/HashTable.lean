import Verif.Model.HashTable
/-
What a case-insensitive multimap holds after a sequence of operations, for C26: the plain list of
`Verif.Model.Dict`, in which entries stand in the order they were inserted.
-/
namespace Verif.Spec.HashTable
open Verif Verif.HashTable

/-- The operation on the list. `change` keeps the spelling of the entry that the container has first: the newest if new
    entries come before equal ones, the oldest otherwise. Growing changes nothing. -/
def step (front : Bool) (d : Dict) : Op → Dict
  | .insert k v => d.insert k v
  | .erase k => d.delete k
  | .change k v => d.change (if front then (d.values k).length - 1 else 0) k v
  | .rehash _ => d

def run (front : Bool) (ops : List Op) : Dict := ops.foldl (step front) []

/-- The entries under a key, in the order of the container. -/
def under (front : Bool) (d : Dict) (k : Bytes) : List Entry :=
  if front then (d.filter fun e => iequals e.1 k).reverse else d.filter fun e => iequals e.1 k

/-- The order of the values of a key that the other models take as a parameter. -/
def order (front : Bool) : Dict.Order := if front then List.reverse else id

end Verif.Spec.HashTable
