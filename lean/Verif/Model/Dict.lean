import Verif.Model.Chars
/-
Model of `ihash_multimap` (/repo/include/pion/hash_map.hpp:76-135) and of the dictionary helpers of
`http::message` (/repo/include/pion/http/message.hpp:612-667).

A multimap is the list of its entries. The container leaves the order of entries open: functions that
depend on the order among equal keys take a parameter `ord` (the container's order of the values of one
key, an arbitrary permutation); functions that depend on the overall iteration order are used on an
arbitrary list.
-/
namespace Verif

/-- `ihash_multimap`. -/
abbrev Dict := List (Bytes × Bytes)

namespace Dict

/-- The container's (unspecified) order of the values stored under one key. -/
abbrev Order := List Bytes → List Bytes

/-- Values stored under a key: `equal_range(key)`; keys are compared with `iequal_to`
    (/repo/include/pion/hash_map.hpp:76-83). -/
def values (d : Dict) (k : Bytes) : List Bytes := (d.filter fun e => iequals e.1 k).map (·.2)

/-- `dict.insert(std::make_pair(key, value))` (message.hpp:371-373 `add_header`). -/
def insert (d : Dict) (k v : Bytes) : Dict := d ++ [(k, v)]

/-- `dict.find(key) != dict.end()` (message.hpp:216-218 `has_header`). -/
def has (d : Dict) (k : Bytes) : Bool := d.any fun e => iequals e.1 k

/-- `dict.find(key)->second`, if any (message.hpp:612-618 `get_value` returns the empty string for none). -/
def find? (ord : Order) (d : Dict) (k : Bytes) : Option Bytes := (ord (d.values k)).head?

/-- `get_value` (message.hpp:612-618). -/
def get (ord : Order) (d : Dict) (k : Bytes) : Bytes := (d.find? ord k).getD []

/-- `delete_value` (message.hpp:660-667). -/
def delete (d : Dict) (k : Bytes) : Dict := d.filter fun e => !iequals e.1 k

/-- `change_value` (message.hpp:632-651): the entry at `equal_range(key).first` keeps its key spelling and
    gets the new value, the other entries of the key are erased. `pick` says which entry (by position among
    the entries of the key) the container puts first. -/
def change (pick : Nat) (d : Dict) (k v : Bytes) : Dict :=
  let same := d.filter fun e => iequals e.1 k
  match same[pick]?.or same[0]? with
  | none => d ++ [(k, v)]
  | some e => go e.1 d
where
  /-- Replace the first entry of the key by `(name, v)` and drop the other ones. -/
  go (name : Bytes) : Dict → Dict
    | [] => []
    | e :: r => if iequals e.1 k then (name, v) :: r.filter (fun e => !iequals e.1 k) else e :: go name r

end Dict

/-- `boost::hash_combine` mixing step as an arbitrary function, see `ihash`. -/
abbrev HashCombine := Nat → UInt8 → Nat

/-- `ihash::operator()` (/repo/include/pion/hash_map.hpp:89-105), for any mixing function. -/
def ihash (mix : HashCombine) (x : Bytes) : Nat := x.foldl (fun seed c => mix seed (toUpper c)) 0

end Verif
