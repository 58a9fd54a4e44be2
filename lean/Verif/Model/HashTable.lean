import Verif.Model.Dict
/-
Model of the container under `ihash_multimap` (/repo/include/pion/hash_map.hpp:33-135): a hash table with chains, hashed
with `ihash` and compared with `iequal_to`. `Verif.Model.Dict` has the same operations on a plain list; C26 shows that the
table does what the list does.

The standard fixes what a multimap does and leaves the following open, which is a parameter here: when the table grows and
to what size (`Op.rehash` at any time), and whether a new entry comes before or after the entries with an equal key
(`front`; libstdc++ has the first, Boost the second). The hash function is `ihash` for any mixing function. Simplified: the
order of entries with different keys in a chain after growing.
-/
namespace Verif.HashTable
open Verif

abbrev Entry := Bytes × Bytes

/-- The number of chains, and the chains. -/
structure Table where
  size : Nat
  chain : Nat → List Entry

/-- An empty table. -/
def empty (n : Nat) : Table := ⟨n, fun _ => []⟩

/-- The chain of a key: `hash(key) % bucket_count()`. -/
def slot (mix : HashCombine) (n : Nat) (k : Bytes) : Nat := ihash mix k % n

/-- A new entry before those with an equal key, or at the beginning of the chain. -/
def before (e : Entry) (l : List Entry) : List Entry := if l.any (fun x => iequals x.1 e.1) then go l else e :: l
where
  go : List Entry → List Entry
    | [] => [e]
    | x :: r => if iequals x.1 e.1 then e :: x :: r else x :: go r

/-- A new entry after those with an equal key, or at the end of the chain. -/
def after (e : Entry) : List Entry → List Entry
  | [] => [e]
  | x :: r => if iequals x.1 e.1 ∧ r.any (fun y => iequals y.1 e.1) = false then x :: e :: r else x :: after e r

/-- `insert` of a multimap. -/
def Table.insert (mix : HashCombine) (front : Bool) (t : Table) (k v : Bytes) : Table :=
  { t with chain := fun i => if i = slot mix t.size k then (if front then before (k, v) else after (k, v)) (t.chain i) else t.chain i }

/-- All entries as `begin()` to `end()` visits them. -/
def Table.entries (t : Table) : List Entry := (List.range t.size).flatMap t.chain

/-- The table gets another number of chains: every entry is appended to its new chain. -/
def Table.rehash (mix : HashCombine) (t : Table) (n : Nat) : Table :=
  { size := n, chain := fun i => if i < n then t.entries.filter (fun e => slot mix n e.1 = i) else [] }

/-- `equal_range(key)`: in the chain of the key, from the first entry with an equal key as long as keys are equal. -/
def Table.equalRange (mix : HashCombine) (t : Table) (k : Bytes) : List Entry :=
  ((t.chain (slot mix t.size k)).dropWhile (fun e => !iequals e.1 k)).takeWhile (fun e => iequals e.1 k)

/-- `find(key)`. -/
def Table.find (mix : HashCombine) (t : Table) (k : Bytes) : Option Entry :=
  (t.chain (slot mix t.size k)).find? (fun e => iequals e.1 k)

/-- `erase(range.first, range.second)` for the `equal_range` of a key (`delete_value`,
    /repo/include/pion/http/message.hpp:660-667): what was found is taken out, the rest of the chain stays. -/
def Table.erase (mix : HashCombine) (t : Table) (k : Bytes) : Table :=
  { t with chain := fun i => if i = slot mix t.size k then
      (t.chain i).takeWhile (fun e => !iequals e.1 k) ++
        ((t.chain i).dropWhile (fun e => !iequals e.1 k)).dropWhile (fun e => iequals e.1 k)
    else t.chain i }

/-- `change_value` (/repo/include/pion/http/message.hpp:632-651): if `equal_range` is empty the value is inserted; otherwise
    the first entry of the range gets the value and the others are erased. -/
def Table.change (mix : HashCombine) (front : Bool) (t : Table) (k v : Bytes) : Table :=
  match t.equalRange mix k with
  | [] => t.insert mix front k v
  | e :: _ =>
    { t with chain := fun i => if i = slot mix t.size k then
        (t.chain i).takeWhile (fun e => !iequals e.1 k) ++ (e.1, v) ::
          ((t.chain i).dropWhile (fun e => !iequals e.1 k)).dropWhile (fun e => iequals e.1 k)
      else t.chain i }

/-- What is done to a table. -/
inductive Op where
  | insert (k v : Bytes)
  | erase (k : Bytes)
  | change (k v : Bytes)
  /-- the table decides to have `n + 1` chains -/
  | rehash (n : Nat)
  deriving Repr, DecidableEq

def Table.step (mix : HashCombine) (front : Bool) (t : Table) : Op → Table
  | .insert k v => t.insert mix front k v
  | .erase k => t.erase mix k
  | .change k v => t.change mix front k v
  | .rehash n => t.rehash mix (n + 1)

def Table.run (mix : HashCombine) (front : Bool) (t : Table) (ops : List Op) : Table := ops.foldl (Table.step mix front) t

end Verif.HashTable
