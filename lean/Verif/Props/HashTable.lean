import Verif.Lemmas.HashTable
/-
C26: the hash tables under the dictionaries of headers, cookies and queries do what the plain lists of
`Verif.Model.Dict` do, whenever they grow and wherever they put new entries.
-/
namespace Verif.Props.HashTable
open Verif Verif.HashTable Verif.Spec.HashTable Verif.Lemmas.HashTable

/-- **C26 (lookup).** After any operations, in a table of any size that grew at any time, `equal_range` finds exactly the
    entries under the key in any letter case, and `find` the first of them. -/
theorem finds (mix : HashCombine) (front : Bool) (n : Nat) (ops : List Op) (k : Bytes) :
    let t := (empty (n + 1)).run mix front ops
    t.equalRange mix k = under front (Spec.HashTable.run front ops) k ∧
      t.find mix k = (under front (Spec.HashTable.run front ops) k).head? := by
  have h := holds_run mix front n ops
  refine ⟨(range_eq (h.grouped _)).trans (h.same k), ?_⟩
  rw [← h.same k, List.head?_filter]
  rfl

/-- **C26 (iteration).** Walking through the table visits exactly the entries, each as often as it was put in, and entries
    with equal keys one after the other, in the order of `equal_range`. -/
theorem visits (mix : HashCombine) (front : Bool) (n : Nat) (ops : List Op) :
    let t := (empty (n + 1)).run mix front ops
    t.entries.Perm (Spec.HashTable.run front ops) ∧
      ∀ k, ∃ a c, t.entries = a ++ t.equalRange mix k ++ c ∧ ∀ e ∈ a ++ c, iequals e.1 k = false := by
  have h := holds_run mix front n ops
  dsimp only
  constructor
  · rw [List.perm_iff_count]
    intro e
    have h1 := entries_under h e.1
    have hc : ∀ l : List Entry, l.count e = (l.filter (fun x => iequals x.1 e.1)).count e := by
      intro l; rw [List.count_filter (by simp [Props.Dict.iequals_refl])]
    rw [hc, h1, hc (Spec.HashTable.run front ops)]
    unfold under
    split
    · rw [List.count_reverse]
    · rfl
  · intro k
    have hg := entries_grouped h
    have hr : Table.equalRange mix ((empty (n + 1)).run mix front ops) k =
        (((empty (n + 1)).run mix front ops).entries.dropWhile (fun e => !iequals e.1 k)).takeWhile (fun e => iequals e.1 k) := by
      rw [range_eq hg, entries_under h k]
      exact (finds mix front n ops k).1
    rw [hr]
    generalize ((empty (n + 1)).run mix front ops).entries = l at hg
    refine ⟨l.takeWhile (fun e => !iequals e.1 k), (l.dropWhile (fun e => !iequals e.1 k)).dropWhile (fun e => iequals e.1 k), ?_, ?_⟩
    · rw [List.append_assoc, List.takeWhile_append_dropWhile, List.takeWhile_append_dropWhile]
    · intro e he
      rw [erase_eq hg] at he
      simpa using (List.mem_filter.1 he).2

/-- **C26 (the order of values).** The value that `get_header`, `get_cookie` and `get_query` return is that of the model
    with an order of values that the other theorems allow. -/
theorem order_ok (mix : HashCombine) (front : Bool) (n : Nat) (ops : List Op) (k : Bytes) :
    Props.Dict.OrderOk (order front) ∧
      (((empty (n + 1)).run mix front ops).find mix k).map (·.2) = (Spec.HashTable.run front ops).find? (order front) k := by
  constructor
  · intro l; cases front
    · exact .refl _
    · exact List.reverse_perm l
  · rw [(finds mix front n ops k).2]
    unfold under Dict.find? order Dict.values
    cases front <;> simp [List.head?_map, ← List.map_reverse]

/-- A bad but legal hash function: all short keys collide. -/
def clash : HashCombine := fun seed _ => seed

def story : List Op := [.insert (b! "Host") (b! "a"), .insert (b! "Cookie") (b! "1"), .insert (b! "cookie") (b! "2"),
  .rehash 2, .insert (b! "COOKIE") (b! "3"), .change (b! "host") (b! "b"), .insert (b! "X") (b! "y"), .erase (b! "x"),
  .rehash 0]

example : ((empty 1).run clash true story).equalRange clash (b! "cookie") =
    [(b! "COOKIE", b! "3"), (b! "cookie", b! "2"), (b! "Cookie", b! "1")] := by decide +kernel
example : ((empty 1).run clash false story).equalRange clash (b! "cookie") =
    [(b! "Cookie", b! "1"), (b! "cookie", b! "2"), (b! "COOKIE", b! "3")] := by decide +kernel
example : ((empty 1).run clash true story).find clash (b! "HOST") = some (b! "Host", b! "b") := by decide +kernel
example : Spec.HashTable.run true story = [(b! "Host", b! "b"), (b! "Cookie", b! "1"), (b! "cookie", b! "2"), (b! "COOKIE", b! "3")] := by
  decide +kernel

end Verif.Props.HashTable
