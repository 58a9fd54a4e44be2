import Verif.Model.Dict
import Mathlib.Tactic.Common
/-
C25, C26: the header dictionary is a case-insensitive multi-map.

What an observer sees of a dictionary: the entries whose key is a given key up to letter case
(`matching`), and the entries under all other keys (`others`).
-/
namespace Verif.Props.Dict
open Verif

/-- Two strings are the same up to ASCII letter case: same length, and at every position the characters are
    equal or are the two cases of one letter. -/
inductive SameUpToCase : Bytes → Bytes → Prop
  | nil : SameUpToCase [] []
  | same {c : UInt8} {s t : Bytes} : SameUpToCase s t → SameUpToCase (c :: s) (c :: t)
  | lower {i : UInt8} {s t : Bytes} : i < 26 → SameUpToCase s t → SameUpToCase ((0x41 + i) :: s) ((0x61 + i) :: t)
  | upper {i : UInt8} {s t : Bytes} : i < 26 → SameUpToCase s t → SameUpToCase ((0x61 + i) :: s) ((0x41 + i) :: t)

theorem toUpper_eq_iff : ∀ a b : UInt8, toUpper a = toUpper b ↔
    (a = b ∨ (∃ i : UInt8, i < 26 ∧ a = 0x41 + i ∧ b = 0x61 + i) ∨
      (∃ i : UInt8, i < 26 ∧ a = 0x61 + i ∧ b = 0x41 + i)) := by
  have letter : ∀ i : UInt8, i < 26 → toUpper (0x61 + i) = 0x41 + i ∧ toUpper (0x41 + i) = 0x41 + i := by
    decide +kernel
  have char : ∀ a : UInt8, (∃ i : UInt8, i < 26 ∧ a = 0x61 + i) ∨ toUpper a = a := by
    intro a
    have : ∀ a : UInt8, (a - 0x61 < 26 ∧ a = 0x61 + (a - 0x61)) ∨ toUpper a = a := by decide +kernel
    rcases this a with h | h
    · exact .inl ⟨_, h⟩
    · exact .inr h
  intro a b
  constructor
  · intro h
    rcases char a with ⟨i, hi, rfl⟩ | ha <;> rcases char b with ⟨j, hj, rfl⟩ | hb
    · rw [(letter i hi).1, (letter j hj).1] at h
      left
      have : i = j := by
        have := congrArg (fun x : UInt8 => x - 0x41) h
        simpa using this
      rw [this]
    · rw [(letter i hi).1, hb] at h
      exact .inr (.inr ⟨i, hi, rfl, h.symm⟩)
    · rw [(letter j hj).1, ha] at h
      exact .inr (.inl ⟨j, hj, h, rfl⟩)
    · left; rw [← ha, ← hb, h]
  · rintro (rfl | ⟨i, hi, rfl, rfl⟩ | ⟨i, hi, rfl, rfl⟩)
    · rfl
    · rw [(letter i hi).1, (letter i hi).2]
    · rw [(letter i hi).1, (letter i hi).2]

/-- **C25/C26 (keys).** The comparison of keys is equality up to letter case. -/
theorem iequals_iff (x y : Bytes) : iequals x y = true ↔ SameUpToCase x y := by
  unfold iequals
  rw [beq_iff_eq]
  constructor
  · intro h
    induction x generalizing y with
    | nil => cases y with
      | nil => exact .nil
      | cons b t => cases h
    | cons a s ih => cases y with
      | nil => cases h
      | cons b t =>
        rw [List.map_cons, List.map_cons, List.cons.injEq] at h
        have hs := ih t h.2
        rcases (toUpper_eq_iff a b).1 h.1 with rfl | ⟨i, hi, rfl, rfl⟩ | ⟨i, hi, rfl, rfl⟩
        · exact .same hs
        · exact .lower hi hs
        · exact .upper hi hs
  · intro h
    induction h with
    | nil => rfl
    | same _ ih => rw [List.map_cons, List.map_cons, ih]
    | lower hi _ ih =>
      rw [List.map_cons, List.map_cons, ih, (toUpper_eq_iff _ _).2 (.inr (.inl ⟨_, hi, rfl, rfl⟩))]
    | upper hi _ ih =>
      rw [List.map_cons, List.map_cons, ih, (toUpper_eq_iff _ _).2 (.inr (.inr ⟨_, hi, rfl, rfl⟩))]

example : SameUpToCase (b! "Content-Length") (b! "cOnTENT-length") := (iequals_iff _ _).1 (by decide +kernel)
example : ¬ SameUpToCase (b! "Content-Length") (b! "Content_Length") := fun h =>
  absurd ((iequals_iff _ _).2 h) (by decide +kernel)
/-- '@' and '`' differ by 0x20 like 'A' and 'a' but are not letters. -/
example : ¬ SameUpToCase (b! "@") (b! "`") := fun h => absurd ((iequals_iff _ _).2 h) (by decide +kernel)

theorem iequals_refl (x : Bytes) : iequals x x = true := by simp [iequals]
theorem iequals_symm (x y : Bytes) : iequals x y = iequals y x := by
  unfold iequals
  rw [Bool.eq_iff_iff, beq_iff_eq, beq_iff_eq]; exact ⟨Eq.symm, Eq.symm⟩
theorem iequals_trans {x y z : Bytes} (h : iequals x y = true) (h' : iequals y z = true) : iequals x z = true := by
  unfold iequals at *
  rw [beq_iff_eq] at *
  exact h.trans h'
theorem iequals_congr {k k' : Bytes} (h : iequals k k' = true) (x : Bytes) : iequals x k = iequals x k' := by
  rw [Bool.eq_iff_iff]
  exact ⟨fun hx => iequals_trans hx h, fun hx => iequals_trans hx (by rw [iequals_symm]; exact h)⟩

/-- Entries under a key, in any letter case. -/
def matching (d : Dict) (k : Bytes) : Dict := d.filter fun e => iequals e.1 k
/-- Entries under other keys. -/
def others (d : Dict) (k : Bytes) : Dict := d.filter fun e => !iequals e.1 k

/-- Nothing is hidden: the entries are the matching ones and the others. -/
theorem matching_perm_others (d : Dict) (k : Bytes) : (matching d k ++ others d k).Perm d :=
  List.filter_append_perm _ _

/-- The container may list the values of one key in any order. -/
def OrderOk (ord : Dict.Order) : Prop := ∀ l, (ord l).Perm l

theorem go_spec (k v name : Bytes) (hn : iequals name k = true) (d : Dict) :
    matching (Dict.change.go k v name d) k = (if matching d k = [] then [] else [(name, v)]) ∧
    others (Dict.change.go k v name d) k = others d k := by
  induction d with
  | nil => exact ⟨rfl, rfl⟩
  | cons e r ih =>
    unfold Dict.change.go
    split
    · rename_i he
      constructor
      · unfold matching
        rw [List.filter_cons, if_pos hn, List.filter_filter]
        rw [List.filter_cons, if_pos he, if_neg (by simp)]
        congr 1
        apply List.filter_eq_nil_iff.2
        intro a _; simp
      · unfold others
        rw [List.filter_cons, if_neg (by simp [hn]), List.filter_filter, List.filter_cons, if_neg (by simp [he])]
        simp
    · rename_i he
      unfold matching others at *
      rw [List.filter_cons, if_neg he, List.filter_cons, if_neg he]
      refine ⟨ih.1, ?_⟩
      rw [List.filter_cons, if_pos (by simp [he]), List.filter_cons, if_pos (by simp [he]), ih.2]

/-- **C25 (change).** After `change_header(k, v)` exactly one entry matches the key in any letter case, it has
    the value `v`, and the entries under other keys are untouched. The entry keeps an existing spelling of the
    key if there is one. -/
theorem change_exact (pick : Nat) (d : Dict) (k v : Bytes) :
    ∃ name, iequals name k = true ∧ matching (d.change pick k v) k = [(name, v)] ∧
      (matching d k = [] → name = k) ∧ (matching d k ≠ [] → ∃ w, (name, w) ∈ d) ∧
      others (d.change pick k v) k = others d k := by
  unfold Dict.change
  dsimp only
  split
  · rename_i h
    have hnil : matching d k = [] := by
      unfold matching
      cases hm : List.filter (fun e => iequals e.1 k) d with
      | nil => rfl
      | cons a l => rw [hm] at h; cases hp : (a :: l)[pick]? <;> rw [hp] at h <;> simp at h
    refine ⟨k, iequals_refl k, ?_, fun _ => rfl, fun hh => absurd hnil hh, ?_⟩
    · unfold matching at *
      rw [List.filter_append, hnil]
      simp [iequals_refl]
    · unfold others
      rw [List.filter_append]
      simp [iequals_refl]
  · rename_i e h
    have hmem : e ∈ List.filter (fun e => iequals e.1 k) d := by
      rcases hp : (List.filter (fun e => iequals e.1 k) d)[pick]? with _ | a
      · rw [hp] at h; exact List.mem_of_getElem? h
      · rw [hp] at h
        cases h
        exact List.mem_of_getElem? hp
    have hmem' := List.mem_filter.1 hmem
    obtain ⟨h1, h2⟩ := go_spec k v e.1 hmem'.2 d
    refine ⟨e.1, hmem'.2, ?_, ?_, fun _ => ⟨e.2, hmem'.1⟩, h2⟩
    · rw [h1]; exact if_neg (List.ne_nil_of_mem hmem)
    · intro hn
      rw [show List.filter (fun e => iequals e.1 k) d = [] from hn] at hmem
      cases hmem

/-- **C25 (delete).** After `delete_header(k)` no entry matches the key in any letter case, and the entries
    under other keys are untouched. -/
theorem delete_exact (d : Dict) (k : Bytes) :
    matching (d.delete k) k = [] ∧ others (d.delete k) k = others d k := by
  unfold matching others Dict.delete
  constructor
  · rw [List.filter_filter, List.filter_eq_nil_iff]
    intro e _; simp
  · rw [List.filter_filter]; simp

/-- **C25 (add).** `add_header(k, v)` adds exactly one entry. -/
theorem add_exact (d : Dict) (k v : Bytes) :
    matching (d.insert k v) k = matching d k ++ [(k, v)] ∧ others (d.insert k v) k = others d k := by
  unfold matching others Dict.insert
  rw [List.filter_append, List.filter_append]
  simp [iequals_refl]

/-- Two keys that differ not only in letter case do not affect each other: whatever is seen under `k'` is
    determined by the entries not matching `k`. -/
theorem matching_of_others {d d' : Dict} {k k' : Bytes} (hk : iequals k' k = false)
    (h : others d k = others d' k) : matching d k' = matching d' k' := by
  have key : ∀ d : Dict, matching d k' = matching (others d k) k' := by
    intro d
    unfold matching others
    rw [List.filter_filter]
    congr 1
    funext e
    cases h1 : iequals e.1 k' with
    | false => rfl
    | true =>
      have : iequals e.1 k = false := by
        rw [Bool.eq_false_iff]; intro h2
        rw [iequals_symm] at h1
        exact absurd (iequals_trans h1 h2) (by simp [hk])
      rw [this]; rfl
  rw [key d, h, ← key d']

/-- The same key in another letter case sees the same entries. -/
theorem matching_congr {k k' : Bytes} (h : iequals k k' = true) (d : Dict) : matching d k = matching d k' := by
  unfold matching
  congr 1
  funext e
  exact iequals_congr h e.1

/-- **C25 (has).** `has_header(k)`: some entry matches. -/
theorem has_iff (d : Dict) (k : Bytes) : d.has k = true ↔ matching d k ≠ [] := by
  unfold Dict.has matching
  rw [Ne, List.filter_eq_nil_iff, List.any_eq_true]
  push Not
  rfl

/-- **C25 (get).** `get_header(k)`: the value of an entry that matches, the empty string if there is none. -/
theorem get_spec (ord : Dict.Order) (ho : OrderOk ord) (d : Dict) (k : Bytes) :
    (matching d k = [] → d.get ord k = []) ∧
    (matching d k ≠ [] → ∃ name, (name, d.get ord k) ∈ matching d k) := by
  unfold Dict.get Dict.find? Dict.values
  have hv : ord ((matching d k).map (·.2)) |>.Perm ((matching d k).map (·.2)) := ho _
  change (matching d k = [] → ((ord ((matching d k).map (·.2))).head?).getD [] = []) ∧ (matching d k ≠ [] →
    ∃ name, (name, ((ord ((matching d k).map (·.2))).head?).getD []) ∈ matching d k)
  generalize ord ((matching d k).map (·.2)) = l at hv ⊢
  constructor
  · intro h
    rw [h] at hv
    rw [hv.eq_nil]; rfl
  · intro h
    cases l with
    | nil =>
      have := hv.symm.eq_nil
      rw [List.map_eq_nil_iff] at this
      exact absurd this h
    | cons a t =>
      have : a ∈ (matching d k).map (·.2) := hv.subset List.mem_cons_self
      obtain ⟨⟨n, w⟩, he, rfl⟩ := List.mem_map.1 this
      exact ⟨n, he⟩

/-- **C25 (change, then get).** The new value is found under the key in every letter case, whatever order the
    container keeps; all other keys answer as before. -/
theorem get_after_change (ord : Dict.Order) (ho : OrderOk ord) (pick : Nat) (d : Dict) (k v k' : Bytes) :
    (iequals k k' = true → (d.change pick k v).get ord k' = v ∧ (d.change pick k v).has k' = true) ∧
    (iequals k k' = false → (d.change pick k v).get ord k' = d.get ord k' ∧
      (d.change pick k v).has k' = d.has k') := by
  obtain ⟨name, hn, hm, -, -, ho'⟩ := change_exact pick d k v
  constructor
  · intro hk
    rw [matching_congr hk] at hm
    constructor
    · obtain ⟨n, hn⟩ := (get_spec ord ho (d.change pick k v) k').2 (by rw [hm]; simp)
      rw [hm, List.mem_singleton] at hn
      exact congrArg Prod.snd hn
    · rw [has_iff, hm]; simp
  · intro hk
    rw [iequals_symm] at hk
    have := matching_of_others hk ho'
    constructor
    · unfold Dict.get Dict.find? Dict.values
      unfold matching at this
      rw [this]
    · rw [Bool.eq_iff_iff, has_iff, has_iff, this]

/-- **C25 (delete, then get).** -/
theorem get_after_delete (ord : Dict.Order) (ho : OrderOk ord) (d : Dict) (k k' : Bytes) :
    (iequals k k' = true → (d.delete k).get ord k' = [] ∧ (d.delete k).has k' = false) ∧
    (iequals k k' = false → (d.delete k).get ord k' = d.get ord k' ∧ (d.delete k).has k' = d.has k') := by
  obtain ⟨hm, ho'⟩ := delete_exact d k
  constructor
  · intro hk
    rw [matching_congr hk] at hm
    refine ⟨(get_spec ord ho _ k').1 hm, ?_⟩
    rw [Bool.eq_false_iff, Ne, has_iff, hm]; simp
  · intro hk
    rw [iequals_symm] at hk
    have := matching_of_others hk ho'
    constructor
    · unfold Dict.get Dict.find? Dict.values
      unfold matching at this
      rw [this]
    · rw [Bool.eq_iff_iff, has_iff, has_iff, this]

/-- A dictionary with two spellings of one key; both the first and the last value may be listed first. -/
def sample : Dict := [(b! "Accept", b! "a"), (b! "Host", b! "h"), (b! "ACCEPT", b! "b")]
example : matching sample (b! "accept") ≠ [] ∧ others sample (b! "accept") ≠ [] := by decide +kernel
example : sample.change 1 (b! "accept") (b! "c") = [(b! "ACCEPT", b! "c"), (b! "Host", b! "h")] := by decide +kernel
example : sample.delete (b! "accept") = [(b! "Host", b! "h")] := by decide +kernel
example : OrderOk id ∧ OrderOk List.reverse := ⟨fun l => .refl l, fun l => List.reverse_perm l⟩
example : sample.get id (b! "accept") = b! "a" ∧ sample.get List.reverse (b! "accept") = b! "b" := by decide +kernel

/-- **C26.** Keys that compare equal hash equally, for every mixing function. -/
theorem ihash_eq_of_iequals (mix : HashCombine) (x y : Bytes) (h : iequals x y = true) :
    ihash mix x = ihash mix y := by
  unfold iequals at h
  rw [beq_iff_eq] at h
  have key : ∀ z : Bytes, ihash mix z = (z.map toUpper).foldl mix 0 := by
    intro z; unfold ihash; rw [List.foldl_map]
  rw [key, key, h]

example : iequals (b! "Host") (b! "hOST") = true := by decide +kernel

/-- A hash table: entry `e` is stored in bucket `ihash e.1 % n`. -/
def bucket (mix : HashCombine) (n : Nat) (d : Dict) (b : Nat) : Dict := d.filter fun e => ihash mix e.1 % n = b

/-- **C26 (no lookup misses).** Looking for a key only in its bucket finds every entry that matches the key in
    any letter case, for every number of buckets and every mixing function. -/
theorem bucket_lookup_complete (mix : HashCombine) (n : Nat) (d : Dict) (k : Bytes) :
    matching (bucket mix n d (ihash mix k % n)) k = matching d k := by
  unfold matching bucket
  rw [List.filter_filter]
  apply List.filter_congr
  intro e _
  cases h : iequals e.1 k with
  | false => rfl
  | true => simp [ihash_eq_of_iequals mix e.1 k h]

example : bucket (fun s c => s * 31 + c.toNat) 7 sample (ihash (fun s c => s * 31 + c.toNat) (b! "accept") % 7)
    ≠ sample := by decide +kernel

end Verif.Props.Dict
