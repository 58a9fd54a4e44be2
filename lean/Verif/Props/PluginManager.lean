import Verif.Lemmas.PluginManager
/-
C30 (plug-in lookup) and C39 (ownership of plug-in objects).
-/
namespace Verif.Props.PluginManager
open Verif.Plugins Verif.SMap Verif.Spec.Paths
open Verif.Spec.Plugins (table takes taken registered destroyed Objects)

/-! ### C30 -/

/-- C30, the table searched: `get` answers what the calls so far registered. -/
theorem get_registered (ops : List Op) (id : Bytes) : get (run ops) id = (table ops id).map (·.obj) := by
  rw [← (run_table ops).2]; rfl

/-- C30 (partial): a plug-in that is found is the one with the longest identifier that covers the resource.
    Missing: it is found whenever there is one, which is false, see `find_misses`. -/
theorem find_longest_partial (ops : List Op) (resource : Bytes) (e : Entry)
    (h : find (run ops).map resource = some e) : Longest (table ops) resource e := by
  obtain ⟨hs, ht⟩ := run_table ops
  rw [find_eq] at h
  rw [← ht]
  exact (Server.walkBack_longest hs resource e).1 (findLoop_find h)

/-- C30 (partial): the lookup fails for a covered resource only when two registered identifiers that start with
    the covering one get in the way: neither covers the resource, and the one that sorts first is at least as long. -/
theorem find_none_partial (ops : List Op) (resource : Bytes) (h : find (run ops).map resource = none) :
    Uncovered (table ops) resource ∨
    ∃ path, table ops path ≠ none ∧ Covers path resource ∧
      ∃ a b, a ≠ b ∧ table ops a ≠ none ∧ table ops b ≠ none ∧ path <+: a ∧ path <+: b ∧ path.length < b.length ∧
        b.length ≤ a.length ∧ ¬b <+: resource := by
  obtain ⟨hs, ht⟩ := run_table ops
  rw [find_eq] at h
  by_cases hu : Uncovered (table ops) resource
  · exact .inl hu
  · right
    unfold Uncovered at hu
    push Not at hu
    obtain ⟨path, hp, hc⟩ := hu
    rw [← ht] at hp
    obtain ⟨v, hv⟩ := Option.ne_none_iff_exists'.1 hp
    have hmem := Server.mem_upTo_of_covers hs ((lookup_eq_some hs).1 hv) hc
    have hr := upTo_reverse hs resource
    obtain ⟨a, ha, b, hb, hab, h1, h2, h3, h4, h5⟩ :=
      findLoop_miss hr.1 hr.2 (List.mem_reverse.2 hmem) hc h
    have reg : ∀ e ∈ ((run ops).map.upTo resource).reverse, table ops e.1 ≠ none := by
      intro e he
      have := (lookup_eq_some hs).2 (Server.upTo_subset _ _ (List.mem_reverse.1 he) : (e.1, e.2) ∈ (run ops).map)
      rw [← ht]
      simp [this]
    refine ⟨path, by rw [← ht]; exact hp, hc, a.1, b.1, ?_, reg a ha, reg b hb, h1, h2, h3, h4, h5⟩
    intro heq
    rw [heq, bytesLt_irrefl] at hab
    cases hab

/-- C30 (partial): an identifier is always found by the resource of the same name. -/
theorem find_exact (ops : List Op) (id : Bytes) : table ops id ≠ none → find (run ops).map id = table ops id := by
  intro hp
  obtain ⟨e, he⟩ := Option.ne_none_iff_exists'.1 hp
  cases hf : find (run ops).map id with
  | none =>
    obtain ⟨hs, ht⟩ := run_table ops
    rw [find_eq] at hf
    rw [← ht] at he
    have hmem := Server.mem_upTo_of_covers (r := id) hs ((lookup_eq_some hs).1 he) (.inl rfl)
    have hr := upTo_reverse hs id
    obtain ⟨a, ha, b, hb, hab, h1, h2, h3, h4, h5⟩ := findLoop_miss hr.1 hr.2 (List.mem_reverse.2 hmem) (.inl rfl) hf
    have hlt := bytesLt_append id
    obtain ⟨t, ht⟩ := h2
    cases t with
    | nil => rw [List.append_nil] at ht; rw [ht] at h3; exact absurd h3 (Nat.lt_irrefl _)
    | cons x t =>
      have := hr.2 b hb
      rw [← ht, hlt] at this
      cases this
  | some e' =>
    obtain ⟨p, h1, h2, h3⟩ := find_longest_partial ops id e' hf
    have hle := h3 id hp (.inl rfl)
    have : p = id := by
      rcases h2 with h2 | ⟨rest, h2⟩
      · exact h2.symm
      · rw [h2] at hle; simp at hle; omega
    rw [this] at h1
    exact h1.symm

/-- Three services. -/
def services : List Op := [.add (b! "/b") 1, .add (b! "/b/a") 2, .add (b! "/b/b") 3]

example : find (run services).map (b! "/b/b/x") = some { obj := 3 } := by decide +kernel
example : find (run services).map (b! "/c") = none := by decide +kernel
example : table services (b! "/b/a") = some { obj := 2 } := by decide +kernel

/-- C30 fails as stated: "/b" covers "/b/c", but the lookup stops between "/b/b" and "/b/a". -/
theorem find_misses :
    find (run services).map (b! "/b/c") = none ∧ Longest (table services) (b! "/b/c") { obj := 1 } := by
  refine ⟨by decide +kernel, ?_⟩
  rw [← (run_table services).2]
  exact (Server.walkBack_longest (run_table services).1 _ _).1 (by decide +kernel)

/-! ### C39 -/

/-- C39: every object handed over is registered or was destroyed, as often as it was handed over. -/
theorem owned (ops : List Op) (obj : Nat) :
    destroyed (run ops) obj + registered (run ops) obj = taken obj (fun _ => none) ops := run_count ops obj

/-- C39: the destructor destroys exactly the objects that are still registered. -/
theorem all_destroyed (ops : List Op) (obj : Nat) :
    registered (close (run ops)) obj = 0 ∧ destroyed (close (run ops)) obj = taken obj (fun _ => none) ops := by
  have h0 : registered (close (run ops)) obj = 0 := by simp [close, step, registered]
  refine ⟨h0, ?_⟩
  have := step_count (run_table ops).1 .clear obj
  have h1 := run_count ops obj
  simp only [takes, Bool.toNat_false, Nat.add_zero] at this
  have h2 : close (run ops) = (step (run ops) .clear).2 := rfl
  rw [h2] at h0 ⊢
  omega

/-- C39: an object handed over once is either registered under one identifier and alive, or destroyed once and not
    registered. -/
theorem owned_once (ops : List Op) (obj : Nat) (h : taken obj (fun _ => none) ops = 1) :
    (registered (run ops) obj = 1 ∧ destroyed (run ops) obj = 0) ∨
      (registered (run ops) obj = 0 ∧ destroyed (run ops) obj = 1) := by
  have := run_count ops obj
  omega

/-- C39: a registered object is the one `get` answers, and one that was handed over once and is registered has not
    been destroyed. -/
theorem get_alive (ops : List Op) (id : Bytes) (obj : Nat) (h : taken obj (fun _ => none) ops = 1)
    (hg : get (run ops) id = some obj) : destroyed (run ops) obj = 0 := by
  have hc := run_count ops obj
  have : 0 < registered (run ops) obj := by
    unfold Plugins.get at hg
    obtain ⟨e, he, rfl⟩ := Option.map_eq_some_iff.1 hg
    unfold registered
    rw [List.countP_pos_iff]
    exact ⟨_, (lookup_eq_some (run_table ops).1).1 he, by simp⟩
  omega

/-- C39: what the calls answer. -/
theorem answers (ops : List Op) (id lib : Bytes) (opens : Bool) (obj : Nat) :
    (step (run ops) (.add id obj)).1 = .ok ∧
    (step (run ops) (.load id lib opens obj)).1 =
      (if (table ops id).isSome then .duplicate else if opens then .ok else .noLibrary) ∧
    (step (run ops) (.remove id)).1 = (if (table ops id).isSome then .ok else .notFound) ∧
    (step (run ops) (.replace id obj)).1 = (if (table ops id).isSome then .ok else .notFound) ∧
    (step (run ops) .clear).1 = .ok := by
  have ht : (run ops).map.lookup id = table ops id := by rw [← (run_table ops).2]
  refine ⟨rfl, ?_, ?_, ?_, rfl⟩ <;> simp only [step, ht] <;> cases table ops id <;> simp
  split <;> rfl

/-- C39: `remove` and `replace` destroy the object at once, exactly once. -/
theorem remove_destroys (ops : List Op) (id : Bytes) (obj obj' : Nat) (h : taken obj (fun _ => none) ops = 1)
    (hg : get (run ops) id = some obj) :
    destroyed (run (ops ++ [.remove id])) obj = 1 ∧ get (run (ops ++ [.remove id])) id = none ∧
    destroyed (run (ops ++ [.replace id obj'])) obj = 1 ∧ get (run (ops ++ [.replace id obj'])) id = some obj' := by
  have h0 := get_alive ops id obj h hg
  have ht : (run ops).map.lookup id = table ops id := by rw [← (run_table ops).2]
  have hrun : ∀ op, run (ops ++ [op]) = (step (run ops) op).2 := by intro op; simp [run]
  have htab : ∀ op, table (ops ++ [op]) = Spec.Plugins.step (table ops) op := by intro op; simp [table]
  have hg2 := hg
  rw [get_registered] at hg2
  obtain ⟨e, he, hob⟩ := Option.map_eq_some_iff.1 hg2
  rw [he] at ht
  have hd : destroyed (step (run ops) (.remove id)).2 obj = 1 := by
    simp only [step, ht, destroyed, List.countP_append] at h0 ⊢
    simp [h0, Entry.destroy, hob]
  have hd2 : destroyed (step (run ops) (.replace id obj')).2 obj = 1 := by
    simp only [step, ht, destroyed, List.countP_append] at h0 ⊢
    simp [h0, Entry.destroy, hob]
  refine ⟨by rw [hrun]; exact hd, ?_, by rw [hrun]; exact hd2, ?_⟩
  · rw [get_registered, htab]; simp [Spec.Plugins.step]
  · rw [get_registered, htab]; simp [Spec.Plugins.step, he]

/-- Two objects handed over by `load` and `add`, one replaced. -/
def uses : List Op := [.load (b! "/a") (b! "Echo") true 1, .add (b! "/b") 2, .replace (b! "/a") 3, .remove (b! "/b")]

example : taken 1 (fun _ => none) uses = 1 ∧ taken 2 (fun _ => none) uses = 1 ∧ taken 3 (fun _ => none) uses = 1 := by
  decide +kernel
example : get (run (uses.take 2)) (b! "/a") = some 1 := by decide +kernel
example : (run uses).destroyed = [(1, .library (b! "Echo")), (2, .delete)] := by decide +kernel
example : (close (run uses)).destroyed = [(1, .library (b! "Echo")), (2, .delete), (3, .library (b! "Echo"))] := by
  decide +kernel

/-- The objects that are registered, in the order of their identifiers. -/
private theorem in_order (ops : List Op) : Objects (table ops) ((run ops).map.map fun e => (e.1, e.2.obj)) := by
  obtain ⟨hs, ht⟩ := run_table ops
  refine ⟨List.pairwise_map.2 hs, ?_⟩
  intro id obj
  rw [← ht]
  simp only [List.mem_map, Prod.mk.injEq, Option.map_eq_some_iff]
  constructor
  · rintro ⟨e, he, rfl, rfl⟩
    exact ⟨e.2, (lookup_eq_some hs).2 he, rfl⟩
  · rintro ⟨e, he, rfl⟩
    exact ⟨(id, e), (lookup_eq_some hs).1 he, rfl, rfl⟩

private theorem runLoop_eq (throws : Nat → Bool) (l : List (Bytes × Entry)) :
    (∀ e ∈ l, throws e.2.obj = false) → runLoop throws l = (l.map (·.2.obj), false) := by
  induction l with
  | nil => intro _; rfl
  | cons e l ih =>
    intro h
    simp only [runLoop, h e (by simp), Bool.false_eq_true, if_false, ih fun x hx => h x (by simp [hx]), List.map_cons]

private theorem runLoop_throws (throws : Nat → Bool) (a : List (Bytes × Entry)) (e : Bytes × Entry)
    (b : List (Bytes × Entry)) (ha : ∀ x ∈ a, throws x.2.obj = false) (he : throws e.2.obj = true) :
    runLoop throws (a ++ e :: b) = (a.map (·.2.obj) ++ [e.2.obj], true) := by
  induction a with
  | nil => simp [runLoop, he]
  | cons x a ih =>
    simp only [List.cons_append, runLoop, ha x (by simp), Bool.false_eq_true, if_false,
      ih fun y hy => ha y (by simp [hy]), List.map_cons]

/-- C39: a function run over the plug-ins is called once for each identifier, with the object registered under it, in the
    order of the identifiers, up to the first call that throws. -/
theorem run_each (ops : List Op) (throws : Nat → Bool) :
    ∃ l, Objects (table ops) l ∧
      ((∀ e ∈ l, throws e.2 = false) → runAll (run ops) throws = (l.map (·.2), false)) ∧
      ∀ a e b, l = a ++ e :: b → (∀ x ∈ a, throws x.2 = false) → throws e.2 = true →
        runAll (run ops) throws = (a.map (·.2) ++ [e.2], true) := by
  refine ⟨_, in_order ops, ?_, ?_⟩
  · intro h
    rw [runAll, runLoop_eq]
    · simp
    · intro e he
      exact h (e.1, e.2.obj) (List.mem_map.2 ⟨e, he, rfl⟩)
  · intro a e b hl ha he
    obtain ⟨a', r, hm, h1, h2⟩ := List.map_eq_append_iff.1 hl
    obtain ⟨e', b', rfl, rfl, h4⟩ := List.map_eq_cons_iff.1 h2
    subst h1
    rw [runAll, hm, runLoop_throws throws a' e' b']
    · simp
    · intro x hx
      exact ha (x.1, x.2.obj) (List.mem_map.2 ⟨x, hx, rfl⟩)
    · exact he

/-- C39: a function run for one identifier is called with the object registered under it, if there is one. -/
theorem run_one (ops : List Op) (id : Bytes) : runOne (run ops) id = (table ops id).map (·.obj) := get_registered ops id

/-- C39: a statistic is the sum, modulo 2^64, of the values of the registered objects, one for each identifier. -/
theorem statistic_sum (ops : List Op) (stat : Nat → Nat) :
    ∃ l, Objects (table ops) l ∧ statistic (run ops) stat = (l.map fun e => stat e.2).sum % 2 ^ 64 := by
  refine ⟨_, in_order ops, ?_⟩
  have key : ∀ (m : List (Bytes × Entry)) (v : Nat), v < 2 ^ 64 →
      m.foldl (fun value e => (value + stat e.2.obj) % 2 ^ 64) v = (v + (m.map fun e => stat e.2.obj).sum) % 2 ^ 64 := by
    intro m
    induction m with
    | nil => intro v hv; simp [Nat.mod_eq_of_lt hv]
    | cons e m ih =>
      intro v _
      rw [List.foldl_cons, ih _ (Nat.mod_lt _ (by decide)), List.map_cons, List.sum_cons]
      omega
  rw [statistic, key _ 0 (by decide), List.map_map]
  simp [Function.comp_def]

example : runAll (run [.add (b! "b") 2, .add (b! "a") 1, .add (b! "c") 3, .remove (b! "b")]) (· == 3) = ([1, 3], true) ∧
    statistic (run [.add (b! "b") 2, .add (b! "a") 1, .add (b! "c") (2 ^ 64 - 1), .remove (b! "b")]) id = 0 := by
  decide +kernel

/-- C39 fails as stated: `add` with an identifier that is in use returns normally and drops the object. It is never
    destroyed. -/
theorem duplicate_add_leaks :
    let ops := [.add (b! "/a") 1, .add (b! "/a") 2]
    (step (run [.add (b! "/a") 1]) (.add (b! "/a") 2)).1 = .ok ∧ destroyed (close (run ops)) 2 = 0 := by decide +kernel

/-- C39 fails as stated: replacing an object by itself destroys it while it stays registered, and again later. -/
theorem replace_self_destroys :
    let ops := [.add (b! "/a") 1, .replace (b! "/a") 1]
    get (run ops) (b! "/a") = some 1 ∧ destroyed (run ops) 1 = 1 ∧ destroyed (close (run ops)) 1 = 2 := by
  decide +kernel

/-- After `replace` on a loaded entry the new object is destroyed by the library's destroy function, even if it was
    not made by that library. -/
theorem replaced_by_wrong_destructor :
    let ops := [.load (b! "/a") (b! "Echo") true 1, .replace (b! "/a") 2]
    (close (run ops)).destroyed = [(1, .library (b! "Echo")), (2, .library (b! "Echo"))] := by decide +kernel

end Verif.Props.PluginManager
