import Verif.Lemmas.SortedMap
import Verif.Spec.Plugins
import Mathlib.Tactic.Common
namespace Verif.SMap
variable {V : Type}

theorem erase_absent {m : SMap V} {k : Bytes} (h : ∀ e ∈ m, e.1 ≠ k) : m.erase k = m := by
  unfold erase
  rw [List.filter_eq_self]
  intro e he
  simp [h e he]

theorem perm_erase {m : SMap V} (hm : Sorted m) {k : Bytes} {v : V} (h : m.lookup k = some v) :
    m.Perm ((k, v) :: m.erase k) := by
  induction m with
  | nil => cases h
  | cons a m ih =>
    obtain ⟨k', v'⟩ := a
    have hp := List.pairwise_cons.1 hm
    unfold lookup at h
    split at h
    next hk =>
      cases h
      subst hk
      have : erase k' ((k', v) :: m) = m := by
        have h1 : erase k' ((k', v) :: m) = erase k' m := by simp [erase]
        rw [h1, erase_absent]
        intro e he heq
        have := hp.1 e he
        simp only [heq, bytesLt_irrefl] at this
        cases this
      rw [this]
    next hk =>
      have h1 : erase k ((k', v') :: m) = (k', v') :: erase k m := by simp [erase, hk]
      rw [h1]
      exact ((ih hp.2 h).cons _).trans (List.Perm.swap ..)

theorem perm_assign {m : SMap V} (hm : Sorted m) {k : Bytes} {v w : V} (h : m.lookup k = some v) :
    (m.assign k w).Perm ((k, w) :: m.erase k) := by
  have h1 := (perm_erase hm h).map fun e => if e.1 = k then (e.1, w) else e
  refine h1.trans ?_
  simp only [List.map_cons, if_true]
  refine List.Perm.cons _ (List.Perm.of_eq ?_)
  rw [List.map_congr_left (g := id), List.map_id]
  intro e he
  unfold erase at he
  have := (List.mem_filter.1 he).2
  simp only [Bool.not_eq_true', beq_eq_false_iff_ne] at this
  simp [this]

theorem perm_insert {m : SMap V} {k : Bytes} {v : V} (h : m.lookup k = none) :
    (m.insert k v).Perm ((k, v) :: m) := by
  induction m with
  | nil => exact List.Perm.refl _
  | cons a m ih =>
    obtain ⟨k', v'⟩ := a
    unfold lookup at h
    split at h
    · cases h
    next hk =>
      unfold insert
      split
      · exact List.Perm.refl _
      · try rw [if_neg hk]
        exact ((ih h).cons _).trans (List.Perm.swap ..)

theorem insert_present {m : SMap V} (hm : Sorted m) {k : Bytes} {v w : V} (h : m.lookup k = some w) : m.insert k v = m := by
  induction m with
  | nil => cases h
  | cons a m ih =>
    obtain ⟨k', v'⟩ := a
    have hp := List.pairwise_cons.1 hm
    unfold insert
    unfold lookup at h
    split at h
    next hk => subst hk; rw [if_neg (by simp [bytesLt_irrefl]), if_pos rfl]
    next hk =>
      have hm := (lookup_eq_some hp.2).1 h
      have := hp.1 _ hm
      simp only at this
      rw [if_neg (by rw [bytesLt_asymm this]; simp), if_neg hk, ih hp.2 h]

end Verif.SMap

namespace Verif.Plugins
open Verif.SMap Verif.Spec.Paths
open Verif.Server hiding step Op
open Verif.Spec.Plugins (table takes taken registered destroyed)
variable {V : Type}

/-! ### find -/

/-- A string between a prefix of `r` and `r` starts with that prefix. -/
theorem between_prefix : ∀ {p r k : Bytes}, p <+: r → bytesLt k p = false → bytesLt r k = false → p <+: k
  | [], _, _, _, _, _ => List.nil_prefix
  | x :: p, [], k, h, _, _ => by simp at h
  | x :: p, y :: r, [], _, h1, _ => by simp [bytesLt] at h1
  | x :: p, y :: r, z :: k, h, h1, h2 => by
    obtain ⟨rfl, hpr⟩ := List.cons_prefix_cons.1 h
    simp only [bytesLt, Bool.or_eq_false_iff, Bool.and_eq_false_iff, decide_eq_false_iff_not, beq_eq_false_iff_ne] at h1 h2
    have hz : z = x := UInt8.le_antisymm (UInt8.not_lt.1 h2.1) (UInt8.not_lt.1 h1.1)
    subst hz
    exact List.cons_prefix_cons.2 ⟨rfl, between_prefix hpr (h1.2.resolve_left (by simp)) (h2.2.resolve_left (by simp))⟩

theorem matchKey_eq (k r : Bytes) :
    matchKey k r = true ↔ r.take k.length = k ∧ (r.length = k.length ∨ r[k.length]? = some (c! "/")) := by
  unfold matchKey
  cases k with
  | nil => simp
  | cons x k => simp

/-- What `find` finds is what the full walk finds. -/
theorem findLoop_find {r : Bytes} {l : List (Bytes × V)} {v : V} (h : findLoop r l = some v) :
    (l.find? fun e => matchKey e.1 r).map (·.2) = some v := by
  induction l with
  | nil => simp [findLoop] at h
  | cons e l ih =>
    unfold findLoop at h
    rw [List.find?_cons]
    split at h
    next hp =>
      have : matchKey e.1 r = false := by
        rw [Bool.eq_false_iff]; intro hm; exact hp ((matchKey_eq _ _).1 hm).1
      rw [this]
      cases l with
      | nil => simp at h
      | cons j l =>
        simp only at h
        split at h
        · exact ih h
        · cases h
    next hp =>
      simp only [ne_eq, Decidable.not_not] at hp
      split at h
      next hc => cases h; rw [(matchKey_eq _ _).2 ⟨hp, hc⟩]; rfl
      next hc =>
        have : matchKey e.1 r = false := by
          rw [Bool.eq_false_iff]; intro hm; exact hc ((matchKey_eq _ _).1 hm).2
        rw [this]
        exact ih h

/-- If the walk stops early although `p` covers the resource, two entries that start with `p` lie in between. -/
theorem findLoop_miss {r p : Bytes} {l : List (Bytes × V)} (hs : l.Pairwise fun a b => bytesLt b.1 a.1 = true)
    (hr : ∀ e ∈ l, bytesLt r e.1 = false) {v : V} (hp : (p, v) ∈ l) (hc : Covers p r)
    (h : findLoop r l = none) :
    ∃ a ∈ l, ∃ b ∈ l, bytesLt a.1 b.1 = true ∧ p <+: a.1 ∧ p <+: b.1 ∧ p.length < b.1.length ∧
      b.1.length ≤ a.1.length ∧ ¬b.1 <+: r := by
  induction l with
  | nil => cases hp
  | cons e l ih =>
    have hs' := List.pairwise_cons.1 hs
    have ih' := fun hp h => ih hs'.2 (fun e he => hr e (List.mem_cons_of_mem _ he)) hp h
    have lift : (∃ a ∈ l, ∃ b ∈ l, bytesLt a.1 b.1 = true ∧ p <+: a.1 ∧ p <+: b.1 ∧ p.length < b.1.length ∧
      b.1.length ≤ a.1.length ∧ ¬b.1 <+: r) → _ := fun ⟨a, ha, b, hb, hrest⟩ =>
        (⟨a, List.mem_cons_of_mem _ ha, b, List.mem_cons_of_mem _ hb, hrest⟩ :
          ∃ a ∈ e :: l, ∃ b ∈ e :: l, bytesLt a.1 b.1 = true ∧ p <+: a.1 ∧ p <+: b.1 ∧ p.length < b.1.length ∧
            b.1.length ≤ a.1.length ∧ ¬b.1 <+: r)
    have hcov := (matchKey_eq p r).1 ((matchKey_iff _ _).2 hc)
    have hpr := Covers.prefix hc
    unfold findLoop at h
    split at h
    next hne =>
      have hpl : (p, v) ∈ l := by
        rcases List.mem_cons.1 hp with rfl | hp
        · exact absurd hcov.1 hne
        · exact hp
      cases l with
      | nil => cases hpl
      | cons j l =>
        simp only at h
        split at h
        · exact lift (ih' hpl h)
        next hlen =>
          have hpe := hs'.1 _ hpl
          simp only at hpe
          have hje := hs'.1 j (List.mem_cons_self ..)
          have hpre := between_prefix hpr (bytesLt_asymm hpe) (hr e (List.mem_cons_self ..))
          have hlt : p.length < e.1.length := by
            refine Nat.lt_of_le_of_ne hpre.length_le fun heq => ?_
            rw [hpre.eq_of_length heq, bytesLt_irrefl] at hpe
            cases hpe
          have hjp : bytesLt j.1 p = false := by
            rcases List.mem_cons.1 hpl with rfl | hpl
            · exact bytesLt_irrefl _
            · exact bytesLt_asymm ((List.pairwise_cons.1 hs'.2).1 _ hpl)
          have hprj := between_prefix hpr hjp (hr j (by simp))
          refine ⟨j, by simp, e, by simp, hje, hprj, hpre, hlt, by omega, ?_⟩
          intro hpfx
          exact hne (List.prefix_iff_eq_take.1 hpfx).symm
    next hpe =>
      split at h
      · cases h
      next hnc =>
        have hpl : (p, v) ∈ l := by
          rcases List.mem_cons.1 hp with rfl | hp
          · exact absurd hcov.2 hnc
          · exact hp
        exact lift (ih' hpl h)

theorem find_eq (m : SMap V) (r : Bytes) : find m r = findLoop r (m.upTo r).reverse := by
  unfold find
  cases m with
  | nil => simp [upTo, findLoop]
  | cons a m => simp

theorem upTo_reverse {m : SMap V} (hm : Sorted m) (r : Bytes) :
    (m.upTo r).reverse.Pairwise (fun a b => bytesLt b.1 a.1 = true) ∧ ∀ e ∈ (m.upTo r).reverse, bytesLt r e.1 = false := by
  refine ⟨sorted_pairwise_reverse (hm.sublist (List.takeWhile_sublist _)), ?_⟩
  intro e he
  rw [List.mem_reverse, upTo_eq_filter hm, List.mem_filter] at he
  simpa using he.2

/-! ### the table -/

theorem step_sorted {m : Mgr} (hm : Sorted m.map) (op : Op) : Sorted (step m op).2.map := by
  cases op with
  | add id obj => exact sorted_insert hm ..
  | load id lib opens obj =>
    simp only [step]
    split
    · exact hm
    · split
      · exact sorted_insert hm ..
      · exact hm
  | remove id =>
    simp only [step]
    split
    · exact hm
    · exact sorted_erase hm _
  | replace id obj =>
    simp only [step]
    split
    · exact hm
    · exact sorted_assign hm ..
  | clear => exact sorted_nil

theorem step_table {m : Mgr} (hm : Sorted m.map) (op : Op) :
    (fun k => (step m op).2.map.lookup k) = Spec.Plugins.step (fun k => m.map.lookup k) op := by
  funext k
  cases op with
  | add id obj =>
    simp only [step, Spec.Plugins.step, lookup_insert hm]
    by_cases hk : k = id
    · subst hk; cases m.map.lookup k <;> simp
    · simp [hk]
  | load id lib opens obj =>
    simp only [step, Spec.Plugins.step]
    cases hl : m.map.lookup id with
    | some e => simp
    | none =>
      cases opens with
      | false => simp
      | true =>
        simp only [if_true, lookup_insert hm, and_true]
        by_cases hk : k = id
        · subst hk; simp [hl]
        · simp [hk]
  | remove id =>
    simp only [step, Spec.Plugins.step]
    cases hl : m.map.lookup id with
    | none =>
      by_cases hk : k = id
      · subst hk; simp [hl]
      · simp [hk]
    | some e => simp only [lookup_erase]
  | replace id obj =>
    simp only [step, Spec.Plugins.step]
    cases hl : m.map.lookup id with
    | none =>
      by_cases hk : k = id
      · subst hk; simp [hl]
      · simp [hk]
    | some e =>
      simp only [lookup_assign]
      by_cases hk : k = id
      · subst hk; simp [hl]
      · simp [hk]
  | clear => rfl

theorem run_table (ops : List Op) :
    Sorted (run ops).map ∧ (fun k => (run ops).map.lookup k) = table ops := by
  have h : ∀ (ops : List Op) (m : Mgr) (t : Table Entry), Sorted m.map → (fun k => m.map.lookup k) = t →
      Sorted (ops.foldl (fun m op => (step m op).2) m).map ∧
        (fun k => (ops.foldl (fun m op => (step m op).2) m).map.lookup k) = ops.foldl Spec.Plugins.step t := by
    intro ops
    induction ops with
    | nil => intro m t hm ht; exact ⟨hm, ht⟩
    | cons op ops ih =>
      intro m t hm ht
      exact ih _ _ (step_sorted hm op) (by rw [step_table hm, ht])
  exact h ops {} _ sorted_nil rfl

/-! ### ownership -/

theorem ite_toNat (a b : Nat) : (if a = b then 1 else 0) = (a == b).toNat := by
  by_cases h : a = b
  · simp [h]
  · simp [beq_eq_false_iff_ne.2 h, h]

theorem step_count {m : Mgr} (hm : Sorted m.map) (op : Op) (obj : Nat) :
    destroyed (step m op).2 obj + registered (step m op).2 obj =
      destroyed m obj + registered m obj + (takes (fun k => m.map.lookup k) obj op).toNat := by
  unfold destroyed registered
  cases op with
  | add id o =>
    simp only [step, takes]
    cases hl : m.map.lookup id with
    | some e => rw [insert_present hm hl]; simp
    | none =>
      rw [(perm_insert hl).countP_eq, List.countP_cons]
      simp [Nat.add_assoc, ite_toNat]
  | load id lib opens o =>
    simp only [step, takes]
    cases hl : m.map.lookup id with
    | some e => simp
    | none =>
      cases opens with
      | false => simp
      | true =>
        simp only [if_true]
        rw [(perm_insert hl).countP_eq, List.countP_cons]
        simp [Nat.add_assoc, ite_toNat]
  | remove id =>
    simp only [step, takes]
    cases hl : m.map.lookup id with
    | none => simp
    | some e =>
      simp only
      rw [(perm_erase hm hl).countP_eq, List.countP_append, List.countP_cons, List.countP_cons, List.countP_nil]
      simp only [Entry.destroy]
      simp [ite_toNat]
      omega
  | replace id o =>
    simp only [step, takes]
    cases hl : m.map.lookup id with
    | none => simp
    | some e =>
      simp only
      rw [(perm_assign hm hl).countP_eq, (perm_erase hm hl).countP_eq, List.countP_append, List.countP_cons,
        List.countP_cons, List.countP_cons, List.countP_nil]
      simp only [Entry.destroy]
      simp [ite_toNat]
      omega
  | clear =>
    simp only [step, takes, List.countP_append, List.countP_map]
    have : List.countP ((fun x => x.1 == obj) ∘ fun x => Entry.destroy x.2) m.map = m.map.countP (·.2.obj == obj) := by
      congr 1
    rw [this]
    simp

theorem run_count (ops : List Op) (obj : Nat) :
    destroyed (run ops) obj + registered (run ops) obj = taken obj (fun _ => none) ops := by
  have h : ∀ (ops : List Op) (m : Mgr), Sorted m.map →
      destroyed (ops.foldl (fun m op => (step m op).2) m) obj + registered (ops.foldl (fun m op => (step m op).2) m) obj =
        destroyed m obj + registered m obj + taken obj (fun k => m.map.lookup k) ops := by
    intro ops
    induction ops with
    | nil => intro m _; simp [taken]
    | cons op ops ih =>
      intro m hm
      rw [List.foldl_cons, ih _ (step_sorted hm op), step_count hm, step_table hm]
      simp only [taken]
      omega
  have := h ops {} sorted_nil
  simpa [destroyed, registered, run, lookup] using this

end Verif.Plugins
