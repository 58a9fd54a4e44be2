import Verif.Model.Server
import Verif.Spec.Paths
import Mathlib.Tactic.Common
namespace Verif

theorem bytesLt_irrefl (s : Bytes) : bytesLt s s = false := by
  induction s with
  | nil => rfl
  | cons a s ih => simp [bytesLt, ih]

theorem bytesLt_trans : ∀ {a b c : Bytes}, bytesLt a b = true → bytesLt b c = true → bytesLt a c = true
  | [], [], _ => by simp [bytesLt]
  | [], _ :: _, [] => by simp [bytesLt]
  | [], _ :: _, _ :: _ => by simp [bytesLt]
  | _ :: _, [], _ => by simp [bytesLt]
  | _ :: _, _ :: _, [] => by simp [bytesLt]
  | x :: a, y :: b, z :: c => by
    simp only [bytesLt, Bool.or_eq_true, decide_eq_true_eq, Bool.and_eq_true, beq_iff_eq]
    rintro (h1 | ⟨rfl, h1⟩) (h2 | ⟨rfl, h2⟩)
    · exact .inl (UInt8.lt_trans h1 h2)
    · exact .inl h1
    · exact .inl h2
    · exact .inr ⟨rfl, bytesLt_trans h1 h2⟩

theorem bytesLt_tri : ∀ (a b : Bytes), bytesLt a b = true ∨ a = b ∨ bytesLt b a = true
  | [], [] => by simp
  | [], _ :: _ => by simp [bytesLt]
  | _ :: _, [] => by simp [bytesLt]
  | x :: a, y :: b => by
    simp only [bytesLt, Bool.or_eq_true, decide_eq_true_eq, Bool.and_eq_true, beq_iff_eq, List.cons.injEq]
    have htri : x < y ∨ x = y ∨ y < x := by
      rw [UInt8.lt_iff_toNat_lt, UInt8.lt_iff_toNat_lt, ← UInt8.toNat_inj]; omega
    rcases htri with h | h | h
    · exact .inl (.inl h)
    · subst h
      rcases bytesLt_tri a b with h | h | h
      · exact .inl (.inr ⟨rfl, h⟩)
      · exact .inr (.inl ⟨rfl, h⟩)
      · exact .inr (.inr (.inr ⟨rfl, h⟩))
    · exact .inr (.inr (.inl h))

theorem bytesLt_asymm {a b : Bytes} (h : bytesLt a b = true) : bytesLt b a = false := by
  cases h' : bytesLt b a with
  | false => rfl
  | true => have := bytesLt_trans h h'; rw [bytesLt_irrefl] at this; cases this

theorem bytesLt_ne {a b : Bytes} (h : bytesLt a b = true) : a ≠ b := by
  rintro rfl; rw [bytesLt_irrefl] at h; cases h

/-- A proper prefix comes first. -/
theorem bytesLt_append (a : Bytes) (x : UInt8) (b : Bytes) : bytesLt a (a ++ x :: b) = true := by
  induction a with
  | nil => rfl
  | cons y a ih => simp [bytesLt, ih]

theorem prefix_bytesLt {a b r : Bytes} (ha : a <+: r) (hb : b <+: r) (h : a.length < b.length) :
    bytesLt a b = true := by
  obtain ⟨c, rfl⟩ := List.prefix_of_prefix_length_le ha hb (Nat.le_of_lt h)
  cases c with
  | nil => simp at h
  | cons x c => exact bytesLt_append a x c

theorem prefix_not_bytesLt {a r : Bytes} (ha : a <+: r) : bytesLt r a = false := by
  obtain ⟨c, rfl⟩ := ha
  cases c with
  | nil => simpa using bytesLt_irrefl a
  | cons x c => exact bytesLt_asymm (bytesLt_append a x c)

namespace SMap
variable {V : Type}

/-- The invariant of `std::map`: keys strictly ascending. -/
def Sorted (m : SMap V) : Prop := m.Pairwise fun a b => bytesLt a.1 b.1 = true

theorem sorted_nil : Sorted ([] : SMap V) := List.Pairwise.nil

theorem mem_insert_key {k : Bytes} {v : V} {m : SMap V} {e : Bytes × V} (h : e ∈ insert k v m) :
    e.1 = k ∨ e ∈ m := by
  induction m with
  | nil => simp [insert] at h; left; simp [h]
  | cons a r ih =>
    obtain ⟨k', v'⟩ := a
    rw [insert] at h
    split at h
    · rcases List.mem_cons.1 h with rfl | h
      · exact .inl rfl
      · exact .inr h
    · split at h
      · exact .inr h
      · rcases List.mem_cons.1 h with rfl | h
        · exact .inr (List.mem_cons_self ..)
        · rcases ih h with h | h
          · exact .inl h
          · exact .inr (List.mem_cons_of_mem _ h)

theorem sorted_insert {m : SMap V} (hm : Sorted m) (k : Bytes) (v : V) : Sorted (insert k v m) := by
  induction m with
  | nil => simp [insert, Sorted]
  | cons a r ih =>
    obtain ⟨k', v'⟩ := a
    have hr := List.pairwise_cons.1 hm
    rw [insert]
    split
    next h =>
      refine List.pairwise_cons.2 ⟨?_, hm⟩
      intro e he
      rcases List.mem_cons.1 he with rfl | he
      · exact h
      · exact bytesLt_trans h (hr.1 e he)
    next h =>
      split
      · exact hm
      next hne =>
        refine List.pairwise_cons.2 ⟨?_, ih hr.2⟩
        intro e he
        rcases mem_insert_key he with h' | h'
        · rw [h']
          rcases bytesLt_tri k' k with h3 | h3 | h3
          · exact h3
          · exact absurd h3 hne
          · exact absurd h3 h
        · exact hr.1 e h'

theorem sorted_erase {m : SMap V} (hm : Sorted m) (k : Bytes) : Sorted (erase k m) :=
  hm.sublist List.filter_sublist

theorem sorted_assign {m : SMap V} (hm : Sorted m) (k : Bytes) (v : V) : Sorted (assign k v m) := by
  unfold Sorted assign
  rw [List.pairwise_map]
  refine hm.imp ?_
  intro a b h
  split <;> split <;> exact h

theorem lookup_eq_some {m : SMap V} (hm : Sorted m) {k : Bytes} {v : V} : lookup k m = some v ↔ (k, v) ∈ m := by
  induction m with
  | nil => simp [lookup]
  | cons a r ih =>
    obtain ⟨k', v'⟩ := a
    have hr := List.pairwise_cons.1 hm
    rw [lookup]
    split
    next h =>
      subst h
      simp only [Option.some.injEq, List.mem_cons, Prod.mk.injEq, true_and]
      constructor
      · intro h; exact .inl h.symm
      · rintro (h | h)
        · exact h.symm
        · exact absurd rfl (bytesLt_ne (hr.1 (k', v) h))
    next h =>
      rw [ih hr.2]
      simp only [List.mem_cons, Prod.mk.injEq]
      constructor
      · exact .inr
      · rintro (⟨rfl, _⟩ | h')
        · exact absurd rfl h
        · exact h'

theorem lookup_eq_none {m : SMap V} {k : Bytes} : lookup k m = none ↔ ∀ e ∈ m, e.1 ≠ k := by
  induction m with
  | nil => simp [lookup]
  | cons a r ih =>
    obtain ⟨k', v'⟩ := a
    rw [lookup]
    split
    next h => simp [h]
    next h => rw [ih]; simp [h]

theorem lookup_insert {m : SMap V} (hm : Sorted m) (k x : Bytes) (v : V) :
    lookup x (insert k v m) = if x = k then (lookup k m).or (some v) else lookup x m := by
  induction m with
  | nil =>
    simp only [insert, lookup, Option.none_or]
    by_cases h : x = k
    · simp [h]
    · simp [h, Ne.symm h]
  | cons a r ih =>
    obtain ⟨k', v'⟩ := a
    have hr := List.pairwise_cons.1 hm
    rw [insert]
    split
    next h =>
      have hnone : lookup k ((k', v') :: r) = none := by
        rw [lookup_eq_none]
        intro e he
        rcases List.mem_cons.1 he with rfl | he
        · exact (bytesLt_ne h).symm
        · exact (bytesLt_ne (bytesLt_trans h (hr.1 e he))).symm
      rw [hnone, lookup]
      by_cases hx : x = k
      · simp [hx]
      · simp [hx, Ne.symm hx]
    next h =>
      split
      next he =>
        subst he
        by_cases hx : x = k'
        · subst hx; simp [lookup]
        · simp [hx]
      next hne =>
        rw [lookup, ih hr.2]
        by_cases hx : x = k
        · subst hx; simp [hne, lookup]
        · simp [hx, lookup]

theorem lookup_erase {m : SMap V} (k x : Bytes) :
    lookup x (erase k m) = if x = k then none else lookup x m := by
  induction m with
  | nil => simp [erase, lookup]
  | cons a r ih =>
    obtain ⟨k', v'⟩ := a
    unfold erase at ih ⊢
    rw [List.filter_cons]
    by_cases h : k' = k
    · subst h
      simp only [beq_self_eq_true, Bool.not_true, Bool.false_eq_true, if_false, ih, lookup]
      by_cases hx : x = k'
      · simp [hx]
      · simp [hx, Ne.symm hx]
    · simp only [h, not_false_eq_true, Bool.not_eq_true', beq_eq_false_iff_ne, ne_eq, if_true, lookup, ih]
      by_cases hx : x = k
      · subst hx; simp [h]
      · simp [hx]

theorem lookup_assign {m : SMap V} (k x : Bytes) (v : V) :
    lookup x (assign k v m) = if x = k then (lookup k m).map (fun _ => v) else lookup x m := by
  induction m with
  | nil => simp [assign, lookup]
  | cons a r ih =>
    obtain ⟨k', v'⟩ := a
    unfold assign at ih ⊢
    rw [List.map_cons]
    by_cases h : k' = k
    · subst h
      simp only [if_true, lookup, ih]
      by_cases hx : x = k'
      · simp [hx]
      · simp [hx, Ne.symm hx]
    · simp only [h, if_false, lookup, ih]
      by_cases hx : x = k
      · subst hx; simp [h]
      · simp [hx]

/-- In a sorted map the entries before `upper_bound` are all those not above the key. -/
theorem upTo_eq_filter {m : SMap V} (hm : Sorted m) (k : Bytes) :
    m.upTo k = m.filter fun e => !bytesLt k e.1 := by
  unfold upTo
  induction m with
  | nil => rfl
  | cons a r ih =>
    have hr := List.pairwise_cons.1 hm
    rw [List.takeWhile_cons, List.filter_cons]
    split
    · rw [ih hr.2]
    next h =>
      symm
      rw [List.filter_eq_nil_iff]
      intro e he
      simp only [Bool.not_eq_true', Bool.not_eq_false] at h ⊢
      exact bytesLt_trans h (hr.1 e he)

end SMap

namespace Server
open SMap Spec.Paths
variable {V : Type}

theorem matchKey_iff (key r : Bytes) : matchKey key r = true ↔ Covers key r := by
  unfold matchKey Covers
  simp only [Bool.and_eq_true, Bool.or_eq_true, List.isEmpty_iff, beq_iff_eq]
  constructor
  · rintro ⟨h1, h2⟩
    have hp : r.take key.length = key := by
      rcases h1 with rfl | h1
      · simp
      · exact h1
    have hr := (List.take_append_drop key.length r).symm
    rw [hp] at hr
    rcases h2 with h2 | h2
    · left
      rw [List.drop_eq_nil_of_le (by omega)] at hr
      simpa using hr
    · right
      rw [hr, List.getElem?_append_right (Nat.le_refl _), Nat.sub_self] at h2
      cases hd : r.drop key.length with
      | nil => rw [hd] at h2; simp at h2
      | cons x rest => rw [hd] at h2 hr; simp at h2; subst h2; exact ⟨rest, hr⟩
  · rintro (rfl | ⟨rest, rfl⟩)
    · exact ⟨.inr (by simp), .inl rfl⟩
    · exact ⟨.inr (by simp), .inr (by simp)⟩

theorem Covers.prefix {k r : Bytes} (h : Covers k r) : k <+: r := by
  rcases h with rfl | ⟨rest, rfl⟩
  · exact List.prefix_rfl
  · exact List.prefix_append ..

theorem sorted_pairwise_reverse {m : SMap V} (hm : Sorted m) :
    m.reverse.Pairwise fun a b => bytesLt b.1 a.1 = true := List.pairwise_reverse.2 hm

/-- In a descending list, the first covering entry is the longest one. -/
theorem find_longest {l : List (Bytes × V)} {r : Bytes}
    (hl : l.Pairwise fun a b => bytesLt b.1 a.1 = true) {e : Bytes × V}
    (h : l.find? (fun e => matchKey e.1 r) = some e) :
    e ∈ l ∧ Covers e.1 r ∧ ∀ e' ∈ l, Covers e'.1 r → e'.1.length ≤ e.1.length := by
  induction l with
  | nil => simp at h
  | cons a l ih =>
    have hr := List.pairwise_cons.1 hl
    rw [List.find?_cons] at h
    split at h
    next hm =>
      cases h
      refine ⟨List.mem_cons_self .., (matchKey_iff _ _).1 hm, ?_⟩
      intro e' he' hc
      rcases List.mem_cons.1 he' with rfl | he'
      · exact Nat.le_refl _
      · by_contra hlt
        have := prefix_bytesLt (Covers.prefix ((matchKey_iff _ _).1 hm)) (Covers.prefix hc) (by omega)
        rw [bytesLt_asymm (hr.1 e' he')] at this
        cases this
    next hm =>
      obtain ⟨h1, h2, h3⟩ := ih hr.2 h
      refine ⟨List.mem_cons_of_mem _ h1, h2, ?_⟩
      intro e' he' hc
      rcases List.mem_cons.1 he' with rfl | he'
      · rw [(matchKey_iff _ _).2 hc] at hm; cases hm
      · exact h3 e' he' hc

theorem mem_upTo_of_covers {m : SMap V} (hm : Sorted m) {r : Bytes} {e : Bytes × V} (he : e ∈ m)
    (hc : Covers e.1 r) : e ∈ m.upTo r := by
  rw [upTo_eq_filter hm, List.mem_filter]
  exact ⟨he, by rw [prefix_not_bytesLt (Covers.prefix hc)]; rfl⟩

theorem upTo_subset (m : SMap V) (r : Bytes) {e : Bytes × V} (h : e ∈ m.upTo r) : e ∈ m :=
  List.takeWhile_subset _ h

theorem walkBack_some {m : SMap V} (hm : Sorted m) {r : Bytes} {e : Bytes × V} (h : walkBack m r = some e) :
    e ∈ m ∧ Covers e.1 r ∧ ∀ e' ∈ m, Covers e'.1 r → e'.1.length ≤ e.1.length := by
  have hs : (m.upTo r).reverse.Pairwise fun a b => bytesLt b.1 a.1 = true :=
    sorted_pairwise_reverse (hm.sublist (List.takeWhile_sublist _))
  obtain ⟨h1, h2, h3⟩ := find_longest hs h
  refine ⟨upTo_subset m r (List.mem_reverse.1 h1), h2, ?_⟩
  intro e' he' hc
  exact h3 e' (List.mem_reverse.2 (mem_upTo_of_covers hm he' hc)) hc

theorem walkBack_none {m : SMap V} (hm : Sorted m) {r : Bytes} :
    walkBack m r = none ↔ ∀ e ∈ m, ¬Covers e.1 r := by
  unfold walkBack
  rw [List.find?_eq_none]
  constructor
  · intro h e he hc
    exact h e (List.mem_reverse.2 (mem_upTo_of_covers hm he hc)) ((matchKey_iff _ _).2 hc)
  · intro h e he hc
    exact h e (upTo_subset m r (List.mem_reverse.1 he)) ((matchKey_iff _ _).1 hc)

theorem covers_unique {k k' r : Bytes} (h : Covers k r) (h' : Covers k' r) (hl : k.length = k'.length) : k = k' := by
  have h1 := Covers.prefix h
  have h2 := Covers.prefix h'
  exact (List.prefix_of_prefix_length_le h1 h2 (Nat.le_of_eq hl)).eq_of_length hl

theorem findHandler_eq (m : SMap V) (r : Bytes) : findHandler m r = (walkBack m r).map (·.2) := by
  unfold findHandler
  cases m with
  | nil => simp [walkBack, upTo]
  | cons a m => simp

theorem walkBack_longest {m : SMap V} (hm : Sorted m) (r : Bytes) (h : V) :
    (walkBack m r).map (·.2) = some h ↔ Longest (fun k => m.lookup k) r h := by
  constructor
  · intro hw
    obtain ⟨e, he, rfl⟩ := Option.map_eq_some_iff.1 hw
    obtain ⟨h1, h2, h3⟩ := walkBack_some hm he
    refine ⟨e.1, (lookup_eq_some hm).2 h1, h2, ?_⟩
    intro p hp hc
    obtain ⟨v, hv⟩ := Option.ne_none_iff_exists'.1 hp
    exact h3 (p, v) ((lookup_eq_some hm).1 hv) hc
  · rintro ⟨p, hp, hc, hmax⟩
    have hmem := (lookup_eq_some hm).1 hp
    cases hw : walkBack m r with
    | none => exact absurd hc ((walkBack_none hm).1 hw _ hmem)
    | some e =>
      obtain ⟨h1, h2, h3⟩ := walkBack_some hm hw
      have hle := hmax e.1 (by simp [(lookup_eq_some hm).2 h1]) h2
      have hge := h3 _ hmem hc
      have := covers_unique h2 hc (Nat.le_antisymm hle hge)
      have he : m.lookup p = some e.2 := by rw [← this]; exact (lookup_eq_some hm).2 h1
      simpa [he] using hp

theorem walkBack_uncovered {m : SMap V} (hm : Sorted m) (r : Bytes) :
    walkBack m r = none ↔ Uncovered (fun k => m.lookup k) r := by
  rw [walkBack_none hm]
  constructor
  · intro h p hp hc
    obtain ⟨v, hv⟩ := Option.ne_none_iff_exists'.1 hp
    exact h (p, v) ((lookup_eq_some hm).1 hv) hc
  · intro h e he hc
    exact h e.1 (by simp [(lookup_eq_some hm).2 he]) hc

theorem build_sorted {H : Type} (ops : List (Op H)) :
    Sorted (build ops).resources ∧ Sorted (build ops).redirects := by
  unfold build
  suffices ∀ (t : Tables H), Sorted t.resources ∧ Sorted t.redirects →
      Sorted (ops.foldl step t).resources ∧ Sorted (ops.foldl step t).redirects from
    this {} ⟨sorted_nil, sorted_nil⟩
  induction ops with
  | nil => exact fun t h => h
  | cons op ops ih =>
    intro t h
    apply ih
    cases op with
    | addResource r h' => exact ⟨sorted_insert h.1 _ _, h.2⟩
    | removeResource r => exact ⟨sorted_erase h.1 _, h.2⟩
    | addRedirect r n => exact ⟨h.1, sorted_insert h.2 _ _⟩
    | clear => exact ⟨sorted_nil, h.2⟩

end Server
end Verif
