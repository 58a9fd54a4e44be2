import Verif.Spec.HashTable
import Verif.Props.Dict
import Mathlib.Tactic.Common
/-
Lemmas for C26: entries with equal keys stand together in a chain.
-/
namespace Verif.Lemmas.HashTable
open Verif Verif.HashTable Verif.Spec.HashTable Verif.Props.Dict

/-- Entries with equal keys are next to each other. -/
def Grouped : List Entry → Prop
  | [] => True
  | e :: r => Grouped r ∧ ((∃ x s, r = x :: s ∧ iequals x.1 e.1 = true) ∨ ∀ x ∈ r, iequals x.1 e.1 = false)

theorem iequals_comm {x y : Bytes} (h : iequals x y = true) : iequals y x = true := by rw [iequals_symm]; exact h

theorem iequals_congr_left {x y : Bytes} (h : iequals x y = true) (k : Bytes) : iequals x k = iequals y k := by
  rw [iequals_symm x k, iequals_symm y k]; exact iequals_congr h k

/-- After an entry with the key, the entries with the key come first. -/
theorem group_rest {k : Bytes} : ∀ {r : List Entry} {y : Entry}, Grouped (y :: r) → iequals y.1 k = true →
    r.takeWhile (fun e => iequals e.1 k) = r.filter (fun e => iequals e.1 k) ∧
    r.dropWhile (fun e => iequals e.1 k) = r.filter (fun e => !iequals e.1 k)
  | [], _, _, _ => ⟨rfl, rfl⟩
  | z :: s, y, hg, hy => by
    rcases hg.2 with ⟨x, s', he, hx⟩ | hn
    · cases he
      have hz : iequals z.1 k = true := iequals_trans hx hy
      obtain ⟨h1, h2⟩ := group_rest hg.1 hz
      constructor
      · rw [List.takeWhile_cons, if_pos hz, List.filter_cons, if_pos hz, h1]
      · rw [List.dropWhile_cons, if_pos hz, List.filter_cons, if_neg (by simp [hz]), h2]
    · have hk : ∀ x ∈ z :: s, iequals x.1 k = false := by
        intro x hx
        rw [← iequals_congr hy]; exact hn x hx
      constructor
      · rw [List.takeWhile_cons, if_neg (by simp [hk z (List.mem_cons_self ..)])]
        exact (List.filter_eq_nil_iff.2 fun x hx => by simp [hk x hx]).symm
      · rw [List.dropWhile_cons, if_neg (by simp [hk z (List.mem_cons_self ..)])]
        exact (List.filter_eq_self.2 fun x hx => by simp [hk x hx]).symm

theorem range_eq {k : Bytes} : ∀ {l : List Entry}, Grouped l →
    (l.dropWhile (fun e => !iequals e.1 k)).takeWhile (fun e => iequals e.1 k) = l.filter (fun e => iequals e.1 k)
  | [], _ => rfl
  | y :: r, hg => by
    cases hy : iequals y.1 k with
    | true =>
      rw [List.dropWhile_cons, if_neg (by simp [hy]), List.takeWhile_cons, if_pos hy, List.filter_cons, if_pos hy,
        (group_rest hg hy).1]
    | false => rw [List.dropWhile_cons, if_pos (by simp [hy]), List.filter_cons, if_neg (by simp [hy]), range_eq hg.1]

theorem erase_eq {k : Bytes} : ∀ {l : List Entry}, Grouped l →
    l.takeWhile (fun e => !iequals e.1 k) ++ (l.dropWhile (fun e => !iequals e.1 k)).dropWhile (fun e => iequals e.1 k) =
      l.filter (fun e => !iequals e.1 k)
  | [], _ => rfl
  | y :: r, hg => by
    cases hy : iequals y.1 k with
    | true =>
      rw [List.takeWhile_cons, if_neg (by simp [hy]), List.dropWhile_cons, if_neg (by simp [hy]), List.dropWhile_cons,
        if_pos hy, List.filter_cons, if_neg (by simp [hy]), (group_rest hg hy).2]; rfl
    | false =>
      rw [List.takeWhile_cons, if_pos (by simp [hy]), List.dropWhile_cons, if_pos (by simp [hy]), List.filter_cons,
        if_pos (by simp [hy]), List.cons_append, erase_eq hg.1]

/-- Entries whose keys make the predicate true, where equal keys give the same answer. -/
theorem grouped_filter {p : Entry → Bool} (hp : ∀ x y : Entry, iequals x.1 y.1 = true → p x = p y) :
    ∀ {l : List Entry}, Grouped l → Grouped (l.filter p)
  | [], _ => trivial
  | y :: r, hg => by
    rw [List.filter_cons]
    split
    · rename_i hy
      refine ⟨grouped_filter hp hg.1, ?_⟩
      rcases hg.2 with ⟨x, s, rfl, hx⟩ | hn
      · left
        refine ⟨x, s.filter p, ?_, hx⟩
        rw [List.filter_cons, if_pos (by rw [hp x y hx]; exact hy)]
      · right
        intro x hx
        exact hn x ((List.mem_filter.1 hx).1)
    · exact grouped_filter hp hg.1

theorem grouped_append : ∀ {l₁ l₂ : List Entry}, Grouped l₁ → Grouped l₂ →
    (∀ x ∈ l₁, ∀ y ∈ l₂, iequals y.1 x.1 = false) → Grouped (l₁ ++ l₂)
  | [], _, _, h2, _ => h2
  | e :: r, l₂, h1, h2, hx => by
    refine ⟨grouped_append h1.1 h2 (fun x hx' => hx x (List.mem_cons_of_mem _ hx')), ?_⟩
    rcases h1.2 with ⟨x, s, rfl, he⟩ | hn
    · exact .inl ⟨x, s ++ l₂, rfl, he⟩
    · right
      intro x hm
      rcases List.mem_append.1 hm with hm | hm
      · exact hn x hm
      · exact hx e (List.mem_cons_self ..) x hm

/- Insertion -/

theorem before_go {e : Entry} : ∀ {l : List Entry}, Grouped l → (l.any (fun x => iequals x.1 e.1)) = true →
    Grouped (before.go e l) ∧ (before.go e l).Perm (e :: l) ∧ (before.go e l).head?.map (fun x => iequals x.1 e.1) = l.head?.map (fun x => iequals x.1 e.1) ∧
    (∀ k, (before.go e l).filter (fun x => iequals x.1 k) =
      if iequals e.1 k then e :: l.filter (fun x => iequals x.1 k) else l.filter (fun x => iequals x.1 k)) ∧
    (∀ y : Entry, iequals y.1 e.1 = false → (before.go e l).head?.map (fun x => iequals x.1 y.1) = l.head?.map (fun x => iequals x.1 y.1))
  | [], _, ha => by simp at ha
  | x :: r, hg, ha => by
    cases hx : iequals x.1 e.1 with
    | true =>
      have hgo : before.go e (x :: r) = e :: x :: r := by rw [before.go, if_pos hx]
      rw [hgo]
      refine ⟨⟨hg, .inl ⟨x, r, rfl, hx⟩⟩, .refl _, ?_, ?_, ?_⟩
      · simp [hx, iequals_refl]
      · intro k
        rw [List.filter_cons]
      · intro y hy
        simp only [List.head?_cons, Option.map_some, Option.some.injEq]
        rw [iequals_congr_left hx]
    | false =>
      have hgo : before.go e (x :: r) = x :: before.go e r := by rw [before.go, if_neg (by simp [hx])]
      have ha' : r.any (fun x => iequals x.1 e.1) = true := by
        rw [List.any_cons, hx] at ha; exact ha
      obtain ⟨h1, h2, h3, h4, h5⟩ := before_go hg.1 ha'
      rw [hgo]
      refine ⟨⟨h1, ?_⟩, (h2.cons x).trans (List.Perm.swap ..), by simp, ?_, by intro y hy; simp⟩
      · rcases hg.2 with ⟨z, s, rfl, hz⟩ | hn
        · left
          have h6 := h5 x hx
          cases hb : before.go e (z :: s) with
          | nil => rw [hb] at h6; simp at h6
          | cons w t => rw [hb] at h6; simp only [List.head?_cons, Option.map_some, Option.some.injEq] at h6; exact ⟨w, t, rfl, by rw [h6]; exact hz⟩
        · right
          intro w hw
          rcases List.mem_cons.1 (h2.mem_iff.1 hw) with rfl | hw
          · rw [iequals_symm]; exact hx
          · exact hn w hw
      · intro k
        rw [List.filter_cons, List.filter_cons, h4 k]
        cases hk : iequals x.1 k with
        | false => simp
        | true =>
          have : iequals e.1 k = false := by
            cases he : iequals e.1 k with
            | false => rfl
            | true => exact absurd (iequals_trans hk (iequals_comm he)) (by simp [hx])
          simp [this]

theorem before_spec {e : Entry} {l : List Entry} (hg : Grouped l) :
    Grouped (before e l) ∧ (before e l).Perm (e :: l) ∧
    ∀ k, (before e l).filter (fun x => iequals x.1 k) =
      if iequals e.1 k then e :: l.filter (fun x => iequals x.1 k) else l.filter (fun x => iequals x.1 k) := by
  unfold before
  split
  · rename_i ha
    obtain ⟨h1, h2, -, h4, -⟩ := before_go hg ha
    exact ⟨h1, h2, h4⟩
  · rename_i ha
    refine ⟨⟨hg, .inr ?_⟩, .refl _, fun k => by rw [List.filter_cons]⟩
    intro x hx
    cases hxe : iequals x.1 e.1 with
    | false => rfl
    | true => exact absurd (List.any_eq_true.2 ⟨x, hx, hxe⟩) ha

theorem after_spec {e : Entry} : ∀ {l : List Entry}, Grouped l →
    Grouped (after e l) ∧ (after e l).Perm (e :: l) ∧
    (∀ k, (after e l).filter (fun x => iequals x.1 k) =
      l.filter (fun x => iequals x.1 k) ++ if iequals e.1 k then [e] else []) ∧
    (l ≠ [] → (after e l).head? = l.head?)
  | [], _ => ⟨⟨trivial, .inr (by simp)⟩, .refl _, fun k => by rw [after, List.filter_cons]; simp, fun h => absurd rfl h⟩
  | x :: r, hg => by
    by_cases hc : iequals x.1 e.1 ∧ r.any (fun y => iequals y.1 e.1) = false
    · have ha : after e (x :: r) = x :: e :: r := by rw [after, if_pos hc]
      have hr : ∀ y ∈ r, iequals y.1 e.1 = false := by
        intro y hy
        cases h : iequals y.1 e.1 with
        | false => rfl
        | true => have := List.any_eq_false.1 hc.2 y hy; exact absurd h this
      rw [ha]
      refine ⟨⟨⟨hg.1, .inr hr⟩, .inl ⟨e, r, rfl, iequals_comm hc.1⟩⟩, List.Perm.swap .., ?_, fun _ => rfl⟩
      intro k
      rw [List.filter_cons, List.filter_cons, List.filter_cons, iequals_congr_left hc.1]
      cases hk : iequals e.1 k with
      | false => simp
      | true =>
        have : r.filter (fun x => iequals x.1 k) = [] := by
          rw [List.filter_eq_nil_iff]
          intro y hy
          rw [← iequals_congr hk, hr y hy]; simp
        simp [this]
    · have ha : after e (x :: r) = x :: after e r := by rw [after, if_neg hc]
      obtain ⟨h1, h2, h3, h4⟩ := after_spec (e := e) hg.1
      rw [ha]
      refine ⟨⟨h1, ?_⟩, (h2.cons x).trans (List.Perm.swap ..), ?_, fun _ => rfl⟩
      · rcases hg.2 with ⟨z, s, rfl, hz⟩ | hn
        · left
          have h5 := h4 (by simp)
          cases hb : after e (z :: s) with
          | nil => rw [hb] at h5; cases h5
          | cons w t => rw [hb] at h5; cases h5; exact ⟨z, t, rfl, hz⟩
        · by_cases hxe : iequals x.1 e.1 = true
          · exfalso
            apply hc
            refine ⟨hxe, ?_⟩
            rw [List.any_eq_false]
            intro y hy
            rw [← iequals_congr hxe, hn y hy]; simp
          · right
            intro y hy
            rcases List.mem_cons.1 (h2.mem_iff.1 hy) with rfl | hy
            · rw [iequals_symm]; simpa using hxe
            · exact hn y hy
      · intro k
        rw [List.filter_cons, List.filter_cons, h3 k]
        split <;> simp

/-- Replacing the entries of a key by one. -/
theorem replace_spec {k v name : Bytes} (hn : iequals name k = true) : ∀ {l : List Entry}, Grouped l →
    l.filter (fun e => iequals e.1 k) ≠ [] →
    let l' := l.takeWhile (fun e => !iequals e.1 k) ++ (name, v) ::
      (l.dropWhile (fun e => !iequals e.1 k)).dropWhile (fun e => iequals e.1 k)
    Grouped l' ∧ (∀ k', l'.filter (fun e => iequals e.1 k') =
      if iequals k k' then [(name, v)] else l.filter (fun e => iequals e.1 k')) ∧
    l'.head?.map (fun e => e.1.map toUpper) = l.head?.map (fun e => e.1.map toUpper) ∧
    (∀ e ∈ l', iequals e.1 k = true ∨ e ∈ l)
  | [], _, h => absurd rfl h
  | y :: r, hg, h => by
    dsimp only
    cases hy : iequals y.1 k with
    | true =>
      rw [List.takeWhile_cons, if_neg (by simp [hy]), List.dropWhile_cons, if_neg (by simp [hy]), List.dropWhile_cons,
        if_pos hy, List.nil_append, (group_rest hg hy).2]
      have hkk : ∀ k', iequals name k' = iequals k k' := fun k' => iequals_congr_left hn k'
      refine ⟨⟨grouped_filter (p := fun e => !iequals e.1 k) (fun a b hab => by rw [iequals_congr_left hab]) hg.1, .inr ?_⟩, ?_, ?_, ?_⟩
      · intro x hx
        have := (List.mem_filter.1 hx).2
        rw [iequals_congr hn]
        simpa using this
      · intro k'
        rw [List.filter_cons, hkk]
        rw [List.filter_filter]
        cases hk : iequals k k' with
        | true =>
          rw [if_pos rfl, if_pos rfl]
          congr 1
          rw [List.filter_eq_nil_iff]
          intro x hx
          rw [iequals_congr hk]; simp
        | false =>
          have hyk' : iequals y.1 k' = false := by rw [iequals_congr_left hy]; exact hk
          rw [if_neg (by simp), if_neg (by simp), List.filter_cons, if_neg (by simp [hyk'])]
          apply List.filter_congr
          intro x hx
          cases h1 : iequals x.1 k' with
          | false => simp
          | true =>
            have : iequals x.1 k = false := by
              cases h2 : iequals x.1 k with
              | false => rfl
              | true => exact absurd (iequals_trans (iequals_comm h2) h1) (by simp [hk])
            simp [this]
      · have h1 : name.map toUpper = k.map toUpper := by simpa [iequals] using hn
        have h2 : y.1.map toUpper = k.map toUpper := by simpa [iequals] using hy
        simp [h1, h2]
      · intro e he
        rcases List.mem_cons.1 he with rfl | he
        · exact .inl hn
        · exact .inr (List.mem_cons_of_mem _ ((List.mem_filter.1 he).1))
    | false =>
      rw [List.takeWhile_cons, if_pos (by simp [hy]), List.dropWhile_cons, if_pos (by simp [hy]), List.cons_append]
      rw [List.filter_cons, if_neg (by simp [hy])] at h
      obtain ⟨h1, h2, h3, h4⟩ := replace_spec hn (v := v) hg.1 h
      refine ⟨⟨h1, ?_⟩, ?_, by simp, ?_⟩
      · rcases hg.2 with ⟨z, s, rfl, hz⟩ | hn'
        · left
          revert h3
          generalize (List.takeWhile (fun e => !iequals e.1 k) (z :: s) ++ (name, v) ::
            List.dropWhile (fun e => iequals e.1 k) (List.dropWhile (fun e => !iequals e.1 k) (z :: s)) : List Entry) = q
          intro h3
          cases q with
          | nil => simp at h3
          | cons w t =>
            refine ⟨w, t, rfl, ?_⟩
            simp only [List.head?_cons, Option.map_some, Option.some.injEq] at h3
            unfold iequals at hz ⊢
            rw [h3]; exact hz
        · right
          intro x hx
          rcases h4 x hx with hk | hx
          · rw [iequals_symm]
            cases hyx : iequals y.1 x.1 with
            | false => rfl
            | true => exact absurd (iequals_trans hyx hk) (by simp [hy])
          · exact hn' x hx
      · intro k'
        rw [List.filter_cons, h2 k', List.filter_cons]
        cases hk : iequals k k' with
        | false => simp
        | true =>
          have : iequals y.1 k' = false := by rw [← iequals_congr hk]; exact hy
          simp [this]
      · intro e he
        rcases List.mem_cons.1 he with rfl | he
        · exact .inr (List.mem_cons_self ..)
        · exact (h4 e he).imp id (List.mem_cons_of_mem _)

/- The table -/

theorem slot_congr (mix : HashCombine) (n : Nat) {k k' : Bytes} (h : iequals k k' = true) : slot mix n k = slot mix n k' := by
  unfold slot; rw [ihash_eq_of_iequals mix _ _ h]

/-- A table that holds the entries of a list. -/
structure Holds (mix : HashCombine) (front : Bool) (t : Table) (d : Dict) : Prop where
  pos : 0 < t.size
  placed : ∀ i, ∀ e ∈ t.chain i, slot mix t.size e.1 = i
  grouped : ∀ i, Grouped (t.chain i)
  same : ∀ k, (t.chain (slot mix t.size k)).filter (fun e => iequals e.1 k) = under front d k

theorem slot_lt (mix : HashCombine) {n : Nat} (h : 0 < n) (k : Bytes) : slot mix n k < n := Nat.mod_lt _ h

theorem flatMap_range {α : Type} (f : Nat → List α) {j n : Nat} (hj : j < n) (h : ∀ i, i ≠ j → f i = []) :
    (List.range n).flatMap f = f j := by
  induction n with
  | zero => omega
  | succ n ih =>
    rw [List.range_succ, List.flatMap_append]
    by_cases hn : j = n
    · subst hn
      have : (List.range j).flatMap f = [] := by
        rw [List.flatMap_eq_nil_iff]
        intro i hi
        exact h i (by have := List.mem_range.1 hi; omega)
      rw [this]; simp
    · rw [ih (by omega)]
      simp [h n (by omega)]

theorem entries_under {mix : HashCombine} {front : Bool} {t : Table} {d : Dict} (h : Holds mix front t d) (k : Bytes) :
    t.entries.filter (fun e => iequals e.1 k) = under front d k := by
  unfold Table.entries
  rw [List.filter_flatMap, flatMap_range _ (slot_lt mix h.pos k), h.same]
  intro i hi
  rw [List.filter_eq_nil_iff]
  intro e he hk
  exact hi ((h.placed i e he).symm.trans (slot_congr mix _ hk))

theorem entries_grouped {mix : HashCombine} {front : Bool} {t : Table} {d : Dict} (h : Holds mix front t d) :
    Grouped t.entries := by
  unfold Table.entries
  generalize t.size = n
  induction n with
  | zero => exact trivial
  | succ n ih =>
    rw [List.range_succ, List.flatMap_append, List.flatMap_singleton]
    refine grouped_append ih (h.grouped n) ?_
    intro x hx y hy
    obtain ⟨i, hi, hx⟩ := List.mem_flatMap.1 hx
    cases hxy : iequals y.1 x.1 with
    | false => rfl
    | true =>
      have h1 := h.placed i x hx
      have h2 := h.placed n y hy
      rw [slot_congr mix _ hxy, h1] at h2
      have := List.mem_range.1 hi
      omega

theorem under_insert (front : Bool) (d : Dict) (k v k' : Bytes) : under front (d.insert k v) k' =
    if iequals k k' then (if front then (k, v) :: under front d k' else under front d k' ++ [(k, v)]) else under front d k' := by
  unfold under Dict.insert
  rw [List.filter_append, List.filter_cons]
  cases iequals k k' <;> cases front <;> simp

theorem insert_holds {mix : HashCombine} {front : Bool} {t : Table} {d : Dict} (h : Holds mix front t d) (k v : Bytes) :
    Holds mix front (t.insert mix front k v) (d.insert k v) := by
  have key : ∀ l : List Entry, Grouped l →
      Grouped ((if front then before (k, v) else after (k, v)) l) ∧
      ((if front then before (k, v) else after (k, v)) l).Perm ((k, v) :: l) ∧
      ∀ k', ((if front then before (k, v) else after (k, v)) l).filter (fun x => iequals x.1 k') =
        if iequals k k' then (if front then (k, v) :: l.filter (fun x => iequals x.1 k') else l.filter (fun x => iequals x.1 k') ++ [(k, v)])
        else l.filter (fun x => iequals x.1 k') := by
    intro l hl
    cases front with
    | true =>
      obtain ⟨h1, h2, h3⟩ := before_spec (e := (k, v)) hl
      exact ⟨h1, h2, fun k' => by simpa using h3 k'⟩
    | false =>
      obtain ⟨h1, h2, h3, -⟩ := after_spec (e := (k, v)) hl
      refine ⟨h1, h2, fun k' => ?_⟩
      have := h3 k'
      cases hk : iequals k k' <;> rw [hk] at this <;> simpa using this
  unfold Table.insert
  refine ⟨h.pos, ?_, ?_, ?_⟩
  · intro i e he
    dsimp only at he ⊢
    split at he
    · rename_i hi
      rcases List.mem_cons.1 ((key _ (h.grouped i)).2.1.mem_iff.1 he) with rfl | he
      · exact hi.symm
      · exact h.placed i e he
    · exact h.placed i e he
  · intro i
    dsimp only
    split
    · exact (key _ (h.grouped i)).1
    · exact h.grouped i
  · intro k'
    dsimp only
    rw [under_insert]
    split
    · rw [(key _ (h.grouped _)).2.2 k', h.same]
    · rename_i hs
      have : iequals k k' = false := by
        cases hk : iequals k k' with
        | false => rfl
        | true => exact absurd (slot_congr mix t.size hk).symm hs
      rw [this, h.same]; simp

theorem rehash_holds {mix : HashCombine} {front : Bool} {t : Table} {d : Dict} (h : Holds mix front t d) (n : Nat) :
    Holds mix front (t.rehash mix (n + 1)) d := by
  unfold Table.rehash
  refine ⟨Nat.succ_pos n, ?_, ?_, ?_⟩
  · intro i e he
    dsimp only at he ⊢
    split at he
    · simpa using (List.mem_filter.1 he).2
    · cases he
  · intro i
    dsimp only
    split
    · exact grouped_filter (fun x y hxy => by simp only [slot_congr mix (n + 1) hxy]) (entries_grouped h)
    · exact trivial
  · intro k
    dsimp only
    rw [if_pos (slot_lt mix (Nat.succ_pos n) k), List.filter_filter, ← entries_under h k]
    apply List.filter_congr
    intro e _
    cases hk : iequals e.1 k with
    | false => simp
    | true => simp [slot_congr mix (n + 1) hk]

theorem erase_holds {mix : HashCombine} {front : Bool} {t : Table} {d : Dict} (h : Holds mix front t d) (k : Bytes) :
    Holds mix front (t.erase mix k) (d.delete k) := by
  have hc : ∀ i, (t.erase mix k).chain i = (t.chain i).filter (fun e => !iequals e.1 k) := by
    intro i
    unfold Table.erase
    dsimp only
    split
    · exact erase_eq (h.grouped i)
    · rename_i hi
      refine (List.filter_eq_self.2 ?_).symm
      intro e he
      cases hk : iequals e.1 k with
      | false => rfl
      | true => exact absurd ((h.placed i e he).symm.trans (slot_congr mix _ hk)) hi
  have hz : (t.erase mix k).size = t.size := rfl
  refine ⟨h.pos, ?_, ?_, ?_⟩
  · intro i e he
    rw [hc] at he
    exact h.placed i e ((List.mem_filter.1 he).1)
  · intro i
    rw [hc]
    exact grouped_filter (fun x y hxy => by rw [iequals_congr_left hxy]) (h.grouped i)
  · intro k'
    rw [hc, hz, List.filter_filter]
    have h1 : (t.chain (slot mix t.size k')).filter (fun a => iequals a.1 k' && !iequals a.1 k) =
        ((t.chain (slot mix t.size k')).filter (fun e => iequals e.1 k')).filter (fun e => !iequals e.1 k) := by
      rw [List.filter_filter]; congr 1; funext a; rw [Bool.and_comm]
    rw [h1, h.same]
    unfold under Dict.delete
    cases front
    · simp only [Bool.false_eq_true, if_false, List.filter_filter]
      congr 1; funext a; rw [Bool.and_comm]
    · simp only [if_true]
      rw [List.filter_reverse, List.filter_filter, List.filter_filter]
      congr 2; funext a; rw [Bool.and_comm]

theorem change_holds {mix : HashCombine} {front : Bool} {t : Table} {d : Dict} (h : Holds mix front t d) (k v : Bytes) :
    Holds mix front (t.change mix front k v) (d.change (if front then (d.values k).length - 1 else 0) k v) := by
  have hr : t.equalRange mix k = under front d k := (range_eq (h.grouped _)).trans (h.same k)
  unfold Table.change
  have hpick : (matching d k)[if front then (d.values k).length - 1 else 0]?.or (matching d k)[0]? = (under front d k).head? := by
    have hl : (d.values k).length = (matching d k).length := by unfold Dict.values matching; rw [List.length_map]
    rw [hl]
    unfold under
    change _ = (if front = true then (matching d k).reverse else matching d k).head?
    generalize matching d k = l
    cases front
    · simp only [Bool.false_eq_true, if_false]
      cases l <;> simp
    · simp only [if_true]
      rw [List.head?_reverse, List.getLast?_eq_getElem?]
      cases l <;> simp
  cases hu : t.equalRange mix k with
  | nil =>
    have : d.change (if front then (d.values k).length - 1 else 0) k v = d.insert k v := by
      unfold Dict.change
      change (match (matching d k)[if front then (d.values k).length - 1 else 0]?.or (matching d k)[0]? with
        | none => d ++ [(k, v)]
        | some e => Dict.change.go k v e.1 d) = _
      rw [hpick, ← hr, hu]; rfl
    rw [this]
    exact insert_holds h k v
  | cons e es =>
    have hch : d.change (if front then (d.values k).length - 1 else 0) k v = Dict.change.go k v e.1 d := by
      unfold Dict.change
      change (match (matching d k)[if front then (d.values k).length - 1 else 0]?.or (matching d k)[0]? with
        | none => d ++ [(k, v)]
        | some e => Dict.change.go k v e.1 d) = _
      rw [hpick, ← hr, hu]; rfl
    have hfil : (t.chain (slot mix t.size k)).filter (fun e => iequals e.1 k) = e :: es := by
      rw [h.same, ← hr, hu]
    have hek : iequals e.1 k = true := (List.mem_filter.1 (hfil ▸ List.mem_cons_self .. : e ∈ _)).2
    obtain ⟨h1, h2, -, h4⟩ := replace_spec (k := k) (v := v) hek (h.grouped (slot mix t.size k)) (by rw [hfil]; simp)
    obtain ⟨g1, g2⟩ := go_spec k v e.1 hek d
    have hne : matching d k ≠ [] := by
      intro hm
      have : under front d k = [] := by unfold under; change (if front = true then (matching d k).reverse else matching d k) = []; rw [hm]; simp
      rw [← hr, hu] at this; cases this
    rw [if_neg hne] at g1
    rw [hch]
    refine ⟨h.pos, ?_, ?_, ?_⟩
    · intro i x hx
      dsimp only at hx ⊢
      split at hx
      · rename_i hi
        subst hi
        rcases h4 x hx with hk | hx
        · exact slot_congr mix _ hk
        · exact h.placed _ x hx
      · exact h.placed i x hx
    · intro i
      dsimp only
      split
      · rename_i hi; subst hi; exact h1
      · exact h.grouped i
    · intro k'
      dsimp only
      have hund : under front (Dict.change.go k v e.1 d) k' = if iequals k k' then [(e.1, v)] else under front d k' := by
        unfold under
        change (if front = true then (matching _ k').reverse else matching _ k') = if iequals k k' then _ else
          (if front = true then (matching d k').reverse else matching d k')
        cases hk : iequals k k' with
        | true =>
          have : matching (Dict.change.go k v e.1 d) k' = [(e.1, v)] := by
            rw [← g1]; unfold matching; congr 1; funext a; rw [iequals_congr hk]
          rw [this]; cases front <;> rfl
        | false =>
          rw [matching_of_others (d' := d) (by rw [iequals_symm]; exact hk) g2]; simp
      rw [hund]
      split
      · rename_i hs
        rw [hs, h2 k']
        split
        · rfl
        · rw [← hs, h.same]
      · rename_i hs
        have : iequals k k' = false := by
          cases hk : iequals k k' with
          | false => rfl
          | true => exact absurd (slot_congr mix t.size hk).symm hs
        rw [this, h.same]; simp

theorem holds_run (mix : HashCombine) (front : Bool) (n : Nat) (ops : List Op) :
    Holds mix front ((empty (n + 1)).run mix front ops) (Spec.HashTable.run front ops) := by
  have key : ∀ (ops : List Op) (t : Table) (d : Dict), Holds mix front t d →
      Holds mix front (t.run mix front ops) (ops.foldl (step front) d) := by
    intro ops
    induction ops with
    | nil => intro t d h; exact h
    | cons op ops ih =>
      intro t d h
      refine ih _ _ ?_
      cases op with
      | insert k v => exact insert_holds h k v
      | erase k => exact erase_holds h k
      | change k v => exact change_holds h k v
      | rehash m => exact rehash_holds h m
  refine key ops _ _ ⟨Nat.succ_pos n, ?_, fun _ => trivial, ?_⟩
  · intro i e he; cases he
  · intro k; unfold under empty; cases front <;> rfl

end Verif.Lemmas.HashTable
