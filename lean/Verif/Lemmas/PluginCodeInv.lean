import Verif.Lemmas.PluginCode
import Verif.Spec.PluginCode
import Mathlib.Tactic.Common
import Mathlib.Data.List.Nodup
/-
What holds of objects, managers and `plugin_ptr`s after every call.
-/
namespace Verif.PluginCode
open Verif.Plugin (Act)
open Verif.Spec.PluginCode

/-- The `plugin_ptr`s that exist. -/
def St.held (s : St) : List Nat := s.entries.map (·.slot) ++ s.ptrs

structure Sound (s : St) : Prop where
  quiet : Quiet s.lib
  distinct : s.held.Nodup
  exist : ∀ i ∈ s.held, i < s.lib.slots.length
  opened : ∀ i c, codeOf s.lib i = some c → i ∈ s.held
  fresh : ∀ o, s.next ≤ o → s.objs o = none

/-- The objects of the entries `es` are as they should be, and so was all that happened. -/
structure Objs (s : St) (es : List Entry) : Prop where
  made : ∀ e ∈ es, s.objs e.obj = some (maker s.lib e.slot)
  owners : (es.map (·.obj)).Nodup
  good : ∀ ev ∈ s.log, Good ev
  gone : ∀ o ∈ destroyed s, s.objs o = none ∧ o < s.next
  once : (destroyed s).Nodup

theorem codeLoaded_maker {l : Plugin.St} (h : Plugin.Inv l) (i : Nat) : codeLoaded l (some (maker l i)) = true := by
  unfold maker
  cases hc : codeOf l i with
  | none => rfl
  | some c =>
    obtain ⟨lib, n⟩ := c
    cases lib with
    | none => rfl
    | some h' => exact loaded_of_code h hc

theorem maker_congr {l l' : Plugin.St} {i : Nat} (h : codeOf l' i = codeOf l i) : maker l' i = maker l i := by
  unfold maker; rw [h]

/-! ### Objects are made and destroyed -/

theorem sound_kill {s : St} (h : Sound s) (o : Nat) (m : Maker) : Sound (s.kill o m) where
  quiet := h.quiet
  distinct := h.distinct
  exist := h.exist
  opened := h.opened
  fresh := fun x hx => by
    show (if x = o then none else s.objs x) = none
    split
    · rfl
    · exact h.fresh x hx

theorem sound_make {s : St} (h : Sound s) (m : Maker) : Sound (s.make m) where
  quiet := h.quiet
  distinct := h.distinct
  exist := h.exist
  opened := h.opened
  fresh := fun x hx => by
    change s.next + 1 ≤ x at hx
    show (if x = s.next then some m else s.objs x) = none
    rw [if_neg (by omega)]
    exact h.fresh x (by omega)

theorem destroyed_kill (s : St) (o : Nat) (m : Maker) : destroyed (s.kill o m) = destroyed s ++ [o] := by
  unfold destroyed St.kill; simp

/-- Destroying an object that is in none of the entries, by a function of its maker. -/
theorem objs_kill {s : St} (hs : Sound s) {es : List Entry} (h : Objs s es) {o : Nat} {m : Maker} (hm : s.objs o = some m)
    (hl : codeLoaded s.lib (some m) = true) (hf : ∀ e ∈ es, e.obj ≠ o) : Objs (s.kill o m) es where
  made := fun e he => by
    show (if e.obj = o then none else s.objs e.obj) = _
    rw [if_neg (hf e he)]; exact h.made e he
  owners := h.owners
  good := by
    intro ev hev
    rcases List.mem_append.1 hev with hev | hev
    · exact h.good ev hev
    · rw [List.mem_singleton.1 hev, hm]; exact ⟨rfl, hl⟩
  gone := by
    intro x hx
    rw [destroyed_kill] at hx
    show (if x = o then none else s.objs x) = none ∧ x < s.next
    rcases List.mem_append.1 hx with hx | hx
    · refine ⟨?_, (h.gone x hx).2⟩
      split
      · rfl
      · exact (h.gone x hx).1
    · rw [List.mem_singleton.1 hx]
      refine ⟨if_pos rfl, ?_⟩
      by_contra hc
      rw [hs.fresh o (by omega)] at hm
      cases hm
  once := by
    rw [destroyed_kill]
    refine List.nodup_append.2 ⟨h.once, List.nodup_singleton _, fun a ha b hb => ?_⟩
    rw [List.mem_singleton.1 hb]
    rintro rfl
    rw [(h.gone a ha).1] at hm
    cases hm

theorem objs_make {s : St} (hs : Sound s) {es : List Entry} (h : Objs s es) (m : Maker) : Objs (s.make m) es where
  made := fun e he => by
    have hm := h.made e he
    show (if e.obj = s.next then some m else s.objs e.obj) = _
    rw [if_neg (fun hx => by rw [hx, hs.fresh _ (Nat.le_refl _)] at hm; cases hm)]
    exact hm
  owners := h.owners
  good := h.good
  gone := fun x hx => by
    obtain ⟨h1, h2⟩ := h.gone x hx
    refine ⟨?_, Nat.lt_succ_of_lt h2⟩
    show (if x = s.next then some m else s.objs x) = none
    rw [if_neg (by omega)]; exact h1
  once := h.once

/-- Fewer entries. -/
theorem Objs.sub {s : St} {es es' : List Entry} (h : Objs s es) (hs : es'.Sublist es) : Objs s es' :=
  { h with made := fun e he => h.made e (hs.subset he), owners := h.owners.sublist (hs.map _) }

theorem Objs.perm {s : St} {es es' : List Entry} (h : Objs s es) (hs : es.Perm es') : Objs s es' :=
  { h with made := fun e he => h.made e (hs.mem_iff.2 he), owners := (hs.map _).nodup_iff.1 h.owners }

/-! ### The libraries change -/

/-- A change of the libraries that leaves the functions of the `plugin_ptr`s that stay. -/
theorem sound_lib {s : St} (h : Sound s) {l : Plugin.St} {es : List Entry} {ps : List Nat} (hq : Quiet l)
    (hd : (es.map (·.slot) ++ ps).Nodup) (hl : ∀ i ∈ es.map (·.slot) ++ ps, i < l.slots.length)
    (ho : ∀ i c, codeOf l i = some c → i ∈ es.map (·.slot) ++ ps) : Sound { s with lib := l, entries := es, ptrs := ps } where
  quiet := hq
  distinct := hd
  exist := hl
  opened := ho
  fresh := h.fresh

theorem objs_of {s s' : St} {es es' : List Entry} (h : Objs s es) (ho : s'.objs = s.objs) (hn : s'.next = s.next) (hl : s'.log = s.log)
    (hm : ∀ e ∈ es', s.objs e.obj = some (maker s'.lib e.slot)) (hd : (es'.map (·.obj)).Nodup) : Objs s' es' where
  made := by rw [ho]; exact hm
  owners := hd
  good := by rw [hl]; exact h.good
  gone := by unfold destroyed; rw [hl, ho, hn]; exact h.gone
  once := by unfold destroyed; rw [hl]; exact h.once

/-- Several `plugin_ptr`s are closed. -/
theorem closes_ok (is : List Nat) : ∀ l : Plugin.St, Quiet l → (∀ i ∈ is, i < l.slots.length) →
    Quiet (is.foldl close l) ∧ (is.foldl close l).slots.length = l.slots.length ∧ (∀ i ∈ is, codeOf (is.foldl close l) i = none) ∧
      ∀ j, j ∉ is → codeOf (is.foldl close l) j = codeOf l j := by
  induction is with
  | nil => intro l h _; exact ⟨h, rfl, nofun, fun _ _ => rfl⟩
  | cons i is ih =>
    intro l h hl
    obtain ⟨h1, h2, h3, h4⟩ := close_ok h (hl i List.mem_cons_self)
    obtain ⟨k1, k2, k3, k4⟩ := ih (close l i) h1 fun j hj => by rw [h2]; exact hl j (List.mem_cons_of_mem _ hj)
    refine ⟨k1, k2.trans h2, ?_, ?_⟩
    · intro j hj
      by_cases hm : j ∈ is
      · exact k3 j hm
      · rcases List.mem_cons.1 hj with rfl | hj
        · exact (k4 j hm).trans h3
        · exact absurd hj hm
    · intro j hj
      rw [List.mem_cons, not_or] at hj
      exact (k4 j hj.2).trans (h4 j hj.1)

theorem fold_close (es : List Entry) : ∀ s : St, es.foldl (fun (s : St) e => { s with lib := close s.lib e.slot }) s =
    { s with lib := (es.map (·.slot)).foldl close s.lib } := by
  induction es with
  | nil => intro s; rfl
  | cons e es ih => intro s; rw [List.foldl_cons, ih]; rfl

/-- All objects of a manager are destroyed. -/
theorem sound_kills (es : List Entry) : ∀ s : St, Sound s →
    Sound (es.foldl (fun s e => s.kill e.obj (maker s.lib e.slot)) s) ∧
      (es.foldl (fun s e => s.kill e.obj (maker s.lib e.slot)) s).lib = s.lib ∧
      (es.foldl (fun s e => s.kill e.obj (maker s.lib e.slot)) s).entries = s.entries ∧
      (es.foldl (fun s e => s.kill e.obj (maker s.lib e.slot)) s).ptrs = s.ptrs := by
  induction es with
  | nil => intro s h; exact ⟨h, rfl, rfl, rfl⟩
  | cons e es ih => intro s h; exact ih _ (sound_kill h _ _)

/-- The entries of other managers stay, those of the manager are dealt with first. -/
theorem objs_kills (es es' : List Entry) : ∀ s : St, Sound s → Objs s (es ++ es') →
    Objs (es.foldl (fun s e => s.kill e.obj (maker s.lib e.slot)) s) es' := by
  induction es with
  | nil => intro s _ h; exact h
  | cons e es ih =>
    intro s hs h
    refine ih _ (sound_kill hs _ _) ?_
    have hm := h.made e List.mem_cons_self
    refine objs_kill hs (h.sub (List.sublist_cons_self _ _)) hm (codeLoaded_maker hs.quiet.inv _) fun x hx hxe => ?_
    have := h.owners
    rw [List.cons_append, List.map_cons, List.nodup_cons] at this
    exact this.1 (hxe ▸ List.mem_map_of_mem hx)

/-! ### The calls -/

theorem sound_init : Sound {} where
  quiet := ⟨Plugin.inv_init, rfl, nofun⟩
  distinct := List.nodup_nil
  exist := nofun
  opened := by intro i c h; unfold codeOf at h; simp at h
  fresh := fun _ _ => rfl

theorem objs_init : Objs {} [] := ⟨nofun, List.nodup_nil, nofun, nofun, List.nodup_nil⟩

theorem find_mem {s : St} {m : Nat} {id : Bytes} {e : Entry} (h : s.find m id = some e) : e ∈ s.entries := List.mem_of_find?_eq_some h

theorem Sound.slot_lt {s : St} (h : Sound s) {e : Entry} (he : e ∈ s.entries) : e.slot < s.lib.slots.length :=
  h.exist _ (List.mem_append_left _ (List.mem_map_of_mem he))

theorem Sound.not_length {s : St} (h : Sound s) : s.lib.slots.length ∉ s.held := fun hc => Nat.lt_irrefl _ (h.exist _ hc)

theorem sound_addStatic {s : St} (h : Sound s) (name : Bytes) : Sound { s with lib := acts s.lib [.addStatic name] } ∧
    ∀ j, codeOf (acts s.lib [.addStatic name]) j = codeOf s.lib j := by
  obtain ⟨h1, h2⟩ := Plugin.inv_step h.quiet.inv h.quiet.todos (.addStatic name)
  have hsl : (s.lib.step (.addStatic name)).slots = s.lib.slots ∧ (s.lib.step (.addStatic name)).stuck = s.lib.stuck := by
    unfold Plugin.St.step
    split
    · exact ⟨rfl, rfl⟩
    · dsimp only; split <;> exact ⟨rfl, rfl⟩
  have hc : ∀ j, codeOf (acts s.lib [.addStatic name]) j = codeOf s.lib j := by
    intro j
    rcases Nat.lt_or_ge j s.lib.slots.length with hl | hl
    · exact codeOf_step (a := .addStatic name) h.quiet.inv h.quiet.todos hl (fun h => by cases h)
    · rw [codeOf_ge hl, codeOf_ge (by show _ ≤ _; rw [show (acts s.lib [.addStatic name]).slots = _ from hsl.1]; exact hl)]
  refine ⟨sound_lib h ⟨h1, hsl.2.trans h.quiet.free, ?_⟩ h.distinct ?_ ?_, hc⟩
  · intro sl hm; rw [show (acts s.lib [.addStatic name]).slots = _ from hsl.1] at hm; exact h.quiet.idle sl hm
  · intro i hi; rw [show (acts s.lib [.addStatic name]).slots = _ from hsl.1]; exact h.exist i hi
  · intro i c hic; rw [hc] at hic; exact h.opened i c hic

/-- A new `plugin_ptr` of an entry or of the program. -/
theorem sound_new {s : St} (h : Sound s) {l : Plugin.St} (hq : Quiet l) (hlen : l.slots.length = s.lib.slots.length + 1)
    (hc : ∀ j, j ≠ s.lib.slots.length → codeOf l j = codeOf s.lib j) {es : List Entry} {ps : List Nat}
    (hp : (es.map (·.slot) ++ ps).Perm (s.lib.slots.length :: s.held)) : Sound { s with lib := l, entries := es, ptrs := ps } := by
  refine sound_lib h hq (hp.nodup_iff.2 (List.nodup_cons.2 ⟨h.not_length, h.distinct⟩)) ?_ ?_
  · intro i hi
    rcases List.mem_cons.1 (hp.mem_iff.1 hi) with rfl | hi
    · omega
    · have := h.exist i hi; omega
  · intro i c hic
    rw [hp.mem_iff]
    by_cases he : i = s.lib.slots.length
    · rw [he]; exact List.mem_cons_self
    · rw [hc i he] at hic; exact List.mem_cons_of_mem _ (h.opened i c hic)

/-- A `plugin_ptr` comes and goes. -/
theorem sound_passing {s : St} (h : Sound s) {l : Plugin.St} (hq : Quiet l) (hlen : s.lib.slots.length ≤ l.slots.length)
    (hc : ∀ j, codeOf l j = codeOf s.lib j) : Sound { s with lib := l } := by
  refine sound_lib h hq h.distinct (fun i hi => Nat.lt_of_lt_of_le (h.exist i hi) hlen) fun i c hic => ?_
  rw [hc] at hic; exact h.opened i c hic

theorem sound_createBy {s : St} (h : Sound s) (i : Nat) (creates : Bool) : Sound (s.createBy i creates).2 := by
  unfold St.createBy
  split
  · exact h
  · split
    · exact sound_make h _
    · exact h

theorem objs_createBy {s : St} (h : Sound s) {es : List Entry} (ho : Objs s es) (i : Nat) (creates : Bool) :
    Objs (s.createBy i creates).2 es ∧ (s.createBy i creates).2.entries = s.entries := by
  unfold St.createBy
  split
  · exact ⟨ho, rfl⟩
  · split
    · exact ⟨objs_make h ho _, rfl⟩
    · exact ⟨ho, rfl⟩

theorem perm_entries (es : List Entry) (e : Entry) (ps : List Nat) :
    ((es ++ [e]).map (·.slot) ++ ps).Perm (e.slot :: (es.map (·.slot) ++ ps)) := by
  rw [List.map_append, List.map_cons, List.map_nil, List.append_assoc]
  exact List.perm_middle

theorem perm_ptrs (a b : List Nat) (i : Nat) : (a ++ (b ++ [i])).Perm (i :: (a ++ b)) := by
  rw [← List.append_assoc]
  exact List.perm_append_singleton _ _

/-- The three stages of `load`. -/
theorem load_ok {s : St} (h : Sound s) (m : Nat) (id name : Bytes) (file : Option (Bytes × Image)) (creates : Bool) :
    Sound (s.load m id name file creates).2 ∧
    ((Objs s s.entries) → Objs (s.load m id name file creates).2 (s.load m id name file creates).2.entries) := by
  obtain ⟨h1, h2, h3, h4⟩ := openNew_ok h.quiet name file
  have hlt : s.lib.slots.length < (openNew s.lib name file).slots.length := by omega
  unfold St.load
  dsimp only
  split
  · rename_i hc
    have hcode : ∀ j, codeOf (openNew s.lib name file) j = codeOf s.lib j := by
      intro j
      by_cases hj : j = s.lib.slots.length
      · subst hj; rw [hc, codeOf_ge (Nat.le_refl _)]
      · exact h4 j hj
    refine ⟨sound_passing h h1 (by omega) hcode, fun ho => objs_of ho rfl rfl rfl (fun e he => ?_) ho.owners⟩
    rw [ho.made e he]; exact congrArg some (maker_congr (hcode _)).symm
  · rename_i lib plugin hc
    split
    · obtain ⟨k1, k2, k3, k4⟩ := copy_ok h1 hlt
      obtain ⟨g1, g2, g3, g4⟩ := close_ok k1 (i := s.lib.slots.length) (by omega)
      have hnew : codeOf (close (copy (openNew s.lib name file) s.lib.slots.length) s.lib.slots.length)
          (openNew s.lib name file).slots.length = some (lib, plugin) := by
        rw [g4 _ (by omega), k3, hc]
      have hold : ∀ j, j ≠ (openNew s.lib name file).slots.length →
          codeOf (close (copy (openNew s.lib name file) s.lib.slots.length) s.lib.slots.length) j = codeOf s.lib j := by
        intro j hj
        by_cases hj' : j = s.lib.slots.length
        · subst hj'; rw [g3, codeOf_ge (Nat.le_refl _)]
        · rw [g4 j hj', k4 j hj, h4 j hj']
      have hsm := sound_make h (.plugin lib plugin)
      constructor
      · refine sound_lib hsm g1 ?_ ?_ ?_
        · refine (perm_entries _ _ _).nodup_iff.2 (List.nodup_cons.2 ⟨fun hm => ?_, h.distinct⟩)
          have := h.exist _ hm
          change (openNew s.lib name file).slots.length < _ at this
          omega
        · intro i hi
          refine Nat.lt_of_lt_of_eq ?_ (g2.trans k2).symm
          rcases List.mem_cons.1 ((perm_entries _ _ _).mem_iff.1 hi) with rfl | hi
          · exact Nat.lt_succ_self _
          · have := h.exist i hi; omega
        · intro i c hic
          rw [(perm_entries _ _ _).mem_iff]
          by_cases hi : i = (openNew s.lib name file).slots.length
          · exact hi ▸ List.mem_cons_self
          · exact List.mem_cons_of_mem _ (h.opened i c ((hold i hi).symm.trans hic))
      · intro ho
        have hom := objs_make h ho (.plugin lib plugin)
        have hne : ∀ e ∈ s.entries, e.slot ≠ (openNew s.lib name file).slots.length := fun e he => by
          have := h.slot_lt he; omega
        refine objs_of hom rfl rfl rfl (fun e he => ?_) ?_
        · rcases List.mem_append.1 he with he | he
          · rw [hom.made e he]
            exact congrArg some (maker_congr (hold _ (hne e he))).symm
          · rw [List.mem_singleton.1 he]
            show (if s.next = s.next then _ else _) = _
            rw [if_pos rfl]
            have hmk : maker (close (copy (openNew s.lib name file) s.lib.slots.length) s.lib.slots.length)
                (openNew s.lib name file).slots.length = .plugin lib plugin := by unfold maker; rw [hnew]
            exact congrArg some hmk.symm
        · rw [List.map_append, List.nodup_append]
          refine ⟨ho.owners, List.nodup_singleton _, fun a ha b hb => ?_⟩
          simp only [List.map_cons, List.map_nil, List.mem_singleton] at hb
          rintro rfl
          obtain ⟨e, he, hee⟩ := List.mem_map.1 ha
          have := ho.made e he
          rw [hee, hb] at this
          change s.objs s.next = _ at this
          rw [h.fresh _ (Nat.le_refl _)] at this
          cases this
    · obtain ⟨g1, g2, g3, g4⟩ := close_ok h1 hlt
      have hcode : ∀ j, codeOf (close (openNew s.lib name file) s.lib.slots.length) j = codeOf s.lib j := by
        intro j
        by_cases hj : j = s.lib.slots.length
        · subst hj; rw [g3, codeOf_ge (Nat.le_refl _)]
        · rw [g4 j hj, h4 j hj]
      refine ⟨sound_passing h g1 (by omega) hcode, fun ho => objs_of ho rfl rfl rfl (fun e he => ?_) ho.owners⟩
      rw [ho.made e he]; exact congrArg some (maker_congr (hcode _)).symm

/-- `clear` closes the `plugin_ptr`s of the manager and leaves the others. -/
theorem clear_eq (s : St) (m : Nat) : s.clear m =
    { (s.entries.filter (·.mgr == m)).foldl (fun s e => s.kill e.obj (maker s.lib e.slot)) s with
      entries := s.entries.filter (·.mgr != m), lib := ((s.entries.filter (·.mgr == m)).map (·.slot)).foldl close s.lib } := by
  unfold St.clear
  dsimp only
  rw [fold_close]
  have h : ∀ (es : List Entry) (s : St), (es.foldl (fun s e => s.kill e.obj (maker s.lib e.slot)) s).lib = s.lib ∧
      (es.foldl (fun s e => s.kill e.obj (maker s.lib e.slot)) s).entries = s.entries := by
    intro es
    induction es with
    | nil => intro s; exact ⟨rfl, rfl⟩
    | cons e es ih => intro s; exact ih _
  dsimp only
  rw [(h _ s).1, (h _ s).2]

theorem perm_split (s : St) (m : Nat) :
    (s.entries.filter (·.mgr == m) ++ s.entries.filter (·.mgr != m)).Perm s.entries := List.filter_append_perm _ _

theorem clear_ok {s : St} (h : Sound s) (m : Nat) :
    Sound (s.clear m) ∧ (Objs s s.entries → Objs (s.clear m) (s.clear m).entries) := by
  obtain ⟨h1, h2, h3, h4⟩ := sound_kills (s.entries.filter (·.mgr == m)) s h
  have hlt : ∀ i ∈ (s.entries.filter (·.mgr == m)).map (·.slot), i < s.lib.slots.length := by
    intro i hi
    obtain ⟨e, he, rfl⟩ := List.mem_map.1 hi
    exact h.slot_lt (List.mem_filter.1 he).1
  obtain ⟨k1, k2, k3, k4⟩ := closes_ok _ s.lib h.quiet hlt
  have hp : ((s.entries.filter (·.mgr == m)).map (·.slot) ++ ((s.entries.filter (·.mgr != m)).map (·.slot) ++ s.ptrs)).Perm s.held := by
    rw [← List.append_assoc, ← List.map_append]
    exact ((perm_split s m).map _).append_right _
  have hnd := hp.nodup_iff.2 h.distinct
  rw [List.nodup_append] at hnd
  have hkeep : ∀ e ∈ s.entries.filter (·.mgr != m), codeOf (((s.entries.filter (·.mgr == m)).map (·.slot)).foldl close s.lib) e.slot = codeOf s.lib e.slot := by
    intro e he
    refine k4 _ fun hm => hnd.2.2 _ hm _ (List.mem_append_left _ (List.mem_map_of_mem he)) rfl
  rw [clear_eq]
  constructor
  · have : (List.filter (fun x => x.mgr == m) s.entries).foldl (fun s e => s.kill e.obj (maker s.lib e.slot)) s = _ := rfl
    refine sound_lib h1 (ps := ((s.entries.filter (·.mgr == m)).foldl (fun s e => s.kill e.obj (maker s.lib e.slot)) s).ptrs) k1 ?_ ?_ ?_
    · rw [h4]; exact hnd.2.1
    · rw [h4, k2]; exact fun i hi => h.exist i (hp.mem_iff.1 (List.mem_append_right _ hi))
    · rw [h4]
      intro i c hic
      by_cases hm : i ∈ (s.entries.filter (·.mgr == m)).map (·.slot)
      · rw [k3 i hm] at hic; cases hic
      · rw [k4 i hm] at hic
        rcases List.mem_append.1 (hp.mem_iff.2 (h.opened i c hic)) with hx | hx
        · exact absurd hx hm
        · exact hx
  · intro ho
    have hk := objs_kills (s.entries.filter (·.mgr == m)) (s.entries.filter (·.mgr != m)) s h (ho.perm (perm_split s m).symm)
    refine objs_of hk rfl rfl rfl (fun e he => ?_) hk.owners
    rw [hk.made e he, h2]
    exact congrArg some (maker_congr (hkeep e he)).symm

theorem erase_perm {es : List Entry} {e : Entry} (he : e ∈ es) : es.Perm (e :: es.erase e) := List.perm_cons_erase he

/-- Every call keeps the books in order. -/
theorem sound_step {s : St} (h : Sound s) (op : Op) : Sound (s.step op).2 := by
  cases op with
  | new => exact sound_make h _
  | delete o => exact sound_kill h _ _
  | call o => exact ⟨h.quiet, h.distinct, h.exist, h.opened, h.fresh⟩
  | addStatic name => exact (sound_addStatic h name).1
  | add m id o =>
    unfold St.step
    dsimp only
    split
    · exact h
    · obtain ⟨h1, h2, h3, h4, h5, -⟩ := create_ok h.quiet none
      exact sound_new h (quiet_create h.quiet) (by show (s.lib.step _).slots.length = _; rw [h4]; simp) (fun j _ => h5 j)
        (perm_entries _ _ _)
  | load m id name file creates =>
    unfold St.step
    dsimp only
    split
    · exact h
    · exact (load_ok h m id name file creates).1
  | remove m id =>
    unfold St.step
    dsimp only
    split
    · exact h
    · rename_i e he
      have hmem := find_mem he
      obtain ⟨k1, k2, k3, k4⟩ := close_ok h.quiet (h.slot_lt hmem)
      have hk := sound_kill h e.obj (maker s.lib e.slot)
      have hp : (e.slot :: ((s.entries.erase e).map (·.slot) ++ s.ptrs)).Perm s.held :=
        (((erase_perm hmem).map Entry.slot).append_right s.ptrs).symm
      have hnd := List.nodup_cons.1 (hp.nodup_iff.2 h.distinct)
      refine sound_lib hk k1 hnd.2 ?_ ?_
      · intro i hi; rw [show (close (s.kill e.obj (maker s.lib e.slot)).lib e.slot).slots.length = _ from k2]
        exact h.exist i (hp.mem_iff.1 (List.mem_cons_of_mem _ hi))
      · intro i c hic
        by_cases hi : i = e.slot
        · subst hi; exact absurd (k3.symm.trans hic) nofun
        · rcases List.mem_cons.1 (hp.mem_iff.2 (h.opened i c ((k4 i hi).symm.trans hic))) with hx | hx
          · exact absurd hx hi
          · exact hx
  | replace m id o =>
    unfold St.step
    dsimp only
    split
    · exact h
    · rename_i e he
      have hk := sound_kill h e.obj (maker s.lib e.slot)
      have hs : (s.entries.map fun x => if x = e then { e with obj := o } else x).map (·.slot) = s.entries.map (·.slot) := by
        rw [List.map_map]
        refine List.map_congr_left fun x _ => ?_
        dsimp only [Function.comp]
        split
        · rename_i hx; rw [hx]
        · rfl
      have hh : (s.entries.map fun x => if x = e then { e with obj := o } else x).map (·.slot) ++ s.ptrs = s.held := by
        rw [hs]; rfl
      refine ⟨hk.quiet, ?_, ?_, ?_, hk.fresh⟩
      · exact (congrArg List.Nodup hh).mpr h.distinct
      · exact fun i hi => h.exist i ((congrArg (i ∈ ·) hh).mp hi)
      · exact fun i c hc => (congrArg (i ∈ ·) hh).mpr (h.opened i c hc)
  | clone m id creates =>
    unfold St.step
    dsimp only
    split
    · exact h
    · exact sound_createBy h _ _
  | getLib m id =>
    unfold St.step
    dsimp only
    split
    · obtain ⟨h1, h2, h3, h4, h5, -⟩ := create_ok h.quiet none
      exact sound_new h (quiet_create h.quiet) (by show (s.lib.step _).slots.length = _; rw [h4]; simp) (fun j _ => h5 j)
        (perm_ptrs _ _ _)
    · rename_i e he
      obtain ⟨k1, k2, k3, k4⟩ := copy_ok h.quiet (h.slot_lt (find_mem he))
      exact sound_new h k1 k2 k4 (perm_ptrs _ _ _)
  | clear m => exact (clear_ok h m).1
  | openPtr name file =>
    obtain ⟨k1, k2, k3, k4⟩ := openNew_ok h.quiet name file
    unfold St.step
    dsimp only
    split
    · rename_i hc
      refine sound_passing h k1 (by omega) fun j => ?_
      by_cases hj : j = s.lib.slots.length
      · subst hj; rw [hc, codeOf_ge (Nat.le_refl _)]
      · exact k4 j hj
    · exact sound_new h k1 k2 k4 (perm_ptrs _ _ _)
  | closePtr i =>
    unfold St.step
    dsimp only
    split
    · rename_i hm
      have hlt := h.exist i (List.mem_append_right _ hm)
      obtain ⟨k1, k2, k3, k4⟩ := close_ok h.quiet hlt
      have hp : (i :: (s.entries.map (·.slot) ++ s.ptrs.erase i)).Perm s.held :=
        (List.perm_middle.symm.trans ((List.perm_cons_erase hm).symm.append_left _))
      have hnd := List.nodup_cons.1 (hp.nodup_iff.2 h.distinct)
      refine sound_lib h k1 hnd.2 ?_ ?_
      · intro j hj; rw [k2]; exact h.exist j (hp.mem_iff.1 (List.mem_cons_of_mem _ hj))
      · intro j c hjc
        by_cases hj : j = i
        · subst hj; rw [k3] at hjc; cases hjc
        · rw [k4 j hj] at hjc
          rcases List.mem_cons.1 (hp.mem_iff.2 (h.opened j c hjc)) with hx | hx
          · exact absurd hx hj
          · exact hx
    · exact h
  | create i creates =>
    unfold St.step
    dsimp only
    split
    · exact sound_createBy h _ _
    · exact h
  | destroy i o =>
    unfold St.step
    dsimp only
    split
    · split
      · exact h
      · exact sound_kill h _ _
    · exact h

/-- A call that obeys the rules keeps the objects in order. -/
theorem objs_step {s : St} (h : Sound s) (ho : Objs s s.entries) {op : Op} (ha : Allowed s op) :
    Objs (s.step op).2 (s.step op).2.entries := by
  cases op with
  | new => exact objs_make h ho _
  | delete o => exact objs_kill h ho ha.2 rfl fun e he => ha.1.2 e he
  | call o =>
    obtain ⟨mk, hmk, hcode⟩ : ∃ mk, s.objs o = some mk ∧ codeLoaded s.lib (some mk) = true := by
      rcases ha with ⟨e, he, rfl⟩ | ha | ⟨i, -, ha⟩
      · exact ⟨_, ho.made e he, codeLoaded_maker h.quiet.inv _⟩
      · exact ⟨_, ha, rfl⟩
      · exact ⟨_, ha, codeLoaded_maker h.quiet.inv _⟩
    have hd : destroyed (s.step (.call o)).2 = destroyed s := by unfold destroyed St.step; simp
    refine ⟨ho.made, ho.owners, ?_, by rw [hd]; exact ho.gone, by rw [hd]; exact ho.once⟩
    intro ev hev
    rcases List.mem_append.1 hev with hev | hev
    · exact ho.good ev hev
    · rw [List.mem_singleton.1 hev, hmk]; exact ⟨rfl, hcode⟩
  | addStatic name =>
    refine objs_of ho rfl rfl rfl (fun e he => ?_) ho.owners
    rw [ho.made e he]; exact congrArg some (maker_congr ((sound_addStatic h name).2 _)).symm
  | add m id o =>
    unfold St.step
    dsimp only
    split
    · exact ho
    · obtain ⟨h1, h2, h3, h4, h5, -⟩ := create_ok h.quiet none
      refine objs_of ho rfl rfl rfl (fun e he => ?_) ?_
      · rcases List.mem_append.1 he with he | he
        · rw [ho.made e he]; exact congrArg some (maker_congr (h5 _)).symm
        · rw [List.mem_singleton.1 he]
          have : maker (acts s.lib [.create none]) s.lib.slots.length = .program := by
            unfold maker; rw [show codeOf (acts s.lib [.create none]) _ = _ from h5 _, codeOf_ge (Nat.le_refl _)]
          exact ha.2.trans (congrArg some this.symm)
      · rw [List.map_append, List.nodup_append]
        refine ⟨ho.owners, List.nodup_singleton _, fun a hx b hb => ?_⟩
        simp only [List.map_cons, List.map_nil, List.mem_singleton] at hb
        obtain ⟨e, he, rfl⟩ := List.mem_map.1 hx
        rw [hb]
        exact ha.1.2 e he
  | load m id name file creates =>
    unfold St.step
    dsimp only
    split
    · exact ho
    · exact (load_ok h m id name file creates).2 ho
  | remove m id =>
    unfold St.step
    dsimp only
    split
    · exact ho
    · rename_i e he
      have hmem := find_mem he
      obtain ⟨k1, k2, k3, k4⟩ := close_ok h.quiet (h.slot_lt hmem)
      have hpe := ho.perm (erase_perm hmem)
      have hne : ∀ x ∈ s.entries.erase e, x.obj ≠ e.obj := by
        intro x hx hxe
        have := hpe.owners
        rw [List.map_cons, List.nodup_cons] at this
        exact this.1 (hxe ▸ List.mem_map_of_mem hx)
      have hk := objs_kill h (hpe.sub (List.sublist_cons_self _ _)) (ho.made e hmem) (codeLoaded_maker h.quiet.inv _) hne
      refine objs_of hk rfl rfl rfl (fun x hx => ?_) hk.owners
      rw [hk.made x hx]
      refine congrArg some (maker_congr (k4 _ ?_)).symm
      have hd : (e.slot :: (s.entries.erase e).map (·.slot)).Nodup :=
        ((erase_perm hmem).map Entry.slot).nodup_iff.1 (List.nodup_append.1 h.distinct).1
      intro hxs
      exact (List.nodup_cons.1 hd).1 (hxs ▸ List.mem_map_of_mem hx)
  | replace m id o =>
    unfold St.step
    dsimp only
    split
    · exact ho
    · rename_i e he
      have hmem := find_mem he
      obtain ⟨⟨hal, hfree⟩, hmk⟩ := ha
      have hmk := hmk e he
      have hnd : s.entries.Nodup := List.Nodup.of_map _ ho.owners
      have hpe := ho.perm (erase_perm hmem)
      have hne : ∀ x ∈ s.entries.erase e, x.obj ≠ e.obj := by
        intro x hx hxe
        have := hpe.owners
        rw [List.map_cons, List.nodup_cons] at this
        exact this.1 (hxe ▸ List.mem_map_of_mem hx)
      have hk := objs_kill h (hpe.sub (List.sublist_cons_self _ _)) (ho.made e hmem) (codeLoaded_maker h.quiet.inv _) hne
      have hperm : (s.entries.map fun x => if x = e then { e with obj := o } else x).Perm ({ e with obj := o } :: s.entries.erase e) := by
        refine ((erase_perm hmem).map _).trans ?_
        rw [List.map_cons, if_pos rfl]
        refine .cons _ (.of_eq ?_)
        conv_rhs => rw [← List.map_id (s.entries.erase e)]
        refine List.map_congr_left fun x hx => if_neg ?_
        rintro rfl
        exact (List.Nodup.not_mem_erase hnd) hx
      have hko : ∀ x, x ≠ e.obj → (s.kill e.obj (maker s.lib e.slot)).objs x = s.objs x := fun x hx => if_neg hx
      refine Objs.perm ?_ hperm.symm
      refine objs_of hk rfl rfl rfl (fun x hx => ?_) ?_
      · rcases List.mem_cons.1 hx with rfl | hx
        · exact (hko o (fun hc => hfree e hmem hc.symm)).trans hmk
        · exact hk.made x hx
      · rw [List.map_cons, List.nodup_cons]
        refine ⟨fun hc => ?_, hk.owners⟩
        obtain ⟨x, hx, hxo⟩ := List.mem_map.1 hc
        exact hfree x (List.mem_of_mem_erase hx) hxo
  | clone m id creates =>
    unfold St.step
    dsimp only
    split
    · exact ho
    · rename_i e _
      rw [(objs_createBy h ho e.slot creates).2]; exact (objs_createBy h ho _ _).1
  | getLib m id =>
    unfold St.step
    dsimp only
    split
    · obtain ⟨h1, h2, h3, h4, h5, -⟩ := create_ok h.quiet none
      refine objs_of ho rfl rfl rfl (fun e he => ?_) ho.owners
      rw [ho.made e he]; exact congrArg some (maker_congr (h5 _)).symm
    · rename_i e' he'
      obtain ⟨k1, k2, k3, k4⟩ := copy_ok h.quiet (h.slot_lt (find_mem he'))
      refine objs_of ho rfl rfl rfl (fun e he => ?_) ho.owners
      rw [ho.made e he]
      exact congrArg some (maker_congr (k4 _ (Nat.ne_of_lt (h.slot_lt he)))).symm
  | clear m => exact (clear_ok h m).2 ho
  | openPtr name file =>
    obtain ⟨k1, k2, k3, k4⟩ := openNew_ok h.quiet name file
    have : Objs { s with lib := openNew s.lib name file } s.entries := by
      refine objs_of ho rfl rfl rfl (fun e he => ?_) ho.owners
      rw [ho.made e he]
      exact congrArg some (maker_congr (k4 _ (Nat.ne_of_lt (h.slot_lt he)))).symm
    unfold St.step
    dsimp only
    split
    · exact this
    · exact objs_of this rfl rfl rfl this.made this.owners
  | closePtr i =>
    unfold St.step
    dsimp only
    split
    · rename_i hm
      obtain ⟨k1, k2, k3, k4⟩ := close_ok h.quiet (h.exist i (List.mem_append_right _ hm))
      refine objs_of ho rfl rfl rfl (fun e he => ?_) ho.owners
      rw [ho.made e he]
      refine congrArg some (maker_congr (k4 _ ?_)).symm
      exact fun hc => (List.nodup_append.1 h.distinct).2.2 _ (List.mem_map_of_mem he) _ hm hc
    · exact ho
  | create i creates =>
    unfold St.step
    dsimp only
    split
    · rw [(objs_createBy h ho i creates).2]; exact (objs_createBy h ho _ _).1
    · exact ho
  | destroy i o =>
    unfold St.step
    dsimp only
    split
    · split
      · exact ho
      · rename_i lib name hc
        have hm : maker s.lib i = .plugin lib name := by unfold maker; rw [hc]
        have h2 := ha.2
        rw [hm] at h2
        refine objs_kill h ho h2 ?_ fun e he => ha.1.2 e he
        rw [← hm]; exact codeLoaded_maker h.quiet.inv _
    · exact ho

theorem sound_run (ops : List Op) : ∀ s : St, Sound s → Sound (ops.foldl (fun s op => (s.step op).2) s) := by
  induction ops with
  | nil => intro s h; exact h
  | cons op ops ih => intro s h; exact ih _ (sound_step h op)

theorem objs_run (ops : List Op) : ∀ s : St, Sound s → Objs s s.entries → Obeys s ops →
    Objs (ops.foldl (fun s op => (s.step op).2) s) (ops.foldl (fun s op => (s.step op).2) s).entries := by
  induction ops with
  | nil => intro s _ h _; exact h
  | cons op ops ih => intro s h ho hob; exact ih _ (sound_step h op) (objs_step h ho hob.1) hob.2

end Verif.PluginCode
