import Verif.Lemmas.SortedMap
import Verif.Spec.Plugin
import Mathlib.Tactic.Common
namespace Verif.Plugin
open Verif.SMap Verif.Spec.Plugin

/-- Number of plug-in objects that point to a record. -/
def St.count (s : St) (d : Nat) : Nat := s.slots.countP (·.ptr == some d)

/-- The sections a call can still have to do; where the object is closed already. -/
def TodoOk (sl : Slot) : Prop :=
  sl.todo = [] ∨ (∃ n f, sl.todo = [.byName n f]) ∨ sl.todo = [.release] ∨ (∃ b l, sl.todo = [.release, .load b l]) ∨
  (∃ src, sl.todo = [.release, .grab src]) ∨
  (sl.ptr = none ∧ ((∃ b l, sl.todo = [.load b l]) ∨ ∃ src, sl.todo = [.grab src]))

structure Inv (s : St) : Prop where
  bad : s.bad = false
  sorted : Sorted s.map
  fresh : ∀ d, s.next ≤ d → s.heap d = none
  refs : ∀ d r, s.heap d = some r → r.refs = s.count d
  live : ∀ sl ∈ s.slots, ∀ d, sl.ptr = some d → s.heap d ≠ none
  map : ∀ n d, s.map.lookup n = some d ↔ ∃ r, s.heap d = some r ∧ r.name = n
  dyn : ∀ d r h, s.heap d = some r → r.lib = some h → 0 < r.refs ∧ Loaded s h
  inj : ∀ d d' r r' h, s.heap d = some r → s.heap d' = some r' → r.lib = some h → r'.lib = some h → d = d'
  libs : ∀ h, (.opened h ∈ s.log ∨ .closed h ∈ s.log) → h < s.libs
  held : ∀ h, Loaded s h → ∃ d r, s.heap d = some r ∧ r.lib = some h
  once : s.log.Nodup

/-- What the objects have to do. -/
def Todos (s : St) : Prop := ∀ sl ∈ s.slots, TodoOk sl

theorem count_set {s : St} {i : Nat} {sl : Slot} (h : s.slots[i]? = some sl) (a : Slot) (d : Nat) :
    (s.slots.set i a).countP (·.ptr == some d) + (if sl.ptr = some d then 1 else 0) =
      s.count d + if a.ptr = some d then 1 else 0 := by
  obtain ⟨hi, he⟩ := List.getElem?_eq_some_iff.1 h
  unfold St.count
  rw [List.countP_set hi, he]
  have hpos : sl.ptr = some d → 0 < s.slots.countP (·.ptr == some d) := by
    intro hp
    rw [List.countP_pos_iff]
    exact ⟨sl, List.mem_of_getElem? h, by simp [hp]⟩
  by_cases h1 : sl.ptr = some d
  · have := hpos h1
    simp only [h1, beq_self_eq_true, if_true]
    by_cases h2 : a.ptr = some d <;> simp [h2] <;> omega
  · by_cases h2 : a.ptr = some d <;> simp [h1, h2]

theorem mem_set {l : List Slot} {i : Nat} {a x : Slot} (h : x ∈ l.set i a) : x = a ∨ x ∈ l :=
  (List.mem_or_eq_of_mem_set h).symm

theorem count_pos {s : St} {i : Nat} {sl : Slot} {d : Nat} (h : s.slots[i]? = some sl) (hp : sl.ptr = some d) :
    0 < s.count d := by
  unfold St.count
  rw [List.countP_pos_iff]
  exact ⟨sl, List.mem_of_getElem? h, by simp [hp]⟩

theorem inv_init : Inv {} := by
  constructor <;> simp [sorted_nil, lookup, Loaded]

/-- Changing what an object has to do. -/
theorem inv_setTodo {s : St} (hs : Inv s) {i : Nat} {sl : Slot} (hi : s.slots[i]? = some sl) (t : List Sec) :
    Inv (s.setTodo i t) := by
  have he : s.setTodo i t = { s with slots := s.slots.set i { sl with todo := t } } := by
    unfold St.setTodo; rw [hi]
  rw [he]
  have hc : ∀ d, (s.slots.set i { sl with todo := t }).countP (·.ptr == some d) = s.count d := by
    intro d
    have := count_set hi { sl with todo := t } d
    simp only at this
    omega
  exact {
    bad := hs.bad, sorted := hs.sorted, fresh := hs.fresh, map := hs.map, dyn := hs.dyn, inj := hs.inj, libs := hs.libs
    held := hs.held, once := hs.once
    refs := fun d r h => (hs.refs d r h).trans (hc d).symm
    live := fun x hx d hd => by
      rcases mem_set hx with rfl | hx
      · exact hs.live sl (List.mem_of_getElem? hi) d hd
      · exact hs.live x hx d hd }

theorem todos_set {s s' : St} (ht : Todos s) {i : Nat} {a : Slot} (he : s'.slots = s.slots.set i a) (ha : TodoOk a) :
    Todos s' := by
  intro x hx
  rw [he] at hx
  rcases mem_set hx with rfl | hx
  · exact ha
  · exact ht x hx

theorem slots_setTodo {s : St} {i : Nat} {sl : Slot} (hi : s.slots[i]? = some sl) (t : List Sec) :
    (s.setTodo i t).slots = s.slots.set i { sl with todo := t } := by
  unfold St.setTodo; rw [hi]

theorem slots_addRef {s : St} {i : Nat} {sl : Slot} (hi : s.slots[i]? = some sl) {d : Nat} {r : Rec}
    (hd : s.heap d = some r) : (s.addRef i d).slots = s.slots.set i { sl with ptr := some d } := by
  unfold St.addRef St.setRec St.setPtr
  rw [hd]
  simp only [hi]

/-- A closed object with nothing to do gets a reference. -/
theorem inv_addRef {s : St} {i : Nat} {d : Nat} {r : Rec} (hi : s.slots[i]? = some { ptr := none, todo := [] })
    (hd : s.heap d = some r)
    (hbad : s.bad = false) (hsorted : Sorted s.map) (hfresh : ∀ d, s.next ≤ d → s.heap d = none)
    (hrefs : ∀ d r, s.heap d = some r → r.refs = s.count d)
    (hlive : ∀ sl ∈ s.slots, ∀ d, sl.ptr = some d → s.heap d ≠ none)
    (hmap : ∀ n d, s.map.lookup n = some d ↔ ∃ r, s.heap d = some r ∧ r.name = n)
    (hdyn : ∀ d' r h, s.heap d' = some r → r.lib = some h → (d' ≠ d → 0 < r.refs) ∧ Loaded s h)
    (hinj : ∀ d d' r r' h, s.heap d = some r → s.heap d' = some r' → r.lib = some h → r'.lib = some h → d = d')
    (hlibs : ∀ h, (.opened h ∈ s.log ∨ .closed h ∈ s.log) → h < s.libs)
    (hheld : ∀ h, Loaded s h → ∃ d r, s.heap d = some r ∧ r.lib = some h)
    (honce : s.log.Nodup) : Inv (s.addRef i d) := by
  have he : s.addRef i d = { s with
      heap := fun x => if x = d then some { r with refs := r.refs + 1 } else s.heap x
      slots := s.slots.set i { ptr := some d, todo := [] } } := by
    unfold St.addRef St.setRec St.setPtr
    rw [hd]
    simp only [hi]
  rw [he]
  have hc : ∀ x, (s.slots.set i { ptr := some d, todo := [] }).countP (·.ptr == some x) =
      s.count x + if d = x then 1 else 0 := by
    intro x
    have := count_set hi { ptr := some d, todo := [] } x
    simpa using this
  have hheap : ∀ x y, (if x = d then some { r with refs := r.refs + 1 } else s.heap x) = some y →
      ∃ z, s.heap x = some z ∧ y.lib = z.lib ∧ y.name = z.name ∧ (x = d → y.refs = z.refs + 1) ∧ (x ≠ d → y.refs = z.refs) := by
    intro x y hy
    split at hy
    next hx => subst hx; cases hy; exact ⟨r, hd, rfl, rfl, fun _ => rfl, fun h => absurd rfl h⟩
    next hx => exact ⟨y, hy, rfl, rfl, fun h => absurd h hx, fun _ => rfl⟩
  have hheap' : ∀ x z, s.heap x = some z → ∃ y, (if x = d then some { r with refs := r.refs + 1 } else s.heap x) = some y ∧
      y.lib = z.lib ∧ y.name = z.name := by
    intro x z hz
    split
    next hx => subst hx; rw [hd] at hz; cases hz; exact ⟨_, rfl, rfl, rfl⟩
    next hx => exact ⟨z, hz, rfl, rfl⟩
  refine {
    bad := hbad, sorted := hsorted, fresh := ?_, refs := ?_, live := ?_, map := ?_, dyn := ?_, inj := ?_
    libs := hlibs, held := ?_, once := honce }
  · intro x hx
    simp only
    rw [if_neg]
    · exact hfresh x hx
    · rintro rfl; rw [hfresh x hx] at hd; cases hd
  · intro x y hy
    obtain ⟨z, hz, -, -, h1, h2⟩ := hheap x y hy
    show y.refs = List.countP _ _
    rw [hc x, ← hrefs x z hz]
    by_cases hx : x = d
    · subst hx; simp [h1 rfl]
    · rw [h2 hx, if_neg (Ne.symm hx)]; rfl
  · intro x hx e hxe
    simp only
    rcases mem_set hx with rfl | hx
    · simp only [Option.some.injEq] at hxe; subst hxe; simp
    · split
      · simp
      · exact hlive x hx e hxe
  · intro n x
    rw [hmap]
    constructor
    · rintro ⟨z, hz, hn⟩
      obtain ⟨y, hy, -, hyn⟩ := hheap' x z hz
      exact ⟨y, hy, by rw [hyn, hn]⟩
    · rintro ⟨y, hy, hn⟩
      obtain ⟨z, hz, -, hzn, -⟩ := hheap x y hy
      exact ⟨z, hz, by rw [← hzn, hn]⟩
  · intro x y h hy hl
    obtain ⟨z, hz, hzl, -, h1, h2⟩ := hheap x y hy
    obtain ⟨g1, g2⟩ := hdyn x z h hz (by rw [← hzl, hl])
    refine ⟨?_, g2⟩
    by_cases hx : x = d
    · rw [h1 hx]; omega
    · rw [h2 hx]; exact g1 hx
  · intro x x' y y' h hy hy' hl hl'
    obtain ⟨z, hz, hzl, -⟩ := hheap x y hy
    obtain ⟨z', hz', hzl', -⟩ := hheap x' y' hy'
    exact hinj x x' z z' h hz hz' (by rw [← hzl, hl]) (by rw [← hzl', hl'])
  · intro h hL
    obtain ⟨x, z, hz, hl⟩ := hheld h hL
    obtain ⟨y, hy, hyl, -⟩ := hheap' x z hz
    exact ⟨x, y, hy, by rw [hyl, hl]⟩

theorem Inv.addRef {s : St} (hs : Inv s) {i d : Nat} {r : Rec} (hi : s.slots[i]? = some { ptr := none, todo := [] })
    (hd : s.heap d = some r) : Inv (s.addRef i d) :=
  inv_addRef hi hd hs.bad hs.sorted hs.fresh hs.refs hs.live hs.map
    (fun d' r h h1 h2 => ⟨fun _ => (hs.dyn d' r h h1 h2).1, (hs.dyn d' r h h1 h2).2⟩) hs.inj hs.libs hs.held hs.once

/-- `release_data` of an object that has `t` to do afterwards. -/
theorem inv_release {s : St} (hs : Inv s) {i : Nat} {sl : Slot} (hi : s.slots[i]? = some sl)
    : Inv (s.release i) ∧ (s.release i).slots = s.slots.set i { sl with ptr := none } := by
  unfold St.release
  rw [hi]
  simp only [Option.bind_some]
  cases hp : sl.ptr with
  | none =>
    refine ⟨hs, ?_⟩
    obtain ⟨hlt, he⟩ := List.getElem?_eq_some_iff.1 hi
    have : ({ sl with ptr := none } : Slot) = sl := by cases sl; simp only at hp; rw [hp]
    simp only
    rw [this, ← he, List.set_getElem_self]
  | some d =>
    simp only
    cases hd : s.heap d with
    | none => exact absurd hd (hs.live sl (List.mem_of_getElem? hi) d hp)
    | some r =>
      simp only
      have hrc := hs.refs d r hd
      have hpos := count_pos hi hp
      have hc : ∀ x, (s.slots.set i { sl with ptr := none }).countP (·.ptr == some x) + (if d = x then 1 else 0) =
          s.count x := by
        intro x
        have := count_set hi { sl with ptr := none } x
        simpa [hp] using this
      have hset : ∀ r', ((s.setRec d r').setPtr i none) = { s with
          heap := fun x => if x = d then r' else s.heap x
          slots := s.slots.set i { sl with ptr := none } } := by
        intro r'
        unfold St.setRec St.setPtr
        simp only [hi]
      -- the record stays, with one reference less
      have stays : (r.refs = 1 → r.lib = none) → Inv ((s.setRec d (some { r with refs := r.refs - 1 })).setPtr i none) ∧
          ((s.setRec d (some { r with refs := r.refs - 1 })).setPtr i none).slots = s.slots.set i { sl with ptr := none } := by
        intro hstay
        rw [hset]
        refine ⟨?_, rfl⟩
        have hheap : ∀ x y, (if x = d then some { r with refs := r.refs - 1 } else s.heap x) = some y →
            ∃ z, s.heap x = some z ∧ y.lib = z.lib ∧ y.name = z.name ∧ (x = d → y.refs = z.refs - 1 ∧ z = r) ∧ (x ≠ d → y.refs = z.refs) := by
          intro x y hy
          split at hy
          next hx => subst hx; cases hy; exact ⟨r, hd, rfl, rfl, fun _ => ⟨rfl, rfl⟩, fun h => absurd rfl h⟩
          next hx => exact ⟨y, hy, rfl, rfl, fun h => absurd h hx, fun _ => rfl⟩
        have hheap' : ∀ x z, s.heap x = some z → ∃ y, (if x = d then some { r with refs := r.refs - 1 } else s.heap x) = some y ∧
            y.lib = z.lib ∧ y.name = z.name := by
          intro x z hz
          split
          next hx => subst hx; rw [hd] at hz; cases hz; exact ⟨_, rfl, rfl, rfl⟩
          next hx => exact ⟨z, hz, rfl, rfl⟩
        refine {
          bad := hs.bad, sorted := hs.sorted, fresh := ?_, refs := ?_, live := ?_, map := ?_, dyn := ?_, inj := ?_
          libs := hs.libs, held := ?_, once := hs.once }
        · intro x hx
          simp only
          rw [if_neg]
          · exact hs.fresh x hx
          · rintro rfl; rw [hs.fresh x hx] at hd; cases hd
        · intro x y hy
          obtain ⟨z, hz, -, -, h1, h2⟩ := hheap x y hy
          show y.refs = (s.slots.set i { sl with ptr := none }).countP (·.ptr == some x)
          have h3 := hc x
          rw [← hs.refs x z hz] at h3
          by_cases hx : x = d
          · subst hx
            obtain ⟨h4, rfl⟩ := h1 rfl
            simp only [if_true] at h3
            omega
          · rw [if_neg (Ne.symm hx)] at h3
            rw [h2 hx]
            omega
        · intro x hx e hxe
          simp only
          split
          · simp
          · rcases mem_set hx with rfl | hx
            · cases hxe
            · exact hs.live x hx e hxe
        · intro n x
          rw [hs.map]
          constructor
          · rintro ⟨z, hz, hn⟩
            obtain ⟨y, hy, -, hyn⟩ := hheap' x z hz
            exact ⟨y, hy, by rw [hyn, hn]⟩
          · rintro ⟨y, hy, hn⟩
            obtain ⟨z, hz, -, hzn, -⟩ := hheap x y hy
            exact ⟨z, hz, by rw [← hzn, hn]⟩
        · intro x y h hy hl
          obtain ⟨z, hz, hzl, -, h1, h2⟩ := hheap x y hy
          obtain ⟨g1, g2⟩ := hs.dyn x z h hz (by rw [← hzl, hl])
          refine ⟨?_, g2⟩
          by_cases hx : x = d
          · obtain ⟨h4, rfl⟩ := h1 hx
            have : z.refs ≠ 1 := fun h5 => by rw [← hzl, hl] at hstay; cases hstay h5
            omega
          · rw [h2 hx]; exact g1
        · intro x x' y y' h hy hy' hl hl'
          obtain ⟨z, hz, hzl, -⟩ := hheap x y hy
          obtain ⟨z', hz', hzl', -⟩ := hheap x' y' hy'
          exact hs.inj x x' z z' h hz hz' (by rw [← hzl, hl]) (by rw [← hzl', hl'])
        · intro h hL
          obtain ⟨x, z, hz, hl⟩ := hs.held h hL
          obtain ⟨y, hy, hyl, -⟩ := hheap' x z hz
          exact ⟨x, y, hy, by rw [hyl, hl]⟩
      split
      next h1 =>
        split
        next hl =>
          have := stays fun _ => hl
          rw [h1] at this
          exact this
        next h hl =>
          rw [hset]
          refine ⟨?_, rfl⟩
          obtain ⟨-, hop, hcl⟩ := hs.dyn d r h hd hl
          have hheap : ∀ x y, (if x = d then none else s.heap x) = some y → x ≠ d ∧ s.heap x = some y := by
            intro x y hy
            split at hy
            · cases hy
            next hx => exact ⟨hx, hy⟩
          refine {
            bad := hs.bad, sorted := sorted_erase hs.sorted _, fresh := ?_, refs := ?_, live := ?_, map := ?_
            dyn := ?_, inj := ?_, libs := ?_, held := ?_, once := ?_ }
          · intro x hx
            simp only
            split
            · rfl
            · exact hs.fresh x hx
          · intro x y hy
            obtain ⟨hx, hy⟩ := hheap x y hy
            show y.refs = (s.slots.set i { sl with ptr := none }).countP (·.ptr == some x)
            have h3 := hc x
            rw [if_neg (Ne.symm hx), ← hs.refs x y hy] at h3
            omega
          · intro x hx e hxe
            simp only
            rw [if_neg]
            · rcases mem_set hx with rfl | hx
              · cases hxe
              · exact hs.live x hx e hxe
            · rintro rfl
              have h3 := hc e
              rw [if_pos rfl] at h3
              have : 0 < (s.slots.set i { sl with ptr := none }).countP (·.ptr == some e) := by
                rw [List.countP_pos_iff]; exact ⟨x, hx, by simp [hxe]⟩
              omega
          · intro n x
            simp only [lookup_erase]
            constructor
            · intro hx
              split at hx
              · cases hx
              next hn =>
                obtain ⟨z, hz, hzn⟩ := (hs.map n x).1 hx
                refine ⟨z, ?_, hzn⟩
                rw [if_neg]
                · exact hz
                · rintro rfl; rw [hd] at hz; cases hz; exact hn hzn.symm
            · rintro ⟨y, hy, hn⟩
              obtain ⟨hx, hy⟩ := hheap x y hy
              rw [if_neg]
              · exact (hs.map n x).2 ⟨y, hy, hn⟩
              · intro hnn
                have h4 := (hs.map n x).2 ⟨y, hy, hn⟩
                have h5 := (hs.map n d).2 ⟨r, hd, hnn.symm⟩
                rw [h4] at h5
                cases h5
                exact hx rfl
          · intro x y g hy hyl
            obtain ⟨hx, hy2⟩ := hheap x y hy
            obtain ⟨g1, g2, g3⟩ := hs.dyn x y g hy2 hyl
            refine ⟨g1, List.mem_append_left _ g2, ?_⟩
            intro hm
            rcases List.mem_append.1 hm with hm | hm
            · exact g3 hm
            · simp only [List.mem_singleton, Ev.closed.injEq] at hm
              subst hm
              exact hx (hs.inj x d y r g hy2 hd hyl hl)
          · intro x x' y y' g hy hy' hl1 hl2
            exact hs.inj x x' y y' g (hheap x y hy).2 (hheap x' y' hy').2 hl1 hl2
          · intro g hg
            simp only [List.mem_append, List.mem_singleton, reduceCtorEq, or_false, Ev.closed.injEq] at hg
            rcases hg with hg | hg | rfl
            · exact hs.libs g (.inl hg)
            · exact hs.libs g (.inr hg)
            · exact hs.libs g (.inl hop)
          · intro g ⟨hg1, hg2⟩
            simp only [List.mem_append, List.mem_singleton, reduceCtorEq, or_false, Ev.closed.injEq, not_or] at hg1 hg2
            obtain ⟨x, z, hz, hzl⟩ := hs.held g ⟨hg1, hg2.1⟩
            refine ⟨x, z, ?_, hzl⟩
            simp only
            rw [if_neg]
            · exact hz
            · rintro rfl; rw [hd] at hz; cases hz; rw [hl] at hzl; cases hzl; exact hg2.2 rfl
          · rw [List.nodup_append]
            refine ⟨hs.once, by simp, ?_⟩
            intro a ha b hb
            simp only [List.mem_singleton] at hb
            subst hb
            rintro rfl
            exact hcl ha
      next h1 =>
        exact stays fun h => absurd h h1

/-- `open_file` on a closed object with nothing else to do. -/
theorem inv_load {s : St} (hs : Inv s) {i : Nat} (hi : s.slots[i]? = some { ptr := none, todo := [] }) (base : Bytes)
    (loads : Bool) : Inv (s.load i base loads) := by
  unfold St.load
  cases hl : s.map.lookup base with
  | some d =>
    obtain ⟨r, hr, -⟩ := (hs.map base d).1 hl
    exact hs.addRef hi hr
  | none =>
    simp only
    split
    · have hnext := hs.fresh s.next (Nat.le_refl _)
      have hlog : ∀ h, Loaded s h → h ≠ s.libs := fun h hL => Nat.ne_of_lt (hs.libs h (.inl hL.1))
      have hno : ∀ r, s.heap s.next ≠ some r := by simp [hnext]
      have hcount : s.count s.next = 0 := by
        unfold St.count
        rw [List.countP_eq_zero]
        intro sl hsl hp
        exact hs.live sl hsl s.next (by simpa using hp) hnext
      have hheap : ∀ x y, (if x = s.next then some { lib := some s.libs, name := base, refs := 0 } else s.heap x) = some y →
          (x = s.next ∧ y = { lib := some s.libs, name := base, refs := 0 }) ∨ (x ≠ s.next ∧ s.heap x = some y) := by
        intro x y hy
        split at hy
        next hx => cases hy; exact .inl ⟨hx, rfl⟩
        next hx => exact .inr ⟨hx, hy⟩
      have hheap' : ∀ x z, s.heap x = some z → (if x = s.next then some { lib := some s.libs, name := base, refs := 0 } else s.heap x) = some z := by
        intro x z hz
        rw [if_neg]
        · exact hz
        · rintro rfl; exact hno z hz
      refine inv_addRef (r := { lib := some s.libs, name := base, refs := 0 }) hi (by simp) hs.bad
        (sorted_insert hs.sorted _ _) ?_ ?_ ?_ ?_ ?_ ?_ ?_ ?_ ?_
      · intro x hx
        simp only at hx ⊢
        rw [if_neg (by omega)]
        exact hs.fresh x (by omega)
      · intro x y hy
        rcases hheap x y hy with ⟨rfl, rfl⟩ | ⟨hx, hy⟩
        · exact hcount.symm
        · exact hs.refs x y hy
      · intro sl hsl x hx
        obtain ⟨z, hz⟩ := Option.ne_none_iff_exists'.1 (hs.live sl hsl x hx)
        simp only
        rw [hheap' x z hz]
        simp
      · intro n x
        simp only [lookup_insert hs.sorted, hl, Option.none_or]
        constructor
        · intro h
          split at h
          next hn =>
            cases h
            exact ⟨_, if_pos rfl, hn.symm⟩
          next hn =>
            obtain ⟨z, hz, hzn⟩ := (hs.map n x).1 h
            exact ⟨z, hheap' x z hz, hzn⟩
        · rintro ⟨y, hy, hn⟩
          rcases hheap x y hy with ⟨rfl, rfl⟩ | ⟨hx, hy⟩
          · simp only at hn; subst hn; simp
          · have h1 := (hs.map n x).2 ⟨y, hy, hn⟩
            split
            next hn' => rw [hn', hl] at h1; cases h1
            · exact h1
      · intro x y h hy hyl
        rcases hheap x y hy with ⟨rfl, rfl⟩ | ⟨hx, hy⟩
        · simp only [Option.some.injEq] at hyl
          subst hyl
          refine ⟨fun h => absurd rfl h, by simp, ?_⟩
          intro hm
          simp only [List.mem_append, List.mem_singleton, reduceCtorEq, or_false] at hm
          exact Nat.lt_irrefl _ (hs.libs _ (.inr hm))
        · obtain ⟨g1, g2, g3⟩ := hs.dyn x y h hy hyl
          exact ⟨fun _ => g1, List.mem_append_left _ g2, by simpa using g3⟩
      · intro x x' y y' h hy hy' hl1 hl2
        rcases hheap x y hy with ⟨rfl, rfl⟩ | ⟨hx, hy⟩ <;> rcases hheap x' y' hy' with ⟨rfl, rfl⟩ | ⟨hx', hy'⟩
        · rfl
        · simp only [Option.some.injEq] at hl1
          subst hl1
          exact absurd rfl (hlog _ (hs.dyn x' y' _ hy' hl2).2)
        · simp only [Option.some.injEq] at hl2
          subst hl2
          exact absurd rfl (hlog _ (hs.dyn x y _ hy hl1).2)
        · exact hs.inj x x' y y' h hy hy' hl1 hl2
      · intro h hh
        simp only [List.mem_append, List.mem_singleton, reduceCtorEq, or_false, Ev.opened.injEq] at hh
        show h < s.libs + 1
        rcases hh with (hh | rfl) | hh
        · exact Nat.lt_succ_of_lt (hs.libs h (.inl hh))
        · exact Nat.lt_succ_self _
        · exact Nat.lt_succ_of_lt (hs.libs h (.inr hh))
      · intro h ⟨h1, h2⟩
        simp only [List.mem_append, List.mem_singleton, reduceCtorEq, or_false, Ev.opened.injEq] at h1 h2
        rcases h1 with h1 | rfl
        · obtain ⟨x, z, hz, hzl⟩ := hs.held h ⟨h1, h2⟩
          exact ⟨x, z, hheap' x z hz, hzl⟩
        · exact ⟨s.next, _, if_pos rfl, rfl⟩
      · show (s.log ++ [Ev.opened s.libs]).Nodup
        rw [List.nodup_append]
        refine ⟨hs.once, by simp, ?_⟩
        intro a ha b hb
        simp only [List.mem_singleton] at hb
        subst hb
        rintro rfl
        exact Nat.lt_irrefl _ (hs.libs _ (.inl ha))
    · exact hs

theorem inv_static {s : St} (hs : Inv s) (name : Bytes) (hl : s.map.lookup name = none) :
    Inv { s with
      heap := fun x => if x = s.next then some { lib := none, name := name, refs := 0 } else s.heap x
      next := s.next + 1
      map := s.map.insert name s.next } := by
  have hnext := hs.fresh s.next (Nat.le_refl _)
  have hno : ∀ r, s.heap s.next ≠ some r := by simp [hnext]
  have hheap : ∀ x y, (if x = s.next then some { lib := none, name := name, refs := 0 } else s.heap x) = some y →
      (x = s.next ∧ y = { lib := none, name := name, refs := 0 }) ∨ (x ≠ s.next ∧ s.heap x = some y) := by
    intro x y hy
    split at hy
    next hx => cases hy; exact .inl ⟨hx, rfl⟩
    next hx => exact .inr ⟨hx, hy⟩
  have hheap' : ∀ x z, s.heap x = some z → (if x = s.next then some { lib := none, name := name, refs := 0 } else s.heap x) = some z := by
    intro x z hz
    rw [if_neg]
    · exact hz
    · rintro rfl; exact hno z hz
  refine {
    bad := hs.bad, sorted := sorted_insert hs.sorted _ _, fresh := ?_, refs := ?_, live := ?_, map := ?_, dyn := ?_, inj := ?_
    libs := hs.libs, held := ?_, once := hs.once }
  · intro x hx
    simp only at hx ⊢
    rw [if_neg (by omega)]
    exact hs.fresh x (by omega)
  · intro x y hy
    rcases hheap x y hy with ⟨rfl, rfl⟩ | ⟨hx, hy⟩
    · symm
      show s.slots.countP _ = 0
      rw [List.countP_eq_zero]
      intro sl hsl hp
      exact hs.live sl hsl s.next (by simpa using hp) hnext
    · exact hs.refs x y hy
  · intro sl hsl x hx
    obtain ⟨z, hz⟩ := Option.ne_none_iff_exists'.1 (hs.live sl hsl x hx)
    simp only
    rw [hheap' x z hz]
    simp
  · intro n x
    simp only [lookup_insert hs.sorted, hl, Option.none_or]
    constructor
    · intro h
      split at h
      next hn =>
        cases h
        exact ⟨_, if_pos rfl, hn.symm⟩
      next hn =>
        obtain ⟨z, hz, hzn⟩ := (hs.map n x).1 h
        exact ⟨z, hheap' x z hz, hzn⟩
    · rintro ⟨y, hy, hn⟩
      rcases hheap x y hy with ⟨rfl, rfl⟩ | ⟨hx, hy⟩
      · simp only at hn; subst hn; simp
      · have h1 := (hs.map n x).2 ⟨y, hy, hn⟩
        split
        next hn' => rw [hn', hl] at h1; cases h1
        · exact h1
  · intro x y h hy hyl
    rcases hheap x y hy with ⟨rfl, rfl⟩ | ⟨hx, hy⟩
    · cases hyl
    · exact hs.dyn x y h hy hyl
  · intro x x' y y' h hy hy' hl1 hl2
    rcases hheap x y hy with ⟨rfl, rfl⟩ | ⟨hx, hy⟩
    · cases hl1
    · rcases hheap x' y' hy' with ⟨rfl, rfl⟩ | ⟨hx', hy'⟩
      · cases hl2
      · exact hs.inj x x' y y' h hy hy' hl1 hl2
  · intro h hL
    obtain ⟨x, z, hz, hzl⟩ := hs.held h hL
    exact ⟨x, z, hheap' x z hz, hzl⟩

theorem get_setTodo {s : St} {i : Nat} {sl : Slot} (hi : s.slots[i]? = some sl) (t : List Sec) :
    (s.setTodo i t).slots[i]? = some { sl with todo := t } := by
  have hlt := (List.getElem?_eq_some_iff.1 hi).1
  unfold St.setTodo
  rw [hi]
  simp [hlt]

theorem inv_create {s : St} (hs : Inv s) (sl : Slot) (hp : sl.ptr = none) :
    Inv { s with slots := s.slots ++ [sl] } := by
  have hc : ∀ d, (s.slots ++ [sl]).countP (·.ptr == some d) = s.count d := by
    intro d; unfold St.count; simp [hp]
  exact {
    bad := hs.bad, sorted := hs.sorted, fresh := hs.fresh, map := hs.map, dyn := hs.dyn, inj := hs.inj, libs := hs.libs
    held := hs.held, once := hs.once
    refs := fun d r h => (hs.refs d r h).trans (hc d).symm
    live := fun x hx d hd => by
      rcases List.mem_append.1 hx with hx | hx
      · exact hs.live x hx d hd
      · rw [List.mem_singleton.1 hx, hp] at hd; cases hd }

theorem todos_create {s : St} (ht : Todos s) (sl : Slot) (h : TodoOk sl) : Todos { s with slots := s.slots ++ [sl] } := by
  intro x hx
  rcases List.mem_append.1 hx with hx | hx
  · exact ht x hx
  · rw [List.mem_singleton.1 hx]; exact h

theorem inv_stuck {s : St} (hs : Inv s) : Inv { s with stuck := true } :=
  { bad := hs.bad, sorted := hs.sorted, fresh := hs.fresh, map := hs.map, dyn := hs.dyn, inj := hs.inj, libs := hs.libs
    held := hs.held, once := hs.once, refs := hs.refs, live := hs.live }

theorem load_todos {s : St} (hs : Inv s) (ht : Todos s) {i : Nat} (hi : s.slots[i]? = some { ptr := none, todo := [] })
    (base : Bytes) (loads : Bool) : Todos (s.load i base loads) := by
  unfold St.load
  cases hl : s.map.lookup base with
  | some d =>
    obtain ⟨r, hr, -⟩ := (hs.map base d).1 hl
    exact todos_set ht (slots_addRef hi hr) (.inl rfl)
  | none =>
    simp only
    split
    · have := slots_addRef (s := { s with
          heap := fun x => if x = s.next then some { lib := some s.libs, name := base, refs := 0 } else s.heap x
          next := s.next + 1
          libs := s.libs + 1
          map := s.map.insert base s.next
          log := s.log ++ [Ev.opened s.libs] }) (d := s.next) hi (if_pos rfl)
      exact todos_set ht this (.inl rfl)
    · exact ht

theorem inv_step {s : St} (hs : Inv s) (htd : Todos s) (a : Act) : Inv (s.step a) ∧ Todos (s.step a) := by
  unfold St.step
  split
  · exact ⟨hs, htd⟩
  · cases a with
    | create c =>
      cases c with
      | none => exact ⟨inv_create hs _ rfl, todos_create htd _ (.inl rfl)⟩
      | some src =>
        exact ⟨inv_create hs _ rfl, todos_create htd _ (.inr (.inr (.inr (.inr (.inr ⟨rfl, .inr ⟨src, rfl⟩⟩)))))⟩
    | call i c =>
      simp only
      split
      next p hi =>
        refine ⟨inv_setTodo hs hi _, todos_set htd (slots_setTodo hi _) ?_⟩
        cases c with
        | openName n f => exact .inr (.inl ⟨n, f, rfl⟩)
        | openFile b l => exact .inr (.inr (.inr (.inl ⟨b, l, rfl⟩)))
        | close => exact .inr (.inr (.inl rfl))
        | assign src => exact .inr (.inr (.inr (.inr (.inl ⟨src, rfl⟩))))
      · exact ⟨hs, htd⟩
    | sec i =>
      simp only
      split
      next p x rest hi =>
        have hok := htd _ (List.mem_of_getElem? hi)
        have hinv := inv_setTodo hs hi rest
        have hbase : TodoOk { ptr := p, todo := rest } → Todos (s.setTodo i rest) :=
          fun h => todos_set htd (slots_setTodo hi _) h
        have hget := get_setTodo hi rest
        have rel : TodoOk { ptr := none, todo := rest } →
            Inv ((s.setTodo i rest).release i) ∧ Todos ((s.setTodo i rest).release i) := by
          intro h
          obtain ⟨h1, h2⟩ := inv_release hinv hget
          refine ⟨h1, ?_⟩
          intro y hy
          rw [h2, slots_setTodo hi, List.set_set] at hy
          rcases mem_set hy with rfl | hy
          · exact h
          · exact htd y hy
        unfold TodoOk at hok
        simp only [List.cons.injEq, reduceCtorEq, false_or] at hok
        rcases hok with ⟨n, f, rfl, rfl⟩ | ⟨rfl, rfl⟩ | ⟨b, l, rfl, rfl⟩ | ⟨src, rfl, rfl⟩ | ⟨rfl, ⟨b, l, rfl, rfl⟩ | ⟨src, rfl, rfl⟩⟩
        · have htd' := hbase (.inl rfl)
          generalize s.setTodo i [] = s' at hinv hget htd'
          simp only [St.exec, St.byName]
          split
          next d hd =>
            split
            · exact ⟨inv_stuck hinv, htd'⟩
            next hp =>
              rw [hget] at hp
              simp at hp
              subst hp
              obtain ⟨r, hr, -⟩ := (hinv.map n d).1 hd
              exact ⟨hinv.addRef hget hr, todos_set htd' (slots_addRef hget hr) (.inl rfl)⟩
          · split
            · exact ⟨hinv, htd'⟩
            next b l =>
              exact ⟨inv_setTodo hinv hget _, todos_set htd' (slots_setTodo hget _) (.inr (.inr (.inr (.inl ⟨b, l, rfl⟩))))⟩
        · exact rel (.inl rfl)
        · exact rel (.inr (.inr (.inr (.inr (.inr ⟨rfl, .inl ⟨b, l, rfl⟩⟩)))))
        · exact rel (.inr (.inr (.inr (.inr (.inr ⟨rfl, .inr ⟨src, rfl⟩⟩)))))
        · exact ⟨inv_load hinv hget b l, load_todos hinv (hbase (.inl rfl)) hget b l⟩
        · have htd' := hbase (.inl rfl)
          generalize s.setTodo i [] = s' at hinv hget htd'
          simp only [St.exec, St.grab]
          split
          · have : s'.setPtr i none = s' := by
              unfold St.setPtr
              rw [hget]
              simp only
              have hlt := (List.getElem?_eq_some_iff.1 hget)
              congr 1
              rw [← hlt.2, List.set_getElem_self]
            rw [this]
            exact ⟨hinv, htd'⟩
          next d hd =>
            obtain ⟨sl, hsl, hp⟩ := Option.bind_eq_some_iff.1 hd
            obtain ⟨r, hr⟩ := Option.ne_none_iff_exists'.1 (hinv.live sl (List.mem_of_getElem? hsl) d hp)
            exact ⟨hinv.addRef hget hr, todos_set htd' (slots_addRef hget hr) (.inl rfl)⟩
      · exact ⟨hs, htd⟩
    | addStatic name =>
      simp only
      split
      · exact ⟨hs, htd⟩
      next hl => exact ⟨inv_static hs name hl, htd⟩

/-- A record without a library stays in the map. -/
theorem static_addRef {s : St} {i d : Nat} {n : Bytes} {x : Nat} (hx : s.map.lookup n = some x)
    (hr : ∃ r, s.heap x = some r ∧ r.lib = none) :
    (s.addRef i d).map.lookup n = some x ∧ ∃ r, (s.addRef i d).heap x = some r ∧ r.lib = none := by
  have hp : ∀ (s : St) p, (s.setPtr i p).map = s.map ∧ (s.setPtr i p).heap = s.heap := by
    intro s p; unfold St.setPtr; split <;> exact ⟨rfl, rfl⟩
  unfold St.addRef
  split
  · exact ⟨hx, hr⟩
  next r0 hd =>
    rw [(hp _ _).1, (hp _ _).2]
    refine ⟨hx, ?_⟩
    simp only [St.setRec]
    obtain ⟨r, h1, h2⟩ := hr
    split
    next he => subst he; rw [h1] at hd; cases hd; exact ⟨_, rfl, h2⟩
    · exact ⟨r, h1, h2⟩

theorem static_step {s : St} (hs : Inv s) {n : Bytes} {x : Nat} (hx : s.map.lookup n = some x)
    (hr : ∃ r, s.heap x = some r ∧ r.lib = none) (a : Act) :
    (s.step a).map.lookup n = some x ∧ ∃ r, (s.step a).heap x = some r ∧ r.lib = none := by
  have hne : ∀ r, s.heap x = some r → x ≠ s.next := by
    rintro r h rfl; rw [hs.fresh _ (Nat.le_refl _)] at h; cases h
  have ht : ∀ i t, (s.setTodo i t).map = s.map ∧ (s.setTodo i t).heap = s.heap ∧ (s.setTodo i t).next = s.next := by
    intro i t; unfold St.setTodo; split <;> exact ⟨rfl, rfl, rfl⟩
  have hp : ∀ (s : St) i p, (s.setPtr i p).map = s.map ∧ (s.setPtr i p).heap = s.heap := by
    intro s i p; unfold St.setPtr; split <;> exact ⟨rfl, rfl⟩
  obtain ⟨r, h1, h2⟩ := hr
  unfold St.step
  split
  · exact ⟨hx, r, h1, h2⟩
  · cases a with
    | create c => cases c <;> exact ⟨hx, r, h1, h2⟩
    | call i c =>
      simp only
      split
      · rw [(ht _ _).1, (ht _ _).2.1]; exact ⟨hx, r, h1, h2⟩
      · exact ⟨hx, r, h1, h2⟩
    | sec i =>
      simp only
      split
      next p sec rest hi =>
        have hinv := inv_setTodo hs hi rest
        have hx' : (s.setTodo i rest).map.lookup n = some x := by rw [(ht _ _).1]; exact hx
        have h1' : (s.setTodo i rest).heap x = some r := by rw [(ht _ _).2.1]; exact h1
        have hne' := hne r h1
        rw [← (ht i rest).2.2] at hne'
        generalize s.setTodo i rest = s' at hinv hx' h1' hne'
        cases sec with
        | byName m f =>
          simp only [St.exec, St.byName]
          split
          · split
            · exact ⟨hx', r, h1', h2⟩
            · exact static_addRef hx' ⟨r, h1', h2⟩
          · split
            · exact ⟨hx', r, h1', h2⟩
            · unfold St.setTodo; split <;> exact ⟨hx', r, h1', h2⟩
        | release =>
          simp only [St.exec, St.release]
          split
          · exact ⟨hx', r, h1', h2⟩
          next d _ =>
            split
            · exact ⟨hx', r, h1', h2⟩
            next r0 hd =>
              have stays : ∀ k, ((s'.setRec d (some { r0 with refs := k })).setPtr i none).map.lookup n = some x ∧
                  ∃ r, ((s'.setRec d (some { r0 with refs := k })).setPtr i none).heap x = some r ∧ r.lib = none := by
                intro k
                rw [(hp _ _ _).1, (hp _ _ _).2]
                refine ⟨hx', ?_⟩
                simp only [St.setRec]
                split
                next he => subst he; rw [h1'] at hd; cases hd; exact ⟨_, rfl, h2⟩
                · exact ⟨r, h1', h2⟩
              split
              · split
                · exact stays 0
                next h hl =>
                  have hxd : x ≠ d := by rintro rfl; rw [h1'] at hd; cases hd; rw [h2] at hl; cases hl
                  simp only [(hp _ _ _).2, lookup_erase, St.setRec, if_neg hxd]
                  refine ⟨?_, r, h1', h2⟩
                  rw [if_neg]
                  · exact hx'
                  · intro hn
                    have := (hinv.map n d).2 ⟨r0, hd, hn.symm⟩
                    rw [hx'] at this
                    cases this
                    exact hxd rfl
              · exact stays _
        | load b l =>
          simp only [St.exec, St.load]
          split
          · exact static_addRef hx' ⟨r, h1', h2⟩
          next hl =>
            split
            · refine static_addRef ?_ ⟨r, ?_, h2⟩
              · simp only [lookup_insert hinv.sorted]
                split
                next hn => rw [hn, hl] at hx'; cases hx'
                · exact hx'
              · simp only
                rw [if_neg hne']
                exact h1'
            · exact ⟨hx', r, h1', h2⟩
        | grab src =>
          simp only [St.exec, St.grab]
          split
          · rw [(hp _ _ _).1, (hp _ _ _).2]; exact ⟨hx', r, h1', h2⟩
          · exact static_addRef hx' ⟨r, h1', h2⟩
      · exact ⟨hx, r, h1, h2⟩
    | addStatic name =>
      simp only
      split
      · exact ⟨hx, r, h1, h2⟩
      next hl =>
        refine ⟨?_, r, ?_, h2⟩
        · simp only [lookup_insert hs.sorted]
          split
          next hn => rw [hn, hl] at hx; cases hx
          · exact hx
        · simp only
          rw [if_neg (hne r h1)]
          exact h1

theorem inv_run (as : List Act) : Inv (run as) ∧ Todos (run as) := by
  have h : ∀ (as : List Act) (s : St), Inv s → Todos s → Inv (as.foldl St.step s) ∧ Todos (as.foldl St.step s) := by
    intro as
    induction as with
    | nil => intro s h1 h2; exact ⟨h1, h2⟩
    | cons a as ih =>
      intro s h1 h2
      obtain ⟨h3, h4⟩ := inv_step h1 h2 a
      exact ih _ h3 h4
  exact h as {} inv_init (by intro sl hsl; cases hsl)

end Verif.Plugin
