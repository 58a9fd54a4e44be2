import Verif.Lemmas.PluginEffect
import Verif.Spec.PluginCode
/-
Opening, copying and closing `plugin_ptr`s without interruption, seen from the functions they give access to.
-/
namespace Verif.PluginCode
open Verif.Plugin hiding run
open Verif.Plugin (Act)
open Verif.Spec.Plugin Verif.Spec.PluginCode

/-- Records that exist before and after are those of the same library. -/
structure Keeps (s s' : Plugin.St) : Prop where
  next : s.next ≤ s'.next
  same : ∀ d r', d < s.next → s'.heap d = some r' → ∃ r, s.heap d = some r ∧ r.lib = r'.lib ∧ r.name = r'.name

theorem Keeps.refl (s : Plugin.St) : Keeps s s := ⟨Nat.le_refl _, fun _ r _ h => ⟨r, h, rfl, rfl⟩⟩

theorem Keeps.trans {a b c : Plugin.St} (h : Keeps a b) (h' : Keeps b c) : Keeps a c :=
  ⟨Nat.le_trans h.next h'.next, fun d r hd hr => by
    obtain ⟨r1, h1, h2, h3⟩ := h'.same d r (Nat.lt_of_lt_of_le hd h.next) hr
    obtain ⟨r0, k1, k2, k3⟩ := h.same d r1 hd h1
    exact ⟨r0, k1, k2.trans h2, k3.trans h3⟩⟩

theorem keeps_of {s s' : Plugin.St} (h : s'.heap = s.heap) (hn : s'.next = s.next) : Keeps s s' :=
  ⟨Nat.le_of_eq hn.symm, fun d r _ hr => ⟨r, by rw [← h]; exact hr, rfl, rfl⟩⟩

theorem keeps_setPtr (s : Plugin.St) (i : Nat) (p : Option Nat) : Keeps s (s.setPtr i p) := by
  unfold Plugin.St.setPtr; split <;> exact keeps_of rfl rfl

theorem keeps_setTodo (s : Plugin.St) (i : Nat) (t : List Sec) : Keeps s (s.setTodo i t) := by
  unfold Plugin.St.setTodo; split <;> exact keeps_of rfl rfl

theorem keeps_setRec {s : Plugin.St} {d : Nat} {r : Rec} (h : s.heap d = some r) (n : Nat) :
    Keeps s (s.setRec d (some { r with refs := n })) := by
  refine ⟨Nat.le_refl _, fun d' r' _ h' => ?_⟩
  unfold Plugin.St.setRec at h'
  dsimp only at h'
  split at h'
  · rename_i he; subst he; cases h'; exact ⟨r, h, rfl, rfl⟩
  · exact ⟨r', h', rfl, rfl⟩

theorem keeps_addRef (s : Plugin.St) (i d : Nat) : Keeps s (s.addRef i d) := by
  unfold Plugin.St.addRef
  split
  · exact keeps_of rfl rfl
  · rename_i r hr
    exact (keeps_setRec hr _).trans (keeps_setPtr _ _ _)

theorem keeps_release (s : Plugin.St) (i : Nat) : Keeps s (s.release i) := by
  unfold Plugin.St.release
  split
  · exact .refl s
  · rename_i d _
    split
    · exact keeps_of rfl rfl
    · rename_i r hr
      split
      · split
        · exact (keeps_setRec hr _).trans (keeps_setPtr _ _ _)
        · refine Keeps.trans (b := (s.setRec d none).setPtr i none) (Keeps.trans (b := s.setRec d none) ?_ (keeps_setPtr _ _ _)) (keeps_of rfl rfl)
          refine ⟨Nat.le_refl _, fun d' r' _ h' => ?_⟩
          unfold Plugin.St.setRec at h'
          dsimp only at h'
          split at h'
          · cases h'
          · exact ⟨r', h', rfl, rfl⟩
      · exact (keeps_setRec hr _).trans (keeps_setPtr _ _ _)

theorem keeps_load (s : Plugin.St) (i : Nat) (base : Bytes) (loads : Bool) : Keeps s (s.load i base loads) := by
  unfold Plugin.St.load
  split
  · exact keeps_addRef _ _ _
  · split
    · refine Keeps.trans ?_ (keeps_addRef _ _ _)
      refine ⟨Nat.le_succ _, fun d' r' hd h' => ?_⟩
      dsimp only at h'
      rw [if_neg (by omega)] at h'
      exact ⟨r', h', rfl, rfl⟩
    · exact .refl s

theorem keeps_exec (s : Plugin.St) (i : Nat) (x : Sec) : Keeps s (s.exec i x) := by
  cases x with
  | byName name file =>
    show Keeps s (s.byName i name file)
    unfold Plugin.St.byName
    split
    · split
      · exact keeps_of rfl rfl
      · exact keeps_addRef _ _ _
    · split
      · exact .refl s
      · exact keeps_setTodo _ _ _
  | release => exact keeps_release s i
  | load base loads => exact keeps_load s i base loads
  | grab src =>
    show Keeps s (s.grab i src)
    unfold Plugin.St.grab
    split
    · exact keeps_setPtr _ _ _
    · exact keeps_addRef _ _ _

theorem keeps_step (s : Plugin.St) (a : Act) : Keeps s (s.step a) := by
  unfold Plugin.St.step
  split
  · exact .refl s
  · cases a with
    | create c => cases c <;> exact keeps_of rfl rfl
    | call i c => dsimp only; split; exacts [keeps_setTodo _ _ _, .refl s]
    | sec i => dsimp only; split; exacts [(keeps_setTodo _ _ _).trans (keeps_exec _ _ _), .refl s]
    | addStatic n =>
      dsimp only
      split
      · exact .refl s
      · refine ⟨Nat.le_succ _, fun d' r' hd h' => ?_⟩
        dsimp only at h'
        rw [if_neg (by omega)] at h'
        exact ⟨r', h', rfl, rfl⟩

/-- The action works on object `i`. -/
def On (i : Nat) : Act → Prop
  | .call j _ => j = i
  | .sec j => j = i
  | _ => False

theorem slot_step {s : Plugin.St} {a : Act} {i : Nat} (hi : i < s.slots.length) (ha : ¬ On i a) :
    (s.step a).slots[i]? = s.slots[i]? := by
  unfold Plugin.St.step
  split
  · rfl
  · cases a with
    | create c => cases c <;> exact List.getElem?_append_left hi
    | call j c => dsimp only; split; exacts [setTodo_other ha _, rfl]
    | sec j => dsimp only; split; exacts [(exec_other ha _).trans (setTodo_other ha _), rfl]
    | addStatic n => dsimp only; split <;> rfl

/-- What an action does not work on keeps its functions. -/
theorem codeOf_step {s : Plugin.St} (hs : Inv s) (ht : Todos s) {a : Act} {i : Nat} (hi : i < s.slots.length) (ha : ¬ On i a) :
    codeOf (s.step a) i = codeOf s i := by
  have hs' := (inv_step hs ht a).1
  unfold codeOf
  rw [slot_step hi ha]
  cases hsl : s.slots[i]? with
  | none => rfl
  | some sl =>
    cases hp : sl.ptr with
    | none => simp [hp]
    | some d =>
      simp only [Option.bind_some, hp]
      obtain ⟨r, hr⟩ := Option.ne_none_iff_exists'.1 (hs.live sl (List.mem_of_getElem? hsl) d hp)
      have hsl' : (s.step a).slots[i]? = some sl := (slot_step hi ha).trans hsl
      obtain ⟨r', hr'⟩ := Option.ne_none_iff_exists'.1 (hs'.live sl (List.mem_of_getElem? hsl') d hp)
      have hd : d < s.next := by
        rcases Nat.lt_or_ge d s.next with h | h
        · exact h
        · rw [hs.fresh d h] at hr; cases hr
      obtain ⟨r0, h0, h1, h2⟩ := (keeps_step s a).same d r' hd hr'
      rw [hr] at h0; cases h0
      rw [hr, hr', Option.map_some, Option.map_some, h1, h2]

/-- Nothing is going on, and no thread is blocked. -/
structure Quiet (l : Plugin.St) : Prop where
  inv : Inv l
  free : l.stuck = false
  idle : ∀ sl ∈ l.slots, sl.todo = []

theorem Quiet.todos {l : Plugin.St} (h : Quiet l) : Todos l := fun sl hsl => .inl (h.idle sl hsl)

theorem Quiet.slot {l : Plugin.St} (h : Quiet l) {i : Nat} (hi : i < l.slots.length) : ∃ p, l.slots[i]? = some ⟨p, []⟩ := by
  refine ⟨l.slots[i].ptr, ?_⟩
  rw [List.getElem?_eq_getElem hi]
  have := h.idle _ (List.getElem_mem hi)
  rw [← this]

theorem codeOf_none_of_ptr {l : Plugin.St} {i : Nat} {t : List Sec} (h : l.slots[i]? = some ⟨none, t⟩) : codeOf l i = none := by
  unfold codeOf; rw [h]; rfl

theorem codeOf_of_ptr {l : Plugin.St} {i d : Nat} {t : List Sec} {r : Rec} (h : l.slots[i]? = some ⟨some d, t⟩) (hd : l.heap d = some r) :
    codeOf l i = some (r.lib, r.name) := by
  unfold codeOf; rw [h]; simp [hd]

theorem codeOf_uses {l : Plugin.St} {i : Nat} {r : Rec} (h : Uses l i r) : codeOf l i = some (r.lib, r.name) := by
  obtain ⟨sl, d, h1, h2, h3⟩ := h
  unfold codeOf; rw [h1]; simp [h2, h3]

theorem codeOf_lt {l : Plugin.St} {i : Nat} {c : Option Nat × Bytes} (h : codeOf l i = some c) : i < l.slots.length := by
  unfold codeOf at h
  cases hs : l.slots[i]? with
  | none => rw [hs] at h; cases h
  | some sl => exact (List.getElem?_eq_some_iff.1 hs).1

/-- The library of an open `plugin_ptr` is loaded. -/
theorem loaded_of_code {l : Plugin.St} (hs : Inv l) {i h : Nat} {n : Bytes} (hc : codeOf l i = some (some h, n)) : isLoaded l h = true := by
  unfold codeOf at hc
  obtain ⟨r, hr, he⟩ := Option.map_eq_some_iff.1 hc
  obtain ⟨d, _, hd⟩ := Option.bind_eq_some_iff.1 hr
  have := (hs.dyn d r h hd (congrArg Prod.fst he)).2
  unfold isLoaded
  simpa [Loaded] using this

/-- A record with a library is that of an open `plugin_ptr`. -/
theorem code_of_record {l : Plugin.St} (hs : Inv l) {d h : Nat} {r : Rec} (hd : l.heap d = some r) (hr : r.lib = some h) :
    ∃ i, codeOf l i = some (some h, r.name) := by
  have hpos := (hs.dyn d r h hd hr).1
  rw [hs.refs d r hd] at hpos
  unfold Plugin.St.count at hpos
  obtain ⟨sl, hsl, hp⟩ := List.countP_pos_iff.1 hpos
  obtain ⟨i, hi, he⟩ := List.mem_iff_getElem.1 hsl
  refine ⟨i, ?_⟩
  have : l.slots[i]? = some ⟨some d, sl.todo⟩ := by
    rw [List.getElem?_eq_getElem hi, he]
    have : sl.ptr = some d := by simpa using hp
    rw [← this]
  rw [codeOf_of_ptr this hd, hr]

/-- A library that is loaded is that of an open `plugin_ptr`. -/
theorem code_of_loaded {l : Plugin.St} (hs : Inv l) {h : Nat} (hl : isLoaded l h = true) : ∃ i n, codeOf l i = some (some h, n) := by
  have hl : Loaded l h := by unfold isLoaded at hl; simpa [Loaded] using hl
  obtain ⟨d, r, hd, hr⟩ := hs.held h hl
  obtain ⟨i, hi⟩ := code_of_record hs hd hr
  exact ⟨i, _, hi⟩

theorem length_setTodo (s : Plugin.St) (i : Nat) (t : List Sec) : (s.setTodo i t).slots.length = s.slots.length := by
  unfold Plugin.St.setTodo; split <;> simp

theorem length_setPtr (s : Plugin.St) (i : Nat) (p : Option Nat) : (s.setPtr i p).slots.length = s.slots.length := by
  unfold Plugin.St.setPtr; split <;> simp

theorem length_addRef (s : Plugin.St) (i d : Nat) : (s.addRef i d).slots.length = s.slots.length := by
  unfold Plugin.St.addRef
  split
  · rfl
  · exact length_setPtr _ _ _

theorem length_exec (s : Plugin.St) (i : Nat) (x : Sec) : (s.exec i x).slots.length = s.slots.length := by
  cases x with
  | byName name file =>
    show (s.byName i name file).slots.length = _
    unfold Plugin.St.byName
    split
    · split; exacts [rfl, length_addRef _ _ _]
    · split; exacts [rfl, length_setTodo _ _ _]
  | release =>
    show (s.release i).slots.length = _
    unfold Plugin.St.release
    split
    · rfl
    · split
      · rfl
      · split
        · split; exacts [length_setPtr _ _ _, length_setPtr _ _ _]
        · exact length_setPtr _ _ _
  | load base loads =>
    show (s.load i base loads).slots.length = _
    unfold Plugin.St.load
    split
    · exact length_addRef _ _ _
    · split; exacts [length_addRef _ _ _, rfl]
  | grab src =>
    show (s.grab i src).slots.length = _
    unfold Plugin.St.grab
    split; exacts [length_setPtr _ _ _, length_addRef _ _ _]

theorem length_step_on {s : Plugin.St} {a : Act} {i : Nat} (ha : On i a) : (s.step a).slots.length = s.slots.length := by
  unfold Plugin.St.step
  split
  · rfl
  · cases a with
    | create c => cases ha
    | call j c => dsimp only; split; exacts [length_setTodo _ _ _, rfl]
    | sec j => dsimp only; split; exacts [(length_exec _ _ _).trans (length_setTodo _ _ _), rfl]
    | addStatic n => cases ha

/-- A call on object `i`: nothing happens to the others. -/
structure Local (l l' : Plugin.St) (i : Nat) : Prop where
  inv : Inv l'
  todos : Todos l'
  length : l'.slots.length = l.slots.length
  slots : ∀ j, j ≠ i → l'.slots[j]? = l.slots[j]?
  code : ∀ j, j ≠ i → codeOf l' j = codeOf l j

theorem Local.refl {l : Plugin.St} (h1 : Inv l) (h2 : Todos l) (i : Nat) : Local l l i :=
  ⟨h1, h2, rfl, fun _ _ => rfl, fun _ _ => rfl⟩

theorem codeOf_ge {l : Plugin.St} {i : Nat} (h : l.slots.length ≤ i) : codeOf l i = none := by
  unfold codeOf; rw [List.getElem?_eq_none h]; rfl

theorem local_acts {l : Plugin.St} {i : Nat} : ∀ (as : List Act) (l0 : Plugin.St), Local l l0 i → (∀ a ∈ as, On i a) →
    Local l (acts l0 as) i := by
  intro as
  induction as with
  | nil => intro l0 h _; exact h
  | cons a as ih =>
    intro l0 h hon
    have ha := hon a List.mem_cons_self
    refine ih (l0.step a) ?_ fun b hb => hon b (List.mem_cons_of_mem _ hb)
    obtain ⟨h1, h2⟩ := inv_step h.inv h.todos a
    have hlen := (length_step_on (s := l0) ha).trans h.length
    have hno : ∀ j, j ≠ i → ¬ On j a := by
      intro j hj ho
      cases a with
      | create c => cases ho
      | call k c => exact hj (ho.symm.trans ha)
      | sec k => exact hj (ho.symm.trans ha)
      | addStatic n => cases ho
    refine ⟨h1, h2, hlen, fun j hj => ?_, fun j hj => ?_⟩
    · rcases Nat.lt_or_ge j l0.slots.length with hl | hl
      · exact (slot_step hl (hno j hj)).trans (h.slots j hj)
      · rw [List.getElem?_eq_none (by rw [hlen]; rw [h.length] at hl; exact hl), ← h.slots j hj, List.getElem?_eq_none hl]
    · rcases Nat.lt_or_ge j l0.slots.length with hl | hl
      · exact (codeOf_step h.inv h.todos hl (hno j hj)).trans (h.code j hj)
      · rw [codeOf_ge (by rw [hlen]; rw [h.length] at hl; exact hl), ← h.code j hj, codeOf_ge hl]

theorem Local.quiet {l l' : Plugin.St} {i : Nat} (h : Local l l' i) (hl : ∀ j, j ≠ i → ∀ sl, l.slots[j]? = some sl → sl.todo = [])
    (hf : l'.stuck = false) {p : Option Nat} (hi : l'.slots[i]? = some ⟨p, []⟩) : Quiet l' := by
  refine ⟨h.inv, hf, fun sl hsl => ?_⟩
  obtain ⟨j, hj⟩ := List.mem_iff_getElem?.1 hsl
  by_cases he : j = i
  · subst he; rw [hi] at hj; cases hj; rfl
  · rw [h.slots j he] at hj; exact hl j he sl hj

theorem stuck_release (s : Plugin.St) (i : Nat) : (s.release i).stuck = s.stuck := by
  have hp : ∀ (s : Plugin.St) p, (s.setPtr i p).stuck = s.stuck := by
    intro s p; unfold Plugin.St.setPtr; split <;> rfl
  unfold Plugin.St.release
  split
  · rfl
  · split
    · rfl
    · split
      · split
        · exact hp _ _
        · exact hp _ _
      · exact hp _ _

theorem stuck_setTodo (s : Plugin.St) (i : Nat) (t : List Sec) : (s.setTodo i t).stuck = s.stuck := by
  unfold Plugin.St.setTodo; split <;> rfl

theorem stuck_addRef (s : Plugin.St) (i d : Nat) : (s.addRef i d).stuck = s.stuck := by
  unfold Plugin.St.addRef
  split
  · rfl
  · unfold Plugin.St.setPtr; split <;> rfl

/-- `close` closes, and does nothing else. -/
theorem close_ok {l : Plugin.St} (h : Quiet l) {i : Nat} (hi : i < l.slots.length) :
    Quiet (close l i) ∧ (close l i).slots.length = l.slots.length ∧ codeOf (close l i) i = none ∧
      ∀ j, j ≠ i → codeOf (close l i) j = codeOf l j := by
  obtain ⟨p, hp⟩ := h.slot hi
  have hloc : Local l (close l i) i := local_acts _ l (.refl h.inv h.todos i) (by intro a ha; simp at ha; rcases ha with rfl | rfl <;> rfl)
  have h1 : l.step (.call i .close) = l.setTodo i [.release] := by
    unfold Plugin.St.step; simp [h.free, hp, Call.sections]
  have hs1 : (l.step (.call i .close)).slots[i]? = some ⟨p, [.release]⟩ := step_call h.free hp .close
  have hst1 : (l.step (.call i .close)).stuck = false := by rw [h1, stuck_setTodo]; exact h.free
  have hi1 := (inv_step h.inv h.todos (.call i .close)).1
  have hfin : (close l i).slots[i]? = some ⟨none, []⟩ := sec_release hi1 hst1 hs1
  have hst : (close l i).stuck = false := by
    show ((l.step (.call i .close)).step (.sec i)).stuck = false
    rw [step_sec hst1 hs1]
    show (((l.step (.call i .close)).setTodo i []).release i).stuck = false
    rw [stuck_release, stuck_setTodo]; exact hst1
  exact ⟨hloc.quiet (fun j _ sl hj => h.idle sl (List.mem_of_getElem? hj)) hst hfin, hloc.length, codeOf_none_of_ptr hfin, hloc.code⟩

/-- What a new `plugin_ptr` has to do: nothing, or to grab what it is a copy of. -/
def firstTodo : Option Nat → List Sec
  | none => []
  | some i => [.grab i]

/-- A new `plugin_ptr` that is not open. -/
theorem create_ok {l : Plugin.St} (h : Quiet l) (c : Option Nat) :
    Inv (l.step (.create c)) ∧ Todos (l.step (.create c)) ∧ (l.step (.create c)).stuck = false ∧
      (l.step (.create c)).slots = l.slots ++ [⟨none, firstTodo c⟩] ∧
      (∀ j, codeOf (l.step (.create c)) j = codeOf l j) ∧ (l.step (.create c)).heap = l.heap ∧
      (l.step (.create c)).map = l.map ∧ (l.step (.create c)).libs = l.libs := by
  obtain ⟨h1, h2⟩ := inv_step h.inv h.todos (.create c)
  have he : (l.step (.create c)) = { l with slots := l.slots ++ [⟨none, firstTodo c⟩] } := by
    unfold Plugin.St.step; rw [if_neg (by simp [h.free])]; cases c <;> rfl
  refine ⟨h1, h2, by rw [he]; exact h.free, by rw [he], fun j => ?_, by rw [he], by rw [he], by rw [he]⟩
  rcases Nat.lt_or_ge j l.slots.length with hl | hl
  · exact codeOf_step h.inv h.todos hl (fun h => by cases h)
  · rw [codeOf_ge hl]
    rcases Nat.eq_or_lt_of_le hl with hl | hl
    · refine codeOf_none_of_ptr (t := firstTodo c) ?_
      rw [he, ← hl]; simp
    · exact codeOf_ge (by rw [he]; simp; omega)

theorem quiet_create {l : Plugin.St} (h : Quiet l) : Quiet (l.step (.create none)) := by
  obtain ⟨h1, h2, h3, h4, -⟩ := create_ok h none
  refine ⟨h1, h3, fun sl hsl => ?_⟩
  rw [h4] at hsl
  rcases List.mem_append.1 hsl with hsl | hsl
  · exact h.idle sl hsl
  · rw [List.mem_singleton.1 hsl]; rfl

/-- A copy gives access to the same functions. -/
theorem copy_ok {l : Plugin.St} (h : Quiet l) {i : Nat} (hi : i < l.slots.length) :
    Quiet (copy l i) ∧ (copy l i).slots.length = l.slots.length + 1 ∧ codeOf (copy l i) l.slots.length = codeOf l i ∧
      ∀ j, j ≠ l.slots.length → codeOf (copy l i) j = codeOf l j := by
  obtain ⟨h1, h2, h3, h4, h5, h6, -, -⟩ := create_ok h (some i)
  have hs : (l.step (.create (some i))).slots[l.slots.length]? = some ⟨none, [.grab i]⟩ := by rw [h4]; simp [firstTodo]
  have hloc : Local (l.step (.create (some i))) (copy l i) l.slots.length :=
    local_acts [.sec l.slots.length] _ (.refl h1 h2 _) (by intro a ha; simp at ha; subst ha; rfl)
  have hne : i ≠ l.slots.length := by omega
  have hstep : copy l i = ((l.step (.create (some i))).setTodo l.slots.length []).grab l.slots.length i := step_sec h3 hs
  have hg := sec_grab h3 hne hs
  have hfin : ∃ p, (copy l i).slots[l.slots.length]? = some ⟨p, []⟩ := by
    have hg0 := get_setTodo hs []
    rw [hstep]
    generalize (l.step (.create (some i))).setTodo l.slots.length [] = s1 at hg0
    have hlt := (List.getElem?_eq_some_iff.1 hg0).1
    unfold Plugin.St.grab
    split
    · unfold Plugin.St.setPtr; simp only [hg0]; exact ⟨none, by simp [hlt]⟩
    · rename_i d _
      unfold Plugin.St.addRef
      split
      · exact ⟨none, hg0⟩
      · unfold Plugin.St.setPtr Plugin.St.setRec; simp only [hg0]; exact ⟨some d, by simp [hlt]⟩
  obtain ⟨p, hfin⟩ := hfin
  have hst : (copy l i).stuck = false := by
    rw [hstep]
    unfold Plugin.St.grab
    split
    · unfold Plugin.St.setPtr
      split <;> (try dsimp only) <;> rw [stuck_setTodo] <;> exact h3
    · rw [stuck_addRef, stuck_setTodo]; exact h3
  refine ⟨hloc.quiet ?_ hst hfin, by rw [hloc.length, h4]; simp, ?_, fun j hj => (hloc.code j hj).trans (h5 j)⟩
  · intro j hj sl hsl
    rw [h4] at hsl
    rcases List.mem_append.1 (List.mem_of_getElem? hsl) with hm | hm
    · exact h.idle sl hm
    · have hlt := (List.getElem?_eq_some_iff.1 hsl).1
      simp at hlt
      rw [List.getElem?_append_left (by omega)] at hsl
      exact h.idle sl (List.mem_of_getElem? hsl)
  · have hstep' : copy l i = (l.step (.create (some i))).step (.sec l.slots.length) := rfl
    rw [← h5 i]
    cases hc : codeOf (l.step (.create (some i))) i with
    | none =>
      have hno : ¬ IsOpen (l.step (.create (some i))) i := by
        rintro ⟨sl, hsl, hp⟩
        obtain ⟨d, hd⟩ := Option.isSome_iff_exists.1 hp
        obtain ⟨r, hr⟩ := Option.ne_none_iff_exists'.1 (h1.live sl (List.mem_of_getElem? hsl) d hd)
        rw [codeOf_uses ⟨sl, d, hsl, hd, hr⟩] at hc
        cases hc
      have := hg.2 hno
      rw [← hstep'] at this
      cases p with
      | none => exact codeOf_none_of_ptr hfin
      | some d => exact absurd ⟨_, hfin, rfl⟩ this
    | some c =>
      have hu : ∃ r, Uses (l.step (.create (some i))) i r ∧ (r.lib, r.name) = c := by
        unfold codeOf at hc
        obtain ⟨r, hr, he⟩ := Option.map_eq_some_iff.1 hc
        obtain ⟨d, hd, hr⟩ := Option.bind_eq_some_iff.1 hr
        obtain ⟨sl, hsl, hp⟩ := Option.bind_eq_some_iff.1 hd
        exact ⟨r, ⟨sl, d, hsl, hp, hr⟩, he⟩
      obtain ⟨r, hu, rfl⟩ := hu
      obtain ⟨r', hu', hn, hl⟩ := hg.1 r hu
      rw [hstep', codeOf_uses hu', hn, hl]

theorem record_some {l : Plugin.St} (hs : Inv l) {name : Bytes} {d : Nat} (h : l.map.lookup name = some d) :
    ∃ r, l.heap d = some r ∧ r.name = name ∧ record l name = some (r.lib, r.name) := by
  obtain ⟨r, hr, hn⟩ := (hs.map name d).1 h
  exact ⟨r, hr, hn, by unfold record; rw [h]; simp [hr]⟩

theorem record_none {l : Plugin.St} {name : Bytes} (h : l.map.lookup name = none) : record l name = none := by
  unfold record; rw [h]; rfl

theorem sec_idle {l : Plugin.St} {i : Nat} {p : Option Nat} (h : l.slots[i]? = some ⟨p, []⟩) : l.step (.sec i) = l := by
  unfold Plugin.St.step
  split
  · rfl
  · simp [h]

theorem addRef_slot {s : Plugin.St} {i d : Nat} {r : Rec} {t : List Sec} (hi : s.slots[i]? = some ⟨none, t⟩) (hd : s.heap d = some r) :
    (s.addRef i d).slots[i]? = some ⟨some d, t⟩ := by
  have hlt := (List.getElem?_eq_some_iff.1 hi).1
  rw [slots_addRef hi hd]; simp [hlt]

theorem addRef_code {s : Plugin.St} {i d : Nat} {r : Rec} {t : List Sec} (hi : s.slots[i]? = some ⟨none, t⟩) (hd : s.heap d = some r) :
    codeOf (s.addRef i d) i = some (r.lib, r.name) := codeOf_uses (r := { r with refs := r.refs + 1 }) (uses_addRef hi hd)

/-- The last section of `open_file`. -/
theorem load_slot {s : Plugin.St} (hs : Inv s) {i : Nat} (hi : s.slots[i]? = some ⟨none, []⟩) (base : Bytes) (loads : Bool) :
    (∃ p, (s.load i base loads).slots[i]? = some ⟨p, []⟩) ∧ (s.load i base loads).stuck = s.stuck ∧
    codeOf (s.load i base loads) i = fromFile s base loads := by
  unfold fromFile Plugin.St.load
  cases hl : s.map.lookup base with
  | some d =>
    obtain ⟨r, hr, -, h⟩ := record_some hs hl
    rw [h]
    exact ⟨⟨_, addRef_slot hi hr⟩, stuck_addRef _ _ _, addRef_code hi hr⟩
  | none =>
    rw [record_none hl]
    cases loads with
    | true =>
      simp only [if_true]
      refine ⟨⟨_, addRef_slot (r := { lib := some s.libs, name := base, refs := 0 }) hi (if_pos rfl)⟩, stuck_addRef _ _ _, ?_⟩
      exact addRef_code (r := { lib := some s.libs, name := base, refs := 0 }) hi (if_pos rfl)
    | false => exact ⟨⟨none, hi⟩, rfl, codeOf_none_of_ptr hi⟩

/-- Opening a new `plugin_ptr` by name. -/
theorem openNew_ok {l : Plugin.St} (h : Quiet l) (name : Bytes) (file : Option (Bytes × Image)) :
    Quiet (openNew l name file) ∧ (openNew l name file).slots.length = l.slots.length + 1 ∧
      codeOf (openNew l name file) l.slots.length = found l name (file.map fun f => (f.1, (openPlugin f.1 f.2).1)) ∧
      ∀ j, j ≠ l.slots.length → codeOf (openNew l name file) j = codeOf l j := by
  unfold openNew
  dsimp only
  generalize file.map (fun f => (f.1, (openPlugin f.1 f.2).1)) = fi
  obtain ⟨h1, h2, h3, h4, h5, h6, h7, h8⟩ := create_ok h none
  have hq := quiet_create h
  rw [show acts l [.create none, .call l.slots.length (.openName name fi), .sec l.slots.length, .sec l.slots.length, .sec l.slots.length] =
    acts (l.step (.create none)) [.call l.slots.length (.openName name fi), .sec l.slots.length, .sec l.slots.length, .sec l.slots.length] from rfl]
  have hrec : ∀ n, record (l.step (.create none)) n = record l n := by intro n; unfold record; rw [h6, h7]
  have hfound : found (l.step (.create none)) name fi = found l name fi := by unfold found; simp only [fromFile, hrec, h8]
  rw [← hfound]
  have hlen : (l.step (.create none)).slots.length = l.slots.length + 1 := by rw [h4]; simp
  have hs : (l.step (.create none)).slots[l.slots.length]? = some ⟨none, []⟩ := by rw [h4]; simp [firstTodo]
  clear hrec hfound h4 h6 h7 h8
  generalize l.slots.length = n at *
  generalize hs0 : l.step (.create none) = s0 at *
  have hloc : Local s0 (acts s0 [.call n (.openName name fi), .sec n, .sec n, .sec n]) n :=
    local_acts _ s0 (.refl h1 h2 _) (by intro a ha; simp at ha; rcases ha with rfl | rfl <;> rfl)
  suffices hfin : (∃ p, (acts s0 [.call n (.openName name fi), .sec n, .sec n, .sec n]).slots[n]? = some ⟨p, []⟩) ∧
      (acts s0 [.call n (.openName name fi), .sec n, .sec n, .sec n]).stuck = false ∧
      codeOf (acts s0 [.call n (.openName name fi), .sec n, .sec n, .sec n]) n = found s0 name fi by
    obtain ⟨⟨p, hp⟩, hst, hc⟩ := hfin
    exact ⟨hloc.quiet (fun j _ sl hj => hq.idle sl (List.mem_of_getElem? hj)) hst hp, hloc.length.trans hlen, hc,
      fun j hj => (hloc.code j hj).trans (h5 j)⟩
  clear hloc h5
  have hc1 : s0.step (.call n (.openName name fi)) = s0.setTodo n [.byName name fi] := by
    unfold Plugin.St.step; simp [h3, hs, Call.sections]
  have hs1 : (s0.step (.call n (.openName name fi))).slots[n]? = some ⟨none, [.byName name fi]⟩ := step_call h3 hs _
  have hst1 : (s0.step (.call n (.openName name fi))).stuck = false := by rw [hc1, stuck_setTodo]; exact h3
  show (∃ p, ((((s0.step (.call n (.openName name fi))).step (.sec n)).step (.sec n)).step (.sec n)).slots[n]? = _) ∧
    ((((s0.step (.call n (.openName name fi))).step (.sec n)).step (.sec n)).step (.sec n)).stuck = false ∧
    codeOf ((((s0.step (.call n (.openName name fi))).step (.sec n)).step (.sec n)).step (.sec n)) n = _
  have hi1 := inv_step h1 h2 (.call n (.openName name fi))
  have hm1 : (s0.step (.call n (.openName name fi))).map = s0.map ∧ (s0.step (.call n (.openName name fi))).heap = s0.heap ∧
      (s0.step (.call n (.openName name fi))).libs = s0.libs := by
    rw [hc1]; unfold Plugin.St.setTodo; rw [hs]; exact ⟨rfl, rfl, rfl⟩
  have hfound : found s0 name fi = found (s0.step (.call n (.openName name fi))) name fi := by
    unfold found fromFile record; rw [hm1.1, hm1.2.1, hm1.2.2]
  rw [hfound]
  clear hfound hm1 hc1
  generalize s0.step (.call n (.openName name fi)) = s1 at hs1 hst1 hi1 ⊢
  obtain ⟨hi1, ht1⟩ := hi1
  have hx := step_sec hst1 hs1
  have hi2 := inv_step hi1 ht1 (.sec n)
  rw [hx] at hi2 ⊢
  have hg := get_setTodo hs1 []
  have hm : (s1.setTodo n []).map = s1.map ∧ (s1.setTodo n []).heap = s1.heap ∧ (s1.setTodo n []).libs = s1.libs := by
    unfold Plugin.St.setTodo; rw [hs1]; exact ⟨rfl, rfl, rfl⟩
  have hst2 : (s1.setTodo n []).stuck = false := by rw [stuck_setTodo]; exact hst1
  have hfound : found s1 name fi = found (s1.setTodo n []) name fi := by
    unfold found fromFile record; rw [hm.1, hm.2.1, hm.2.2]
  rw [hfound]
  have hiv := inv_setTodo hi1 hs1 []
  clear hfound hm hx
  generalize s1.setTodo n [] = s2 at *
  change Plugin.Inv (s2.byName n name fi) ∧ Todos (s2.byName n name fi) at hi2
  change (∃ p, ((((s2.byName n name fi)).step (.sec n)).step (.sec n)).slots[n]? = _) ∧
    ((((s2.byName n name fi)).step (.sec n)).step (.sec n)).stuck = false ∧
    codeOf ((((s2.byName n name fi)).step (.sec n)).step (.sec n)) n = _
  cases hl : s2.map.lookup name with
  | some d =>
    obtain ⟨r, hr, -, hrec⟩ := record_some hiv hl
    have hb : s2.byName n name fi = s2.addRef n d := by
      unfold Plugin.St.byName; rw [hl]; simp [hg]
    rw [hb, sec_idle (addRef_slot hg hr), sec_idle (addRef_slot hg hr)]
    refine ⟨⟨_, addRef_slot hg hr⟩, by rw [stuck_addRef]; exact hst2, ?_⟩
    rw [addRef_code hg hr]; unfold found; rw [hrec]
  | none =>
    have hrec := record_none hl
    cases fi with
    | none =>
      have hb : s2.byName n name none = s2 := by unfold Plugin.St.byName; rw [hl]
      rw [hb, sec_idle hg, sec_idle hg]
      refine ⟨⟨_, hg⟩, hst2, ?_⟩
      rw [codeOf_none_of_ptr hg]; unfold found; rw [hrec]
    | some f =>
      obtain ⟨base, loads⟩ := f
      have hb : s2.byName n name (some (base, loads)) = s2.setTodo n [.release, .load base loads] := by
        unfold Plugin.St.byName; rw [hl]
      rw [hb] at hi2 ⊢
      have hg3 := get_setTodo hg [.release, .load base loads]
      have hst3 : (s2.setTodo n [.release, .load base loads]).stuck = false := by rw [stuck_setTodo]; exact hst2
      have hm : (s2.setTodo n [.release, .load base loads]).map = s2.map ∧ (s2.setTodo n [.release, .load base loads]).heap = s2.heap ∧
          (s2.setTodo n [.release, .load base loads]).libs = s2.libs := by
        unfold Plugin.St.setTodo; rw [hg]; exact ⟨rfl, rfl, rfl⟩
      have hfound : found s2 name (some (base, loads)) = found (s2.setTodo n [.release, .load base loads]) name (some (base, loads)) := by
        unfold found fromFile record; rw [hm.1, hm.2.1, hm.2.2]
      rw [hfound]
      have hrec : record (s2.setTodo n [.release, .load base loads]) name = none := by
        rw [← hrec]; unfold record; rw [hm.1, hm.2.1]
      clear hfound hm
      generalize s2.setTodo n [.release, .load base loads] = s3 at *
      have hx3 := step_sec hst3 hg3
      have hg4 := get_setTodo hg3 [.load base loads]
      have hrel : (s3.setTodo n [.load base loads]).release n = s3.setTodo n [.load base loads] := by
        unfold Plugin.St.release; rw [hg4]; rfl
      have hx3 : s3.step (.sec n) = s3.setTodo n [.load base loads] := hx3.trans hrel
      rw [hx3]
      have hst4 : (s3.setTodo n [.load base loads]).stuck = false := by rw [stuck_setTodo]; exact hst3
      rw [step_sec hst4 hg4]
      have hi4 := inv_setTodo hi2.1 hg3 [.load base loads]
      have hg5 := get_setTodo hg4 []
      have hi5 := inv_setTodo hi4 hg4 []
      have hm : ((s3.setTodo n [.load base loads]).setTodo n []).map = s3.map ∧ ((s3.setTodo n [.load base loads]).setTodo n []).heap = s3.heap ∧
          ((s3.setTodo n [.load base loads]).setTodo n []).libs = s3.libs := by
        unfold Plugin.St.setTodo; rw [hg3]
        simp only
        split <;> exact ⟨rfl, rfl, rfl⟩
      obtain ⟨k1, k2, k3⟩ := load_slot hi5 hg5 base loads
      refine ⟨k1, k2.trans (by rw [stuck_setTodo]; exact hst4), k3.trans ?_⟩
      unfold found
      rw [hrec]
      have : record ((s3.setTodo n [.load base loads]).setTodo n []) base = record s3 base := by
        unfold record; rw [hm.1, hm.2.1]
      show fromFile _ base loads = fromFile s3 base loads
      unfold fromFile
      rw [this, hm.2.2]

end Verif.PluginCode
