import Verif.Lemmas.Plugin
/-
What each section does to the plug-in object it works on, and that it does nothing to the others.
-/
namespace Verif.Plugin
open Verif.Spec.Plugin

theorem setPtr_other {s : St} {i j : Nat} (h : j ≠ i) (p : Option Nat) : (s.setPtr j p).slots[i]? = s.slots[i]? := by
  unfold St.setPtr
  split
  · rfl
  · exact List.getElem?_set_ne h

theorem setTodo_other {s : St} {i j : Nat} (h : j ≠ i) (t : List Sec) : (s.setTodo j t).slots[i]? = s.slots[i]? := by
  unfold St.setTodo
  split
  · rfl
  · exact List.getElem?_set_ne h

theorem addRef_other {s : St} {i j : Nat} (h : j ≠ i) (d : Nat) : (s.addRef j d).slots[i]? = s.slots[i]? := by
  unfold St.addRef
  split
  · rfl
  · exact setPtr_other h _

theorem exec_other {s : St} {i j : Nat} (h : j ≠ i) (x : Sec) : (s.exec j x).slots[i]? = s.slots[i]? := by
  cases x with
  | byName name file =>
    show (s.byName j name file).slots[i]? = _
    unfold St.byName
    split
    · split
      · rfl
      · exact addRef_other h _
    · split
      · rfl
      · exact setTodo_other h _
  | release =>
    show (s.release j).slots[i]? = _
    unfold St.release
    split
    · rfl
    · split
      · rfl
      · split
        · split
          · exact setPtr_other h _
          · exact setPtr_other h _
        · exact setPtr_other h _
  | load base loads =>
    show (s.load j base loads).slots[i]? = _
    unfold St.load
    split
    · exact addRef_other h _
    · split
      · exact addRef_other h _
      · rfl
  | grab src =>
    show (s.grab j src).slots[i]? = _
    unfold St.grab
    split
    · exact setPtr_other h _
    · exact addRef_other h _

/-- While a call on an object waits for its next section, nobody changes the object. -/
theorem step_other {s : St} {i : Nat} {sl : Slot} (hi : s.slots[i]? = some sl) (ht : sl.todo ≠ []) {a : Act}
    (ha : a ≠ .sec i) : (s.step a).slots[i]? = some sl := by
  have hlt := (List.getElem?_eq_some_iff.1 hi).1
  unfold St.step
  split
  · exact hi
  · cases a with
    | create c =>
      cases c with
      | none => show (s.slots ++ [_])[i]? = _; rw [List.getElem?_append_left hlt]; exact hi
      | some src => show (s.slots ++ [_])[i]? = _; rw [List.getElem?_append_left hlt]; exact hi
    | call j c =>
      dsimp only
      split
      · rename_i p hj
        by_cases h : j = i
        · subst h; rw [hi] at hj; cases hj; exact absurd rfl ht
        · rw [setTodo_other h]; exact hi
      · exact hi
    | sec j =>
      have h : j ≠ i := by rintro rfl; exact ha rfl
      dsimp only
      split
      · rw [exec_other h, setTodo_other h]; exact hi
      · exact hi
    | addStatic n =>
      dsimp only
      split
      · exact hi
      · exact hi

theorem steps_other {i : Nat} {sl : Slot} (ht : sl.todo ≠ []) : ∀ (as : List Act) (s : St), s.slots[i]? = some sl →
    Act.sec i ∉ as → (as.foldl St.step s).slots[i]? = some sl := by
  intro as
  induction as with
  | nil => intro s h _; exact h
  | cons a as ih =>
    intro s h hn
    rw [List.mem_cons, not_or] at hn
    exact ih _ (step_other h ht (fun e => hn.1 e.symm)) hn.2

theorem step_call {s : St} {i : Nat} {p : Option Nat} (hst : s.stuck = false) (hi : s.slots[i]? = some ⟨p, []⟩) (c : Call) :
    (s.step (.call i c)).slots[i]? = some ⟨p, c.sections⟩ := by
  have : s.step (.call i c) = s.setTodo i c.sections := by unfold St.step; simp [hst, hi]
  rw [this]
  exact get_setTodo hi _

theorem step_sec {s : St} {i : Nat} {p : Option Nat} {x : Sec} {rest : List Sec} (hst : s.stuck = false)
    (hi : s.slots[i]? = some ⟨p, x :: rest⟩) : s.step (.sec i) = (s.setTodo i rest).exec i x := by
  unfold St.step; simp [hst, hi]

theorem stuck_step {s : St} (h : s.stuck = true) (a : Act) : s.step a = s := by unfold St.step; rw [h]; rfl

theorem stuck_steps {s : St} (h : s.stuck = true) (as : List Act) : as.foldl St.step s = s := by
  induction as with
  | nil => rfl
  | cons a as ih => rw [List.foldl_cons, stuck_step h, ih]

/-- If an execution is not stuck, it was not stuck earlier. -/
theorem not_stuck {s : St} {as : List Act} (h : (as.foldl St.step s).stuck = false) : s.stuck = false := by
  cases hs : s.stuck with
  | false => rfl
  | true => rw [stuck_steps hs, hs] at h; exact nomatch h

theorem uses_addRef {s : St} {i d : Nat} {sl : Slot} {r : Rec} (hi : s.slots[i]? = some sl) (hd : s.heap d = some r) :
    Uses (s.addRef i d) i { r with refs := r.refs + 1 } := by
  have hlt := (List.getElem?_eq_some_iff.1 hi).1
  refine ⟨{ sl with ptr := some d }, d, ?_, rfl, ?_⟩
  · rw [slots_addRef hi hd]; simp [hlt]
  · unfold St.addRef St.setRec St.setPtr
    rw [hd]
    simp only [hi, if_true]

/-- `release_data` closes the object. -/
theorem sec_release {s : St} (hs : Inv s) (hst : s.stuck = false) {i : Nat} {p : Option Nat} {rest : List Sec}
    (hi : s.slots[i]? = some ⟨p, .release :: rest⟩) : (s.step (.sec i)).slots[i]? = some ⟨none, rest⟩ := by
  rw [step_sec hst hi]
  have hg := get_setTodo hi rest
  have := (inv_release (inv_setTodo hs hi rest) hg).2
  have hlt := (List.getElem?_eq_some_iff.1 hg).1
  show ((s.setTodo i rest).release i).slots[i]? = _
  rw [this]
  simp [hlt]

/-- The last section of `open_file` opens the object on the record with the name. -/
theorem sec_load {s : St} (hs : Inv s) (hst : s.stuck = false) {i : Nat} {base : Bytes} {loads : Bool}
    (hi : s.slots[i]? = some ⟨none, [.load base loads]⟩) :
    (loads = true ∨ (∃ d r, s.heap d = some r ∧ r.name = base) → ∃ r, Uses (s.step (.sec i)) i r ∧ r.name = base) ∧
    (loads = false → (∀ d r, s.heap d = some r → r.name ≠ base) → ¬ IsOpen (s.step (.sec i)) i) := by
  rw [step_sec hst hi]
  have hg := get_setTodo hi []
  have hh : (s.setTodo i []).heap = s.heap ∧ (s.setTodo i []).map = s.map := by unfold St.setTodo; rw [hi]; exact ⟨rfl, rfl⟩
  show (_ → ∃ r, Uses ((s.setTodo i []).load i base loads) i r ∧ _) ∧ (_ → _ → ¬ IsOpen ((s.setTodo i []).load i base loads) i)
  have hs1 := inv_setTodo hs hi []
  rw [← hh.1]
  generalize s.setTodo i [] = s1 at hg hs1
  unfold St.load
  cases hl : s1.map.lookup base with
  | some d =>
    obtain ⟨r, hr, hn⟩ := (hs1.map base d).1 hl
    exact ⟨fun _ => ⟨_, uses_addRef hg hr, hn⟩, fun _ h => absurd hn (h d r hr)⟩
  | none =>
    cases loads with
    | true =>
      refine ⟨fun _ => ?_, fun h => nomatch h⟩
      refine ⟨_, uses_addRef (sl := ⟨none, []⟩) (r := { lib := some s1.libs, name := base, refs := 0 }) hg (if_pos rfl), rfl⟩
    | false =>
      refine ⟨?_, ?_⟩
      · rintro (h | ⟨d, r, h1, h2⟩)
        · exact nomatch h
        · rw [(hs1.map base d).2 ⟨r, h1, h2⟩] at hl; exact nomatch hl
      · rintro _ _ ⟨sl, h1, h2⟩
        have h1 : s1.slots[i]? = some sl := h1
        rw [hg] at h1
        cases h1
        exact nomatch h2

/-- The last section of a copy: the object shares the record of its source, or is closed. -/
theorem sec_grab {s : St} (hst : s.stuck = false) {i src : Nat} (hne : src ≠ i)
    (hi : s.slots[i]? = some ⟨none, [.grab src]⟩) :
    (∀ r, Uses s src r → ∃ r', Uses (s.step (.sec i)) i r' ∧ r'.name = r.name ∧ r'.lib = r.lib) ∧
    (¬ IsOpen s src → ¬ IsOpen (s.step (.sec i)) i) := by
  rw [step_sec hst hi]
  have hg := get_setTodo hi []
  have hh : (s.setTodo i []).heap = s.heap := by unfold St.setTodo; rw [hi]
  have ho : (s.setTodo i []).slots[src]? = s.slots[src]? := setTodo_other (Ne.symm hne) _
  show (∀ r, _ → ∃ r', Uses ((s.setTodo i []).grab i src) i r' ∧ _) ∧ (_ → ¬ IsOpen ((s.setTodo i []).grab i src) i)
  constructor
  · rintro r ⟨sl, d, h1, h2, h3⟩
    rw [← ho] at h1
    rw [← hh] at h3
    unfold St.grab
    simp only [h1, Option.bind_some, h2]
    exact ⟨_, uses_addRef hg h3, rfl, rfl⟩
  · intro hn
    have : ((s.setTodo i []).slots[src]?).bind (·.ptr) = none := by
      rw [ho]
      cases h : s.slots[src]? with
      | none => rfl
      | some sl =>
        cases hp : sl.ptr with
        | none => simp [hp]
        | some d => exact absurd ⟨sl, h, by simp [hp]⟩ hn
    unfold St.grab
    simp only [this]
    rintro ⟨sl, h1, h2⟩
    have hlt := (List.getElem?_eq_some_iff.1 hg).1
    unfold St.setPtr at h1
    simp only [hg, List.getElem?_set_self hlt, Option.some.injEq] at h1
    subst h1
    exact nomatch h2

end Verif.Plugin
