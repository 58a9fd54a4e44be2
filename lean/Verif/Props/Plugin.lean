import Verif.Lemmas.PluginEffect
import Mathlib.Data.List.Induction
/-
C38: reference counting of plug-in libraries, for every interleaving of the calls of any number of threads.
-/
namespace Verif.Props.Plugin
open Verif.Plugin Verif.Spec.Plugin Verif.SMap

/-- C38: freed memory is never used. -/
theorem no_use_after_free (as : List Act) : (run as).bad = false := (inv_run as).1.bad

/-- C38: an open plug-in object refers to a live record, whose library, unless linked statically, is loaded. -/
theorem open_is_loaded (as : List Act) (i : Nat) (h : IsOpen (run as) i) :
    ∃ r, Uses (run as) i r ∧ ∀ lib, r.lib = some lib → Loaded (run as) lib := by
  obtain ⟨hs, -⟩ := inv_run as
  obtain ⟨sl, hsl, hp⟩ := h
  obtain ⟨d, hd⟩ := Option.isSome_iff_exists.1 hp
  obtain ⟨r, hr⟩ := Option.ne_none_iff_exists'.1 (hs.live sl (List.mem_of_getElem? hsl) d hd)
  exact ⟨r, ⟨sl, d, hsl, hd, hr⟩, fun lib hl => (hs.dyn d r lib hr hl).2⟩

/-- C38: at every moment the loaded libraries are exactly those that some plug-in object refers to. So a library
    is closed exactly when its last reference goes. -/
theorem loaded_iff_used (as : List Act) (lib : Nat) :
    Loaded (run as) lib ↔ ∃ i r, Uses (run as) i r ∧ r.lib = some lib := by
  obtain ⟨hs, -⟩ := inv_run as
  constructor
  · intro hL
    obtain ⟨d, r, hr, hl⟩ := hs.held lib hL
    have hpos := (hs.dyn d r lib hr hl).1
    rw [hs.refs d r hr] at hpos
    unfold St.count at hpos
    obtain ⟨sl, hsl, hp⟩ := List.countP_pos_iff.1 hpos
    obtain ⟨i, hi, he⟩ := List.mem_iff_getElem.1 hsl
    exact ⟨i, r, ⟨sl, d, List.getElem?_eq_some_iff.2 ⟨hi, he⟩, by simpa using hp, hr⟩, hl⟩
  · rintro ⟨i, r, ⟨sl, d, hsl, hp, hr⟩, hl⟩
    exact (hs.dyn d r lib hr hl).2

/-- C38: a library is opened once and closed at most once. -/
theorem events_once (as : List Act) : (run as).log.Nodup := (inv_run as).1.once

/-- C38: the step that closes a library takes away the last reference to it. -/
theorem closed_with_last_reference (as : List Act) (a : Act) (lib : Nat)
    (hbefore : .closed lib ∉ (run as).log) (hafter : .closed lib ∈ (run (as ++ [a])).log)
    (hop : .opened lib ∈ (run as).log) :
    (∃ i r, Uses (run as) i r ∧ r.lib = some lib) ∧ ∀ i r, Uses (run (as ++ [a])) i r → r.lib ≠ some lib := by
  refine ⟨(loaded_iff_used as lib).1 ⟨hop, hbefore⟩, ?_⟩
  intro i r hu hl
  exact ((loaded_iff_used (as ++ [a]) lib).2 ⟨i, r, hu, hl⟩).2 hafter

/-- C38: two open objects with the same plug-in name share one record. -/
theorem same_name_shared (as : List Act) (i j : Nat) (r r' : Rec) (hi : Uses (run as) i r) (hj : Uses (run as) j r')
    (hn : r.name = r'.name) : r = r' := by
  obtain ⟨hs, -⟩ := inv_run as
  obtain ⟨sl, d, -, -, hr⟩ := hi
  obtain ⟨sl', d', -, -, hr'⟩ := hj
  have h1 := (hs.map r.name d).2 ⟨r, hr, rfl⟩
  have h2 := (hs.map r.name d').2 ⟨r', hr', hn.symm⟩
  rw [h1] at h2
  cases h2
  rw [hr] at hr'
  exact Option.some.inj hr'

/-- C38: a plug-in linked statically stays available under its name, whatever happens. -/
theorem static_stays (as bs : List Act) (name : Bytes) (d : Nat) (h : (run as).map.lookup name = some d)
    (hs : ∃ r, (run as).heap d = some r ∧ r.lib = none) :
    (run (as ++ bs)).map.lookup name = some d ∧ ∃ r, (run (as ++ bs)).heap d = some r ∧ r.lib = none := by
  induction bs using List.reverseRecOn with
  | nil => rw [List.append_nil]; exact ⟨h, hs⟩
  | append_singleton bs b ih =>
    have : run (as ++ (bs ++ [b])) = (run (as ++ bs)).step b := by
      unfold run; rw [← List.append_assoc, List.foldl_append]; rfl
    rw [this]
    exact static_step (inv_run _).1 ih.1 ih.2 b

theorem run_append (as bs : List Act) : run (as ++ bs) = bs.foldl St.step (run as) := by
  unfold run; rw [List.foldl_append]

/-- C38: `open_file` works, also when others work at the same time: the object is open in the end, on a library with
    the name, if the file can be loaded or the name is known already when the call takes its last step. Otherwise
    the object is closed. -/
theorem open_file_opens (as mid mid' : List Act) (i : Nat) (p : Option Nat) (base : Bytes) (loads : Bool)
    (hi : (run as).slots[i]? = some ⟨p, []⟩) (h1 : Act.sec i ∉ mid) (h2 : Act.sec i ∉ mid')
    (hst : (run (as ++ [.call i (.openFile base loads)] ++ mid ++ [.sec i] ++ mid' ++ [.sec i])).stuck = false) :
    let before := run (as ++ [.call i (.openFile base loads)] ++ mid ++ [.sec i] ++ mid')
    let after := run (as ++ [.call i (.openFile base loads)] ++ mid ++ [.sec i] ++ mid' ++ [.sec i])
    (loads = true ∨ (∃ j r, Uses before j r ∧ r.name = base) → ∃ r, Uses after i r ∧ r.name = base) ∧
    (loads = false → (∀ d r, before.heap d = some r → r.name ≠ base) → ¬ IsOpen after i) := by
  intro before after
  have e1 : after = before.step (.sec i) := run_append _ _
  have e2 : before = (mid').foldl St.step (run (as ++ [.call i (.openFile base loads)] ++ mid ++ [.sec i])) := run_append _ _
  have e3 := run_append (as ++ [.call i (.openFile base loads)] ++ mid) [.sec i]
  have e4 := run_append (as ++ [.call i (.openFile base loads)]) mid
  have e5 := run_append as [.call i (.openFile base loads)]
  have hb : before.stuck = false := not_stuck (as := [.sec i]) (by rw [← run_append]; exact hst)
  have h3 := not_stuck (as := mid') (by rw [← e2]; exact hb)
  have h4 := not_stuck (by rw [← e3]; exact h3)
  have h5 := not_stuck (by rw [← e4]; exact h4)
  have h6 := not_stuck (by rw [← e5]; exact h5)
  have s1 : (run (as ++ [.call i (.openFile base loads)])).slots[i]? = some ⟨p, [.release, .load base loads]⟩ := by
    rw [e5]; exact step_call h6 hi _
  have s2 := steps_other (by simp) mid _ s1 h1
  rw [← e4] at s2
  have s3 := sec_release (inv_run _).1 h4 s2
  have s3' : (run (as ++ [.call i (.openFile base loads)] ++ mid ++ [.sec i])).slots[i]? = some ⟨none, [.load base loads]⟩ := by rw [e3]; exact s3
  have s4 := steps_other (by simp) mid' _ s3' h2
  rw [← e2] at s4
  have := sec_load (inv_run _).1 hb s4
  rw [e1]
  refine ⟨fun h => this.1 (h.imp id ?_), this.2⟩
  rintro ⟨j, r, ⟨sl, d, -, -, hd⟩, hn⟩
  exact ⟨d, r, hd, hn⟩

/-- C38: `close`, or the destructor, closes the object. -/
theorem close_closes (as mid : List Act) (i : Nat) (p : Option Nat)
    (hi : (run as).slots[i]? = some ⟨p, []⟩) (h1 : Act.sec i ∉ mid)
    (hst : (run (as ++ [.call i .close] ++ mid ++ [.sec i])).stuck = false) :
    ¬ IsOpen (run (as ++ [.call i .close] ++ mid ++ [.sec i])) i := by
  have e3 := run_append (as ++ [.call i .close] ++ mid) [.sec i]
  have e4 := run_append (as ++ [.call i .close]) mid
  have e5 := run_append as [.call i .close]
  have h4 := not_stuck (by rw [← e3]; exact hst)
  have h5 := not_stuck (by rw [← e4]; exact h4)
  have h6 := not_stuck (by rw [← e5]; exact h5)
  have s1 : (run (as ++ [.call i .close])).slots[i]? = some ⟨p, [.release]⟩ := by rw [e5]; exact step_call h6 hi _
  have s2 := steps_other (by simp) mid _ s1 h1
  rw [← e4] at s2
  have s3 := sec_release (inv_run _).1 h4 s2
  rw [e3]
  rintro ⟨sl, h, ho⟩
  rw [List.foldl_cons, List.foldl_nil, s3] at h
  cases h
  exact nomatch ho

/-- C38: assignment from another object: in the end the object shares what the other one used when the call took its
    last step, and is closed if the other one was closed. -/
theorem assign_shares (as mid mid' : List Act) (i src : Nat) (p : Option Nat) (hne : src ≠ i)
    (hi : (run as).slots[i]? = some ⟨p, []⟩) (h1 : Act.sec i ∉ mid) (h2 : Act.sec i ∉ mid')
    (hst : (run (as ++ [.call i (.assign src)] ++ mid ++ [.sec i] ++ mid' ++ [.sec i])).stuck = false) :
    let before := run (as ++ [.call i (.assign src)] ++ mid ++ [.sec i] ++ mid')
    let after := run (as ++ [.call i (.assign src)] ++ mid ++ [.sec i] ++ mid' ++ [.sec i])
    (∀ r, Uses before src r → ∃ r', Uses after i r' ∧ r'.name = r.name ∧ r'.lib = r.lib) ∧
    (¬ IsOpen before src → ¬ IsOpen after i) := by
  intro before after
  have e1 : after = before.step (.sec i) := run_append _ _
  have e2 : before = (mid').foldl St.step (run (as ++ [.call i (.assign src)] ++ mid ++ [.sec i])) := run_append _ _
  have e3 := run_append (as ++ [.call i (.assign src)] ++ mid) [.sec i]
  have e4 := run_append (as ++ [.call i (.assign src)]) mid
  have e5 := run_append as [.call i (.assign src)]
  have hb : before.stuck = false := not_stuck (as := [.sec i]) (by rw [← run_append]; exact hst)
  have h3 := not_stuck (as := mid') (by rw [← e2]; exact hb)
  have h4 := not_stuck (by rw [← e3]; exact h3)
  have h5 := not_stuck (by rw [← e4]; exact h4)
  have h6 := not_stuck (by rw [← e5]; exact h5)
  have s1 : (run (as ++ [.call i (.assign src)])).slots[i]? = some ⟨p, [.release, .grab src]⟩ := by
    rw [e5]; exact step_call h6 hi _
  have s2 := steps_other (by simp) mid _ s1 h1
  rw [← e4] at s2
  have s3 := sec_release (inv_run _).1 h4 s2
  have s3' : (run (as ++ [.call i (.assign src)] ++ mid ++ [.sec i])).slots[i]? = some ⟨none, [.grab src]⟩ := by rw [e3]; exact s3
  have s4 := steps_other (by simp) mid' _ s3' h2
  rw [← e2] at s4
  rw [e1]
  exact sec_grab hb hne s4

/-- C38: a copy of an object shares what the object used when the copy took its step. -/
theorem copy_shares (as mid : List Act) (src : Nat) (hsrc : src < (run as).slots.length)
    (h1 : Act.sec (run as).slots.length ∉ mid)
    (hst : (run (as ++ [.create (some src)] ++ mid ++ [.sec (run as).slots.length])).stuck = false) :
    let i := (run as).slots.length
    let before := run (as ++ [.create (some src)] ++ mid)
    let after := run (as ++ [.create (some src)] ++ mid ++ [.sec i])
    (∀ r, Uses before src r → ∃ r', Uses after i r' ∧ r'.name = r.name ∧ r'.lib = r.lib) ∧
    (¬ IsOpen before src → ¬ IsOpen after i) := by
  intro i before after
  have e1 : after = before.step (.sec i) := run_append _ _
  have e2 : before = mid.foldl St.step (run (as ++ [.create (some src)])) := run_append _ _
  have e3 := run_append as [.create (some src)]
  have hb : before.stuck = false := not_stuck (as := [.sec i]) (by rw [← run_append]; exact hst)
  have h3 := not_stuck (as := mid) (by rw [← e2]; exact hb)
  have h4 := not_stuck (by rw [← e3]; exact h3)
  have s1 : (run (as ++ [.create (some src)])).slots[i]? = some ⟨none, [.grab src]⟩ := by
    rw [e3, List.foldl_cons, List.foldl_nil]
    unfold St.step
    simp [h4, i]
  have s2 := steps_other (by simp) mid _ s1 h1
  rw [← e2] at s2
  rw [e1]
  exact sec_grab hb (Nat.ne_of_lt hsrc) s2

/-- C38: a closed object opens a library by name when some object uses the library at that moment, or the plug-in is
    linked statically. -/
theorem open_name_opens (as mid : List Act) (i : Nat) (name : Bytes) (file : Option (Bytes × Bool))
    (hi : (run as).slots[i]? = some ⟨none, []⟩) (h1 : Act.sec i ∉ mid)
    (hst : (run (as ++ [.call i (.openName name file)] ++ mid ++ [.sec i])).stuck = false) (d : Nat) (r : Rec)
    (hd : (run (as ++ [.call i (.openName name file)] ++ mid)).heap d = some r) (hn : r.name = name) :
    ∃ r', Uses (run (as ++ [.call i (.openName name file)] ++ mid ++ [.sec i])) i r' ∧ r'.name = name ∧ r'.lib = r.lib := by
  have e3 := run_append (as ++ [.call i (.openName name file)] ++ mid) [.sec i]
  have e4 := run_append (as ++ [.call i (.openName name file)]) mid
  have e5 := run_append as [.call i (.openName name file)]
  have h4 := not_stuck (by rw [← e3]; exact hst)
  have h5 := not_stuck (by rw [← e4]; exact h4)
  have h6 := not_stuck (by rw [← e5]; exact h5)
  have s1 : (run (as ++ [.call i (.openName name file)])).slots[i]? = some ⟨none, [.byName name file]⟩ := by
    rw [e5]; exact step_call h6 hi _
  have s2 := steps_other (by simp) mid _ s1 h1
  rw [← e4] at s2
  rw [e3, List.foldl_cons, List.foldl_nil, step_sec h4 s2]
  have hl := ((inv_run (as ++ [.call i (.openName name file)] ++ mid)).1.map name d).2 ⟨r, hd, hn⟩
  have hg := get_setTodo s2 []
  generalize run (as ++ [.call i (.openName name file)] ++ mid) = s at *
  have hh : (s.setTodo i []).heap = s.heap ∧ (s.setTodo i []).map = s.map := by unfold St.setTodo; rw [s2]; exact ⟨rfl, rfl⟩
  rw [← hh.1] at hd
  rw [← hh.2] at hl
  show ∃ r', Uses ((s.setTodo i []).byName i name file) i r' ∧ _
  unfold St.byName
  simp only [hl, hg, Option.bind_some, Option.isSome_none, Bool.false_eq_true, if_false]
  exact ⟨_, uses_addRef hg hd, hn, rfl⟩

/-- C38: opening by name a library that is not loaded goes on as opening the file found. -/
theorem open_name_loads (as mid : List Act) (i : Nat) (p : Option Nat) (name base : Bytes) (loads : Bool)
    (hi : (run as).slots[i]? = some ⟨p, []⟩) (h1 : Act.sec i ∉ mid)
    (hst : (run (as ++ [.call i (.openName name (some (base, loads)))] ++ mid)).stuck = false)
    (hn : ∀ d r, (run (as ++ [.call i (.openName name (some (base, loads)))] ++ mid)).heap d = some r → r.name ≠ name) :
    (run (as ++ [.call i (.openName name (some (base, loads)))] ++ mid ++ [.sec i])).slots[i]? =
      some ⟨p, (Call.openFile base loads).sections⟩ := by
  have e3 := run_append (as ++ [.call i (.openName name (some (base, loads)))] ++ mid) [.sec i]
  have e4 := run_append (as ++ [.call i (.openName name (some (base, loads)))]) mid
  have e5 := run_append as [.call i (.openName name (some (base, loads)))]
  have h5 := not_stuck (by rw [← e4]; exact hst)
  have h6 := not_stuck (by rw [← e5]; exact h5)
  have s1 : (run (as ++ [.call i (.openName name (some (base, loads)))])).slots[i]? =
      some ⟨p, [.byName name (some (base, loads))]⟩ := by rw [e5]; exact step_call h6 hi _
  have s2 := steps_other (by simp) mid _ s1 h1
  rw [← e4] at s2
  rw [e3, List.foldl_cons, List.foldl_nil, step_sec hst s2]
  have hm := (inv_run (as ++ [.call i (.openName name (some (base, loads)))] ++ mid)).1.map name
  have hg := get_setTodo s2 []
  generalize run (as ++ [.call i (.openName name (some (base, loads)))] ++ mid) = s at *
  have hl : (s.setTodo i []).map.lookup name = none := by
    have : (s.setTodo i []).map = s.map := by unfold St.setTodo; rw [s2]
    rw [this]
    cases h : s.map.lookup name with
    | none => rfl
    | some d => obtain ⟨r, h1, h2⟩ := (hm d).1 h; exact absurd h2 (hn d r h1)
  show ((s.setTodo i []).byName i name (some (base, loads))).slots[i]? = _
  unfold St.byName
  simp only [hl]
  exact get_setTodo hg _

/-- Two objects open the same library, one is copied, and the first two are closed. -/
def demo : List Act :=
  [.addStatic (b! "S"), .create none, .create none,
   .call 0 (.openFile (b! "L") true), .sec 0, .call 1 (.openName (b! "L") none), .sec 0, .sec 1,
   .create (some 1), .sec 2, .call 0 .close, .sec 0, .call 1 .close, .sec 1]

example : (run demo).log = [.opened 0] ∧ (run demo).slots.map (·.ptr) = [none, none, some 1] := by decide +kernel
example : IsOpen (run demo) 2 := ⟨{ ptr := some 1 }, by decide +kernel, rfl⟩
example : (run (demo ++ [.call 2 .close, .sec 2])).log = [.opened 0, .closed 0] := by decide +kernel

-- Object 0 opens the library that object 2 uses, although the file can no longer be loaded.
example : (run demo).slots[0]? = some ⟨none, []⟩ ∧
    (run (demo ++ [.call 0 (.openFile (b! "L") false)] ++ [.create none] ++ [.sec 0] ++ [.call 1 .close] ++ [.sec 0])).stuck
      = false ∧ Uses (run (demo ++ [.call 0 (.openFile (b! "L") false)] ++ [.create none] ++ [.sec 0] ++ [.call 1 .close])) 2
        { lib := some 0, name := b! "L", refs := 1 } :=
  ⟨by decide +kernel, by decide +kernel, { ptr := some 1 }, 1, by decide +kernel, rfl, by decide +kernel⟩
-- Objects 0 and 1 are assigned what object 2 uses; object 2 is copied; object 0 opens it by name.
example : (run (demo ++ [.call 0 (.assign 2)] ++ [.call 1 (.assign 2), .sec 1] ++ [.sec 0] ++ [.sec 1] ++ [.sec 0])).slots.map
    (·.ptr) = [some 1, some 1, some 1] := by decide +kernel
example : (run (demo ++ [.create (some 2)] ++ [.call 1 .close, .sec 1] ++ [.sec (run demo).slots.length])).slots.map
    (·.ptr) = [none, none, some 1, some 1] := by decide +kernel
example : (run (demo ++ [.call 0 (.openName (b! "L") none)] ++ [.create none] ++ [.sec 0])).stuck = false ∧
    (run (demo ++ [.call 0 (.openName (b! "L") none)] ++ [.create none])).heap 1 =
      some { lib := some 0, name := b! "L", refs := 1 } := by decide +kernel
example : (run demo).map.lookup (b! "S") = some 0 ∧ ∃ r, (run demo).heap 0 = some r ∧ r.lib = none :=
  ⟨by decide +kernel, { lib := none, name := b! "S", refs := 0 }, by decide +kernel, rfl⟩

/-- Sharp edge: `open` by name on an object that is open blocks for ever when the name is loaded, and with it every
    later call of any thread: `release_data` locks the mutex again that `open` holds. -/
theorem open_twice_blocks (s : St) (i : Nat) (sl : Slot) (name : Bytes) (file : Option (Bytes × Bool)) (d : Nat)
    (hst : s.stuck = false) (hi : s.slots[i]? = some sl) (ht : sl.todo = []) (ho : sl.ptr.isSome)
    (hd : s.map.lookup name = some d) (more : List Act) :
    (([Act.call i (.openName name file), Act.sec i] ++ more).foldl St.step s).stuck = true := by
  obtain ⟨p, t⟩ := sl
  simp only at ht ho
  subst ht
  have h1 : s.step (.call i (.openName name file)) = s.setTodo i [.byName name file] := by
    unfold St.step; simp [hst, hi, Call.sections]
  have hg := get_setTodo hi [.byName name file]
  have hf : (s.setTodo i [.byName name file]).stuck = false ∧ (s.setTodo i [.byName name file]).map = s.map := by
    unfold St.setTodo; rw [hi]; exact ⟨hst, rfl⟩
  rw [List.foldl_append, List.foldl_cons, List.foldl_cons, List.foldl_nil, h1]
  generalize s.setTodo i [.byName name file] = s1 at hg hf
  have h2 : (s1.step (.sec i)).stuck = true := by
    unfold St.step
    rw [hf.1]
    simp only [Bool.false_eq_true, if_false, hg]
    have hg2 := get_setTodo hg []
    have hm : (s1.setTodo i []).map = s1.map := by unfold St.setTodo; rw [hg]
    unfold St.exec St.byName
    simp only
    rw [hm, hf.2, hd, hg2]
    simp [ho]
  generalize s1.step (.sec i) = s2 at h2
  induction more with
  | nil => exact h2
  | cons a more ih =>
    rw [List.foldl_cons]
    have : s2.step a = s2 := by unfold St.step; rw [h2]; rfl
    rw [this]
    exact ih

example : (run (demo ++ [.call 2 (.openName (b! "S") none), .sec 2])).stuck = true := by decide +kernel

/-- Sharp edge: assigning an object to itself closes it, and unloads the library if this was the last reference. -/
theorem self_assignment_closes :
    (run (demo ++ [.call 2 (.assign 2), .sec 2, .sec 2])).slots.map (·.ptr) = [none, none, none] ∧
    (run (demo ++ [.call 2 (.assign 2), .sec 2, .sec 2])).log = [.opened 0, .closed 0] := by decide +kernel

end Verif.Props.Plugin
