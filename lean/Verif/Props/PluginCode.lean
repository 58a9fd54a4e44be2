import Verif.Lemmas.PluginCodeInv
/-
C89: the code of a plug-in is loaded while its objects live, and objects are destroyed by whoever made them.
-/
namespace Verif.Props.PluginCode
open Verif.PluginCode Verif.Spec.PluginCode

private theorem sound (ops : List Op) : Sound (run ops) := sound_run ops {} sound_init

private theorem objs (ops : List Op) (h : Obeys {} ops) : Objs (run ops) (run ops).entries := objs_run ops {} sound_init objs_init h

/-- C89: whatever a program does that obeys the rules: an object is destroyed while it lives and by a function of whoever made
    it, the code of its maker is loaded whenever it is called or destroyed, and it is destroyed once. -/
theorem right_code_partial (ops : List Op) (h : Obeys {} ops) :
    (∀ ev ∈ (run ops).log, Good ev) ∧ (destroyed (run ops)).Nodup :=
  ⟨(objs ops h).good, (objs ops h).once⟩

/-- C89: the objects of managers live, each in one entry; the functions of the entry are those of the object's maker, and they
    are loaded. -/
theorem managed_partial (ops : List Op) (h : Obeys {} ops) :
    (∀ e ∈ (run ops).entries, (run ops).objs e.obj = some (maker (run ops).lib e.slot) ∧
      codeLoaded (run ops).lib ((run ops).objs e.obj) = true) ∧
    ((run ops).entries.map (·.obj)).Nodup := by
  have ho := objs ops h
  refine ⟨fun e he => ⟨ho.made e he, ?_⟩, ho.owners⟩
  rw [ho.made e he]
  exact codeLoaded_maker (sound ops).quiet.inv _

private theorem open_iff {s : St} (h : Sound s) (lib : Nat) : isLoaded s.lib lib = true ↔ ∃ n, OpenBy s lib n := by
  constructor
  · intro hl
    obtain ⟨i, n, hc⟩ := code_of_loaded h.quiet.inv hl
    refine ⟨n, i, ?_, hc⟩
    rcases List.mem_append.1 (h.opened i _ hc) with hi | hi
    · obtain ⟨e, he, hs⟩ := List.mem_map.1 hi
      exact .inr ⟨e, he, hs⟩
    · exact .inl hi
  · rintro ⟨n, i, -, hc⟩
    exact loaded_of_code h.quiet.inv hc

/-- C89: after every history, obedient or not, a library is loaded exactly as long as a manager has an object of it or the
    program has a `plugin_ptr` to it. -/
theorem loaded_iff_open (ops : List Op) (lib : Nat) : isLoaded (run ops).lib lib = true ↔ ∃ n, OpenBy (run ops) lib n :=
  open_iff (sound ops) lib

/-- C89: when the managers are empty and the program has no `plugin_ptr`, nothing is loaded. -/
theorem all_unloaded (ops : List Op) (he : (run ops).entries = []) (hp : (run ops).ptrs = []) (lib : Nat) :
    isLoaded (run ops).lib lib = false := by
  rw [← Bool.not_eq_true, loaded_iff_open]
  rintro ⟨n, i, hi, -⟩
  rw [he, hp] at hi
  simp at hi

private theorem mem_destroyed_kills (es : List Entry) : ∀ s : St,
    ∀ o, o ∈ destroyed s ∨ (∃ e ∈ es, e.obj = o) →
      o ∈ destroyed (es.foldl (fun s e => s.kill e.obj (maker s.lib e.slot)) s) := by
  induction es with
  | nil => intro s o h; rcases h with h | ⟨e, he, -⟩; exacts [h, nomatch he]
  | cons e es ih =>
    intro s o h
    refine ih _ o ?_
    rw [destroyed_kill]
    rcases h with h | ⟨e', he', rfl⟩
    · exact .inl (List.mem_append_left _ h)
    · rcases List.mem_cons.1 he' with rfl | he'
      · exact .inl (List.mem_append_right _ (List.mem_singleton_self _))
      · exact .inr ⟨e', he', rfl⟩

/-- C89: `clear` destroys all objects of a manager, leaves it empty, and leaves the other managers alone. -/
theorem clear_exact (ops : List Op) (m : Nat) :
    ((run ops).clear m).entries = (run ops).entries.filter (·.mgr ≠ m) ∧ ((run ops).clear m).ptrs = (run ops).ptrs ∧
    ∀ e ∈ (run ops).entries, e.mgr = m → e.obj ∈ destroyed ((run ops).clear m) := by
  rw [clear_eq]
  refine ⟨?_, ?_, ?_⟩
  · dsimp only
    refine List.filter_congr fun e _ => ?_
    by_cases h : e.mgr = m <;> simp [h]
  · exact (sound_kills _ _ (sound ops)).2.2.2
  · intro e he hm
    exact mem_destroyed_kills _ _ _ (.inr ⟨e, List.mem_filter.2 ⟨he, by simp [hm]⟩, rfl⟩)

private theorem loaded_congr {s s' : St} (h : Sound s) (h' : Sound s') (hc : ∀ j, codeOf s'.lib j = codeOf s.lib j) (lib : Nat) :
    isLoaded s'.lib lib = isLoaded s.lib lib := by
  rw [Bool.eq_iff_iff]
  constructor <;> intro hl
  · obtain ⟨i, n, hi⟩ := code_of_loaded h'.quiet.inv hl
    exact loaded_of_code h.quiet.inv ((hc i).symm.trans hi)
  · obtain ⟨i, n, hi⟩ := code_of_loaded h.quiet.inv hl
    exact loaded_of_code h'.quiet.inv ((hc i).trans hi)

/-- C89: opening a file either loads it and finds both functions, or leaves nothing open. -/
theorem openPlugin_exact (base : Bytes) (f : Image) :
    ((openPlugin base f).1 = true ↔ IsPlugin base f) ∧
    (openPlugin base f).2.count .opened = (openPlugin base f).2.count .closed + if (openPlugin base f).1 then 1 else 0 := by
  unfold openPlugin IsPlugin
  generalize b! "pion_create_" ++ base = a
  generalize b! "pion_destroy_" ++ base = b
  by_cases h1 : f.loads = true <;> by_cases h2 : a ∈ f.symbols <;> by_cases h3 : b ∈ f.symbols <;> simp [h1, h2, h3]

/-- C89: `load` of an identifier that is free gives a new object, made by the plug-in of this name (`found`), which `get` then
    gives for the identifier; or it throws and changes nothing. -/
theorem load_exact (ops : List Op) (m : Nat) (id name : Bytes) (file : Option (Bytes × Image)) (creates : Bool)
    (hid : (run ops).find m id = none) :
    let s := run ops
    let r := s.step (.load m id name file creates)
    match found s.lib name (file.map fun f => (f.1, (openPlugin f.1 f.2).1)) with
    | none => r.1 = .noLibrary ∧ SameFor s r.2
    | some (lib, n) =>
      if creates then
        s.objs s.next = none ∧ r.1 = .object s.next ∧ (∀ o, r.2.objs o = if o = s.next then some (.plugin lib n) else s.objs o) ∧
        (∃ e, r.2.find m id = some e ∧ e.obj = s.next ∧ maker r.2.lib e.slot = .plugin lib n) ∧
        (∀ m' id', (m', id') ≠ (m, id) → r.2.find m' id' = s.find m' id') ∧ r.2.ptrs = s.ptrs ∧ r.2.log = s.log
      else r.1 = .createFailed ∧ SameFor s r.2 := by
  dsimp only
  have h := sound ops
  have h' := sound_step h (.load m id name file creates)
  generalize run ops = s at *
  obtain ⟨h1, h2, h3, h4⟩ := openNew_ok h.quiet name file
  have hlt : s.lib.slots.length < (openNew s.lib name file).slots.length := by omega
  rw [← h3]
  revert h'
  simp only [St.step, hid, St.load]
  cases hc : codeOf (openNew s.lib name file) s.lib.slots.length with
  | none =>
    dsimp only
    intro h'
    refine ⟨rfl, rfl, rfl, rfl, rfl, loaded_congr h h' fun j => ?_⟩
    by_cases hj : j = s.lib.slots.length
    · subst hj; exact hc.trans (codeOf_ge (Nat.le_refl _)).symm
    · exact h4 j hj
  | some c =>
    obtain ⟨lib, n⟩ := c
    dsimp only
    obtain ⟨k1, k2, k3, k4⟩ := copy_ok h1 hlt
    obtain ⟨g1, g2, g3, g4⟩ := close_ok k1 (i := s.lib.slots.length) (by omega)
    cases creates with
    | true =>
      intro h'
      rw [if_pos rfl, if_pos rfl]
      refine ⟨h.fresh _ (Nat.le_refl _), rfl, fun o => rfl,
        ⟨{ mgr := m, id := id, obj := s.next, slot := (openNew s.lib name file).slots.length }, ?_, rfl, ?_⟩, ?_, rfl, rfl⟩
      · unfold St.find at hid ⊢
        simp only [St.make, List.find?_append, hid]
        simp
      · have : codeOf (close (copy (openNew s.lib name file) s.lib.slots.length) s.lib.slots.length)
            (openNew s.lib name file).slots.length = some (lib, n) := by rw [g4 _ (by omega), k3, hc]
        unfold maker
        simp only [St.make]
        rw [this]
      · intro m' id' hne
        unfold St.find
        simp only [St.make, List.find?_append]
        have : ¬ (m = m' ∧ id = id') := fun hh => hne (by rw [hh.1, hh.2])
        by_cases hm : m = m' <;> by_cases hi : id = id' <;> simp_all
    | false =>
      simp only [Bool.false_eq_true, if_false]
      intro h'
      obtain ⟨g1, g2, g3, g4⟩ := close_ok h1 hlt
      refine ⟨trivial, rfl, rfl, rfl, rfl, loaded_congr h h' fun j => ?_⟩
      by_cases hj : j = s.lib.slots.length
      · subst hj; exact g3.trans (codeOf_ge (Nat.le_refl _)).symm
      · exact (g4 j hj).trans (h4 j hj)

/-- C89: the plug-in in the table is one that is open, unless it is linked statically. So `load` shares the library with
    whoever has it open, and loads the file otherwise. -/
theorem record_iff (ops : List Op) (name : Bytes) (lib : Nat) (n : Bytes) :
    record (run ops).lib name = some (some lib, n) ↔ n = name ∧ OpenBy (run ops) lib name := by
  have h := sound ops
  generalize run ops = s at *
  constructor
  · intro hr
    obtain ⟨r, hr', he⟩ := Option.map_eq_some_iff.1 hr
    obtain ⟨d, hd, hr'⟩ := Option.bind_eq_some_iff.1 hr'
    obtain ⟨r2, h2, hn⟩ := (h.quiet.inv.map name d).1 hd
    rw [hr'] at h2
    cases h2
    obtain ⟨hl, rfl⟩ : r.lib = some lib ∧ r.name = n := by simpa using he
    refine ⟨hn, ?_⟩
    obtain ⟨i, hi⟩ := code_of_record h.quiet.inv hr' hl
    rw [hn] at hi
    refine ⟨i, ?_, hi⟩
    rcases List.mem_append.1 (h.opened i _ hi) with hi | hi
    · obtain ⟨e, he, hs⟩ := List.mem_map.1 hi
      exact .inr ⟨e, he, hs⟩
    · exact .inl hi
  · rintro ⟨rfl, i, -, hc⟩
    unfold codeOf at hc
    obtain ⟨r, hr, he⟩ := Option.map_eq_some_iff.1 hc
    obtain ⟨d, _, hd⟩ := Option.bind_eq_some_iff.1 hr
    have := (h.quiet.inv.map n d).2 ⟨r, hd, congrArg Prod.snd he⟩
    unfold record
    rw [this]
    simpa [hd] using he

/-- C89: `clone` gives a new object of the plug-in that made the object in the manager, and nothing else changes; it throws for
    an object of the program, and for an identifier that is not there. -/
theorem clone_exact (ops : List Op) (m : Nat) (id : Bytes) :
    let s := run ops
    let r := s.step (.clone m id true)
    match s.find m id with
    | none => r = (.notFound, s)
    | some e =>
      match maker s.lib e.slot with
      | .program => r = (.undefined, s)
      | .plugin lib n => s.objs s.next = none ∧ r.1 = .object s.next ∧
          (∀ o, r.2.objs o = if o = s.next then some (.plugin lib n) else s.objs o) ∧
          r.2.lib = s.lib ∧ r.2.entries = s.entries ∧ r.2.ptrs = s.ptrs ∧ r.2.log = s.log := by
  dsimp only
  have h := sound ops
  generalize run ops = s at *
  cases hf : s.find m id with
  | none => simp only [St.step, hf]
  | some e =>
    simp only [St.step, hf, maker, St.createBy]
    cases codeOf s.lib e.slot with
    | none => rfl
    | some c => exact ⟨h.fresh _ (Nat.le_refl _), rfl, fun o => rfl, rfl, rfl, rfl, rfl⟩

/-- A file that is a plug-in. -/
private def echo : Image := { loads := true, symbols := [b! "pion_create_Echo", b! "pion_destroy_Echo"] }

/-- A program: it loads a plug-in, asks for a copy of the `plugin_ptr`, clones the object, removes the original from the manager,
    and uses and destroys the clone; then it puts an object of its own into the manager. -/
private def careful : List Op :=
  [.load 0 (b! "/echo") (b! "Echo") (some (b! "Echo", echo)) true, .getLib 0 (b! "/echo"), .clone 0 (b! "/echo") true,
   .remove 0 (b! "/echo"), .call 1, .destroy 2 1, .closePtr 2, .new, .add 0 (b! "/own") 2, .call 2, .clear 0]

/-- The hypotheses of `right_code_partial` can be met. -/
example : Obeys {} careful := by
  refine ⟨trivial, trivial, trivial, trivial, .inr (.inr ⟨2, .inl ?_, ?_⟩), ⟨⟨?_, ?_⟩, ?_⟩, trivial, trivial, ⟨⟨?_, ?_⟩, ?_⟩, .inl ?_, trivial, trivial⟩ <;>
    decide +kernel

/-- What happens: the original is destroyed, the clone is called and destroyed, and then the other object. -/
example : (run careful).log =
    [.destroyed 0 (some (.plugin (some 0) (b! "Echo"))) (.plugin (some 0) (b! "Echo")) true,
     .called 1 (some (.plugin (some 0) (b! "Echo"))) true,
     .destroyed 1 (some (.plugin (some 0) (b! "Echo"))) (.plugin (some 0) (b! "Echo")) true,
     .called 2 (some .program) true, .destroyed 2 (some .program) .program true] := by
  decide +kernel

/-- The hypotheses of `all_unloaded` can be met, when a library has been loaded. -/
example : (run careful).entries = [] ∧ (run careful).ptrs = [] ∧ (run careful).lib.libs = 1 := by decide +kernel

/-- Two managers share a library, and it is loaded until both are cleared. -/
example : let load (m : Nat) : Op := .load m (b! "/e") (b! "Echo") (some (b! "Echo", echo)) true
    (run [load 0, load 1]).lib.libs = 1 ∧ isLoaded (run [load 0, load 1]).lib 0 = true ∧
    isLoaded (run [load 0, load 1, .clear 0]).lib 0 = true ∧ isLoaded (run [load 0, load 1, .clear 0, .clear 1]).lib 0 = false := by
  decide +kernel

/-- C89: the calls that change nothing. `load` throws for an identifier that is in use, `add` does not; `remove`, `replace` and
    `clone` throw for an identifier that is not. -/
theorem unchanged (ops : List Op) (m : Nat) (id name : Bytes) (file : Option (Bytes × Image)) (creates : Bool) (o : Nat) :
    ((∃ e ∈ (run ops).entries, e.mgr = m ∧ e.id = id) →
      (run ops).step (.load m id name file creates) = (.duplicate, run ops) ∧ (run ops).step (.add m id o) = (.ok, run ops)) ∧
    ((¬∃ e ∈ (run ops).entries, e.mgr = m ∧ e.id = id) →
      (run ops).step (.remove m id) = (.notFound, run ops) ∧ (run ops).step (.replace m id o) = (.notFound, run ops) ∧
      (run ops).step (.clone m id creates) = (.notFound, run ops)) := by
  constructor
  · rintro ⟨e, he, h1, h2⟩
    have : ∃ x, (run ops).find m id = some x := by
      rw [← Option.isSome_iff_exists, St.find, List.find?_isSome]
      exact ⟨e, he, by simp [h1, h2]⟩
    obtain ⟨x, hx⟩ := this
    simp only [St.step, hx, and_self]
  · intro h
    have : (run ops).find m id = none := by
      rw [St.find, List.find?_eq_none]
      intro e he hd
      simp only [Bool.and_eq_true, beq_iff_eq] at hd
      exact h ⟨e, he, hd⟩
    simp only [St.step, this, and_self]

example : ∃ e ∈ (run [.new, .add 0 (b! "/a") 0]).entries, e.mgr = 0 ∧ e.id = b! "/a" := by decide +kernel

/-- `load_exact` in its three cases. -/
example : found (run []).lib (b! "Echo") none = none ∧
    found (run []).lib (b! "Echo") (some (b! "Echo", (openPlugin (b! "Echo") echo).1)) = some (some 0, b! "Echo") ∧
    found (run [.addStatic (b! "Echo")]).lib (b! "Echo") none = some (none, b! "Echo") := by
  decide +kernel

/-- C89, violated: `clone` gives an object, but does not keep the library. When the manager drops the original (`remove`,
    `clear`, or its end), the library is unloaded, and the clone has no code. -/
theorem clone_outlives_library :
    let ops : List Op := [.load 0 (b! "/echo") (b! "Echo") (some (b! "Echo", echo)) true, .clone 0 (b! "/echo") true, .remove 0 (b! "/echo")]
    (run ops).objs 1 = some (.plugin (some 0) (b! "Echo")) ∧ isLoaded (run ops).lib 0 = false ∧
    ((run ops).step (.call 1)).2.log.getLast? = some (.called 1 (some (.plugin (some 0) (b! "Echo"))) false) := by
  decide +kernel

/-- C89, violated: an object that the program has made, put into the place of an object of a plug-in by `replace`, is destroyed
    by the plug-in's function; and the clone of a plug-in's object, put into the place of an object of the program, is destroyed
    with `delete`. -/
theorem replace_wrong_destroy :
    let load : Op := .load 0 (b! "/echo") (b! "Echo") (some (b! "Echo", echo)) true
    (run [load, .new, .replace 0 (b! "/echo") 1, .clear 0]).log.getLast? =
      some (.destroyed 1 (some .program) (.plugin (some 0) (b! "Echo")) true) ∧
    (run [load, .clone 0 (b! "/echo") true, .new, .add 0 (b! "/own") 2, .replace 0 (b! "/own") 1, .clear 0]).log.getLast? =
      some (.destroyed 1 (some (.plugin (some 0) (b! "Echo"))) .program true) := by
  decide +kernel

/-- C89, violated: a plug-in is known by its base name alone. While `Echo` of one directory is open, a file of the same name in
    another is not even opened: the objects are those of the first. -/
theorem other_file_ignored (ops : List Op) (m : Nat) (id dir name : Bytes) (f : Image) (lib : Nat)
    (hid : (run ops).find m id = none) (hopen : OpenBy (run ops) lib name) (hnot : record (run ops).lib (dir ++ name) = none) :
    ((run ops).step (.load m id (dir ++ name) (some (name, f)) true)).2.objs (run ops).next = some (.plugin (some lib) name) := by
  have h := load_exact ops m id (dir ++ name) (some (name, f)) true hid
  have hr := (record_iff ops name lib name).2 ⟨rfl, hopen⟩
  have hf : found (run ops).lib (dir ++ name) ((some (name, f)).map fun f => (f.1, (openPlugin f.1 f.2).1)) = some (some lib, name) := by
    unfold found fromFile
    rw [hnot]
    simp [hr]
  dsimp only at h
  rw [hf] at h
  simp only [if_true] at h
  rw [h.2.2.1, if_pos rfl]

/-- The hypotheses can be met. -/
example : let s := run [.load 0 (b! "/a") (b! "/opt/a/Echo") (some (b! "Echo", echo)) true]
    s.find 0 (b! "/b") = none ∧ OpenBy s 0 (b! "Echo") ∧ record s.lib (b! "/opt/b/" ++ b! "Echo") = none :=
  ⟨by decide +kernel, ⟨1, .inr ⟨⟨0, b! "/a", 0, 1⟩, by decide +kernel, rfl⟩, by decide +kernel⟩, by decide +kernel⟩

end Verif.Props.PluginCode
