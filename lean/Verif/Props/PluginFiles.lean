import Verif.Model.PluginFiles
import Verif.Spec.PluginFiles
import Verif.Lemmas.FileService
import Mathlib.Tactic.Common
/-
C61: which file is loaded for the name of a plug-in.
-/
namespace Verif.Props.PluginFiles
open Verif.PluginFiles Verif.Path Verif.Spec.Path Verif.Spec.PluginFiles

/-- C61: the file found is the first regular file among the candidates, and none is found only if none of them is
    one. -/
theorem first_found (fs : Fs) (dirs : List Bytes) (name ext : Bytes) (hn : name ≠ []) :
    findFile fs dirs name ext = (candidates dirs name ext).find? fs.isRegular := by
  have hs : ∀ ds : List Bytes, searchDirs fs name ext ds =
      (ds.flatMap fun d => [append d name, append d (name ++ ext)]).find? fs.isRegular := by
    intro ds
    induction ds with
    | nil => rfl
    | cons d ds ih =>
      rw [searchDirs, checkForFile, if_neg hn, if_neg hn, ih, List.flatMap_cons, List.cons_append, List.cons_append, List.nil_append]
      by_cases h1 : fs.isRegular (append d name) = true
      · simp only [if_pos h1]; rw [List.find?_cons_of_pos h1]
      · rw [if_neg h1, List.find?_cons_of_neg h1]
        by_cases h2 : fs.isRegular (append d (name ++ ext)) = true
        · simp only [if_pos h2]; rw [List.find?_cons_of_pos h2]
        · simp only [if_neg h2]; rw [List.find?_cons_of_neg h2]
  rw [findFile, checkForFile, if_pos rfl, if_pos rfl, hs, candidates, List.cons_append, List.cons_append, List.nil_append]
  by_cases h1 : fs.isRegular name = true
  · simp only [if_pos h1]; rw [List.find?_cons_of_pos h1]
  · rw [if_neg h1, List.find?_cons_of_neg h1]
    by_cases h2 : fs.isRegular (name ++ ext) = true
    · simp only [if_pos h2]; rw [List.find?_cons_of_pos h2]
    · simp only [if_neg h2]; rw [List.find?_cons_of_neg h2]

/-- A server in /srv with plug-ins in two directories. -/
def exampleFs : Fs where
  cwd := [b! "srv"]
  regular := fun p => p ∈ [[b! "usr", b! "plugins", b! "Echo.so"], [b! "opt", b! "Echo.so"], [b! "opt", b! "Log.so"],
    [b! "tmp", b! "evil.so"], [b! "srv", b! "Log"]]

def exampleDirs : List Bytes := [b! "/usr/plugins", b! "/opt"]

example : findFile exampleFs exampleDirs (b! "Echo") pluginExtension = some (b! "/usr/plugins/Echo.so") ∧
    findFile exampleFs exampleDirs (b! "Cookie") pluginExtension = none := by decide +kernel

private theorem resolve_name (cwd : Place) {n : Bytes} (h : Plain n) : resolve cwd n = cwd ++ [n] := by
  have hs : slash ∉ n := h.2.1
  have hn : names n = [n] := by
    have := namesFrom_name n [] hs []
    rw [List.append_nil] at this
    rw [names, this]
    simp [namesFrom, h.1]
  have hh : n.head? ≠ some slash := fun he => by
    obtain ⟨a, n', rfl⟩ := List.exists_cons_of_ne_nil h.1
    simp at he
    exact hs (by simp [he])
  rw [resolve_eq, if_neg hh, hn, walk, if_neg h.2.2.1, if_neg h.2.2.2, walk]

private theorem resolve_in (cwd : Place) {d n : Bytes} (hd : d ≠ []) (h : Plain n) :
    resolve cwd (append d n) = resolve cwd d ++ [n] := by
  have hs : slash ∉ n := h.2.1
  have hn : names n = [n] := by
    have := namesFrom_name n [] hs []
    rw [List.append_nil] at this
    rw [names, this]
    simp [namesFrom, h.1]
  rw [Verif.FileService.resolve_append _ _ _ hd, hn, walk, if_neg h.2.2.1, if_neg h.2.2.2, walk]

private theorem plain_ext {n ext : Bytes} (h : Plain n) (he : slash ∉ ext) (hl : 2 ≤ ext.length) : Plain (n ++ ext) := by
  have h0 : 0 < n.length := List.length_pos_iff.2 h.1
  refine ⟨by simp [h.1], ?_, ?_, ?_⟩
  · rw [List.mem_append, not_or]; exact ⟨h.2.1, he⟩
  · intro e; have := congrArg List.length e; simp at this; omega
  · intro e; have := congrArg List.length e; simp at this; omega

/-- C61: for a plain name (no slash, not "." or "..") the file found has that name, with or without the extension, and
    lies in the current directory or in one of the plug-in directories. -/
theorem confined {fs : Fs} {dirs : List Bytes} {name ext p : Bytes} (hn : Plain name) (he : slash ∉ ext) (hl : 2 ≤ ext.length)
    (hd : ∀ d ∈ dirs, d ≠ []) (h : findFile fs dirs name ext = some p) :
    fs.regular (resolve fs.cwd p) = true ∧ ∃ n, (n = name ∨ n = name ++ ext) ∧
      (resolve fs.cwd p = fs.cwd ++ [n] ∨ ∃ d ∈ dirs, resolve fs.cwd p = resolve fs.cwd d ++ [n]) := by
  rw [first_found _ _ _ _ hn.1] at h
  refine ⟨?_, ?_⟩
  · have := List.find?_some h
    simp only [Fs.isRegular, Bool.and_eq_true] at this
    exact this.2
  have hm := List.mem_of_find?_eq_some h
  unfold candidates at hm
  simp only [List.mem_append, List.mem_cons, List.not_mem_nil, or_false, List.mem_flatMap] at hm
  rcases hm with (rfl | rfl) | ⟨d, hdm, rfl | rfl⟩
  · exact ⟨_, .inl rfl, .inl (resolve_name _ hn)⟩
  · exact ⟨_, .inr rfl, .inl (resolve_name _ (plain_ext hn he hl))⟩
  · exact ⟨_, .inl rfl, .inr ⟨d, hdm, resolve_in _ (hd d hdm) hn⟩⟩
  · exact ⟨_, .inr rfl, .inr ⟨d, hdm, resolve_in _ (hd d hdm) (plain_ext hn he hl)⟩⟩

example : Plain (b! "Echo") ∧ slash ∉ pluginExtension ∧ 2 ≤ pluginExtension.length ∧ ∀ d ∈ exampleDirs, d ≠ [] := by
  decide +kernel

/-- A file with the name of the plug-in in the current directory comes before those in the plug-in directories, even
    without the extension. -/
theorem current_directory_first (fs : Fs) (dirs : List Bytes) (name ext : Bytes) (h : fs.isRegular name = true) :
    findFile fs dirs name ext = some name := by
  rw [findFile, checkForFile, if_pos rfl, if_pos rfl, if_pos h]

/-- Other names lead anywhere: an absolute path, or one that leaves the directory. -/
theorem names_escape :
    findFile exampleFs exampleDirs (b! "/tmp/evil") pluginExtension = some (b! "/tmp/evil.so") ∧
    findFile exampleFs exampleDirs (b! "../../tmp/evil") pluginExtension = some (b! "../../tmp/evil.so") ∧
    findFile exampleFs exampleDirs (b! "Log") pluginExtension = some (b! "Log") := by decide +kernel

/-! ### Names of plug-ins -/

private theorem filename_name {n : Bytes} (h : slash ∉ n) : filename n = n := by
  rw [filename, List.splitOn_eq_singleton h]; rfl

private theorem filename_append (p : Bytes) {n : Bytes} (h : slash ∉ n) : filename (p ++ slash :: n) = n := by
  rw [filename, List.splitOn_append_cons_self, List.splitOn_eq_singleton h, List.getLast?_append]; rfl

private theorem filename_in {d n : Bytes} (h : slash ∉ n) (hn : n ≠ []) : filename (append d n) = n := by
  unfold append
  rw [if_neg hn]
  have hh : n.head? ≠ some slash := fun he => by
    obtain ⟨a, n', rfl⟩ := List.exists_cons_of_ne_nil hn
    simp at he
    exact h (by simp [he])
  rw [if_neg hh]
  split
  · rename_i hp
    rcases hp with rfl | hp
    · exact filename_name h
    · obtain ⟨p', rfl⟩ := List.getLast?_eq_some_iff.mp hp
      rw [List.append_assoc, List.singleton_append]
      exact filename_append p' h
  · exact filename_append d h

private theorem extension_so (n : Bytes) : extension (n ++ pluginExtension) = pluginExtension := by
  have h1 : ∀ x : Bytes, x.length ≤ 2 → n ++ pluginExtension ≠ x := by
    intro x hx e
    have := congrArg List.length e
    simp [pluginExtension] at this
    omega
  unfold extension
  rw [if_neg (by rintro (h | h) <;> exact h1 _ (by decide) h), if_pos (by simp [pluginExtension])]
  have : (n ++ pluginExtension).reverse = b! "os." ++ n.reverse := by simp [pluginExtension]
  rw [this]
  rfl

private theorem stem_so (n : Bytes) : stem (n ++ pluginExtension) = n := by
  rw [stem, extension_so, List.length_append, Nat.add_sub_cancel, List.take_left]

/-- C61: a plug-in found by adding the extension gets the name it was looked for by, so that it is found in the list of
    loaded plug-ins next time. -/
theorem name_kept (d name : Bytes) (hn : slash ∉ name) :
    pluginName (append d (name ++ pluginExtension)) = name ∧ pluginName (name ++ pluginExtension) = name := by
  have h : slash ∉ name ++ pluginExtension := by
    rw [List.mem_append, not_or]; exact ⟨hn, by decide⟩
  rw [pluginName, pluginName, filename_in h (by simp [pluginExtension]), filename_name h, stem_so]
  exact ⟨rfl, rfl⟩

/-- A plug-in found without adding the extension gets another name if it has a dot: `Echo.v2` becomes `Echo`, and takes
    its place in the list of loaded plug-ins. -/
theorem renamed : pluginName (b! "/opt/Echo.v2") = b! "Echo" ∧ pluginName (b! "/opt/Echo.v2.so") = b! "Echo.v2" := by
  decide +kernel

private theorem takeWhile_dot (l : Bytes) (h : c! "." ∈ l) : ∃ t, l = l.takeWhile (· ≠ c! ".") ++ c! "." :: t := by
  induction l with
  | nil => simp at h
  | cons a l ih =>
    by_cases ha : a = c! "."
    · subst ha; exact ⟨l, rfl⟩
    · obtain ⟨t, ht⟩ := ih ((List.mem_cons.1 h).resolve_left (Ne.symm ha))
      exact ⟨t, by rw [List.takeWhile_cons_of_pos (by simpa using ha), List.cons_append, ← ht]⟩

private theorem ext_split {f : Bytes} (h : extension f = pluginExtension) : f = stem f ++ pluginExtension := by
  have hsuf : ∃ n, f = n ++ extension f := by
    unfold extension
    split
    · exact ⟨f, by simp⟩
    · split
      · rename_i hm
        obtain ⟨t, ht⟩ := takeWhile_dot f.reverse (by simpa using hm)
        have h2 := congrArg List.reverse ht
        rw [List.reverse_reverse, List.reverse_append, List.reverse_cons, List.append_assoc, List.singleton_append] at h2
        exact ⟨t.reverse, h2⟩
      · exact ⟨f, by simp⟩
  obtain ⟨n, hn⟩ := hsuf
  rw [h] at hn
  rw [hn, stem_so]

/-- C61: the list of all names. A name is in it exactly if one of the directories has a regular file with that name and
    the extension, or the plug-in is linked statically. -/
theorem listed_iff {fs : Fs} {list : Bytes → Option (List Bytes)} {statics dirs ns : List Bytes}
    (hl : ∀ d ∈ dirs, ∀ files, list d = some files → ∀ f ∈ files, f ≠ [] ∧ slash ∉ f)
    (h : pluginNames fs list statics dirs = some ns) (n : Bytes) :
    n ∈ ns ↔ n ∈ statics ∨ ∃ d ∈ dirs, ∃ files, list d = some files ∧ n ++ pluginExtension ∈ files ∧
      fs.isRegular (append d (n ++ pluginExtension)) = true := by
  induction dirs generalizing ns with
  | nil =>
    simp only [pluginNames, Option.some.injEq] at h
    simp [h]
  | cons d ds ih =>
    simp only [pluginNames] at h
    cases hd : list d with
    | none => rw [hd] at h; cases h
    | some files =>
      rw [hd] at h
      cases hr : pluginNames fs list statics ds with
      | none => rw [hr] at h; cases h
      | some rest =>
        rw [hr] at h
        simp only [Option.some.injEq] at h
        have ih' := ih (fun x hx => hl x (List.mem_cons_of_mem _ hx)) hr
        have hfiles := hl d List.mem_cons_self files hd
        rw [← h, List.mem_append, ih']
        have key : n ∈ (files.filter fun f => fs.isRegular (append d f) && extension f == pluginExtension).map pluginName ↔
            n ++ pluginExtension ∈ files ∧ fs.isRegular (append d (n ++ pluginExtension)) = true := by
          rw [List.mem_map]
          constructor
          · rintro ⟨f, hf, rfl⟩
            rw [List.mem_filter, Bool.and_eq_true, beq_iff_eq] at hf
            have e : pluginName f ++ pluginExtension = f := by
              rw [pluginName, filename_name (hfiles f hf.1).2]; exact (ext_split hf.2.2).symm
            rw [e]
            exact ⟨hf.1, hf.2.1⟩
          · rintro ⟨h1, h2⟩
            refine ⟨_, List.mem_filter.2 ⟨h1, ?_⟩, ?_⟩
            · rw [h2, extension_so]; rfl
            · rw [pluginName, filename_name (hfiles _ h1).2, stem_so]
        rw [key]
        constructor
        · rintro (h1 | h1 | ⟨d', hd', h1⟩)
          · exact .inr ⟨d, List.mem_cons_self, files, hd, h1⟩
          · exact .inl h1
          · exact .inr ⟨d', List.mem_cons_of_mem _ hd', h1⟩
        · rintro (h1 | ⟨d', hd', files', hf', h1⟩)
          · exact .inr (.inl h1)
          · rcases List.mem_cons.1 hd' with rfl | hd'
            · rw [hd] at hf'
              cases hf'
              exact .inl h1
            · exact .inr (.inr ⟨d', hd', files', hf', h1⟩)

/-- C61: every name in the list that is not empty and not linked statically is found. -/
theorem listed_found {fs : Fs} {list : Bytes → Option (List Bytes)} {statics dirs ns : List Bytes}
    (hl : ∀ d ∈ dirs, ∀ files, list d = some files → ∀ f ∈ files, f ≠ [] ∧ slash ∉ f)
    (h : pluginNames fs list statics dirs = some ns) {n : Bytes} (hn : n ∈ ns) (hs : n ∉ statics) (h0 : n ≠ []) :
    (findFile fs dirs n pluginExtension).isSome := by
  obtain h1 | ⟨d, hd, -, -, -, h1⟩ := (listed_iff hl h n).1 hn
  · exact absurd h1 hs
  · rw [first_found _ _ _ _ h0, List.find?_isSome]
    refine ⟨_, ?_, h1⟩
    unfold candidates
    rw [List.mem_append, List.mem_flatMap]
    exact .inr ⟨d, hd, by simp⟩

/-- A file called ".so" is listed, with the empty name, and not found by it. -/
theorem hidden_not_found :
    let fs : Fs := ⟨[], fun p => p = [b! "opt", b! ".so"]⟩
    pluginNames fs (fun d => if d = b! "/opt" then some [b! ".so"] else none) [] [b! "/opt"] = some [[]] ∧
    findFile fs [b! "/opt"] [] pluginExtension = none := by decide +kernel

example : pluginNames exampleFs (fun d => if d = b! "/opt" then some [b! "Echo.so", b! "Log.so", b! "README"] else some [b! "Echo.so"])
    [b! "Static"] exampleDirs = some [b! "Echo", b! "Echo", b! "Log", b! "Static"] := by decide +kernel

end Verif.Props.PluginFiles
