import Mathlib.Tactic.Common
import Verif.Spec.FileLookup
import Verif.Lemmas.FileNames
import Verif.Props.FileService
/-
C45, C47: looking up a file by its place, as the model of the file service does, and by its path, as the operating system
does.
-/
namespace Verif.Props.FileLookup
open Verif.FileService Verif.Path Verif.Spec.Path Verif.Spec.FileService Verif.Spec.FileLookup Verif.FileAnswers

private theorem follow_walk {fs : Fs} (ns : List Bytes) : ∀ {place q : Place}, follow fs place ns = some q → q = walk place ns := by
  induction ns with
  | nil => intro place q h; cases h; rfl
  | cons n ns ih =>
    intro place q h
    unfold follow at h
    unfold walk
    split at h
    · split at h
      · rename_i hn; rw [if_pos hn]; exact ih h
      · rename_i hn
        rw [if_neg hn]
        split at h
        · rename_i hn; rw [if_pos hn]; exact ih h
        · rename_i hn; rw [if_neg hn]; exact ih h
    · cases h

/-- **C45 (lookups).** Whatever the path: what the operating system finds is what is at its place. So a service that looks
    files up by their paths serves nothing the model does not. -/
theorem lookup_sound {fs : Fs} {cwd : Place} {p : Bytes} {n : Node} (h : lookup fs cwd p = some n) :
    fs (resolve cwd p) = some n := by
  unfold lookup at h
  split at h
  · cases h
  · obtain ⟨q, hq, hn⟩ := Option.bind_eq_some_iff.1 h
    have := follow_walk _ hq
    rw [walk_append] at this
    have hd : ∀ x, walk x (if p.getLast? = some (c! "/") then [b! "."] else []) = x := by
      intro x; split
      · rfl
      · rfl
    rw [hd] at this
    rw [← hn, this]
    rfl

private theorem tree_prefix {fs : Fs} (ht : Tree fs) (ns : List Bytes) : ∀ {place : Place}, ns ≠ [] → fs (place ++ ns) ≠ none →
    ∃ w, fs place = some (.dir w) := by
  induction ns with
  | nil => intro _ h; exact absurd rfl h
  | cons n ns ih =>
    intro place _ h
    by_cases hn : ns = []
    · subst hn; exact ht place n h
    · obtain ⟨w, hw⟩ := ih (place := place ++ [n]) hn (by simpa using h)
      exact ht place n (by rw [hw]; simp)

private theorem follow_plain {fs : Fs} (ht : Tree fs) (ns : List Bytes) : ∀ {place : Place},
    (∀ n ∈ ns, n ≠ b! "." ∧ n ≠ b! "..") → (follow fs place ns).bind fs = fs (place ++ ns) := by
  induction ns with
  | nil => intro place _; simp [follow]
  | cons n ns ih =>
    intro place hns
    have hn := hns n List.mem_cons_self
    unfold follow
    cases hp : fs (place ++ n :: ns) with
    | some x =>
      obtain ⟨w, hw⟩ := tree_prefix ht (n :: ns) (place := place) (by simp) (by rw [hp]; simp)
      rw [hw]
      dsimp only
      rw [if_neg hn.1, if_neg hn.2, ih fun m hm => hns m (List.mem_cons_of_mem _ hm)]
      simpa using hp
    | none =>
      split
      · rw [if_neg hn.1, if_neg hn.2, ih fun m hm => hns m (List.mem_cons_of_mem _ hm)]
        simpa using hp
      · rfl

theorem absolute_last {ds : Place} (h0 : ds ≠ []) (hd : ∀ n ∈ ds, Plain n) : (absolute ds).getLast? ≠ some slash := by
  rcases List.eq_nil_or_concat ds with h | ⟨l, e, rfl⟩
  · exact absurd h h0
  · rw [List.concat_eq_append] at hd ⊢
    have he := hd e (by simp)
    unfold absolute
    rw [List.flatMap_append]
    simp only [List.flatMap_cons, List.flatMap_nil, List.append_nil]
    rw [List.getLast?_append]
    obtain ⟨x, y, hxy⟩ := List.eq_nil_or_concat e |>.resolve_left he.1
    rw [hxy, List.concat_eq_append, ← List.cons_append, List.getLast?_append]
    simp only [List.getLast?_singleton, Option.some_or, ne_eq, Option.some.injEq]
    rintro rfl
    exact he.2.1 (by rw [hxy]; simp; exact .inr rfl)

/-- The place of an absolute path of plain names. -/
theorem resolve_absolute (cwd : Place) {ds : Place} (h0 : ds ≠ []) (hd : ∀ n ∈ ds, Plain n) : resolve cwd (absolute ds) = ds := by
  have hnames : names (absolute ds) = ds := names_absolute' ds fun n hn => ⟨(hd n hn).1, (hd n hn).2.1⟩
  have hhead : (absolute ds).head? = some slash := by
    obtain ⟨d, l, rfl⟩ := List.exists_cons_of_ne_nil h0
    rfl
  have hwalk : ∀ (l : List Bytes) (x : Place), (∀ n ∈ l, Plain n) → walk x l = x ++ l := by
    intro l
    induction l with
    | nil => intro x _; simp [walk]
    | cons n l ih =>
      intro x hl
      have hn := hl n List.mem_cons_self
      unfold walk
      rw [if_neg hn.2.2.1, if_neg hn.2.2.2, ih _ fun m hm => hl m (List.mem_cons_of_mem _ hm)]
      simp
  rw [resolve_eq, if_pos hhead, hnames, hwalk _ _ hd]; rfl

/-- In a tree, an absolute path of plain names leads to what is at its place. -/
theorem lookup_absolute {fs : Fs} (ht : Tree fs) (cwd : Place) {ds : Place} (h0 : ds ≠ []) (hd : ∀ n ∈ ds, Plain n) :
    lookup fs cwd (absolute ds) = fs (resolve cwd (absolute ds)) ∧ resolve cwd (absolute ds) = ds := by
  have hnames : names (absolute ds) = ds := names_absolute' ds fun n hn => ⟨(hd n hn).1, (hd n hn).2.1⟩
  have hhead : (absolute ds).head? = some slash := by
    obtain ⟨d, l, rfl⟩ := List.exists_cons_of_ne_nil h0
    rfl
  have hne : absolute ds ≠ [] := by intro h; rw [h] at hhead; cases hhead
  have hres := resolve_absolute cwd h0 hd
  refine ⟨?_, hres⟩
  rw [hres]
  unfold lookup
  rw [if_neg hne, if_pos (show (absolute ds).head? = some (c! "/") from hhead),
    if_neg (show ¬ (absolute ds).getLast? = some (c! "/") from absolute_last h0 hd), List.append_nil,
    show ((absolute ds).splitOn (c! "/")).filter (· ≠ []) = ds from (names_eq (absolute ds)).symm.trans hnames, follow_plain ht _ fun n hn => ⟨(hd n hn).2.2.1, (hd n hn).2.2.2⟩]
  rfl

private theorem normLoop_plain (cs : List Bytes) : ∀ (first : Bool) (temp : List Bytes), (∀ n ∈ cs, n ≠ dotName ∧ n ≠ dotDotName) →
    normLoop first temp cs = temp ++ cs := by
  induction cs with
  | nil => intro _ temp _; simp [normLoop]
  | cons c cs ih =>
    intro first temp h
    have hc := h c List.mem_cons_self
    unfold normLoop
    rw [if_neg (fun x => hc.1 x.1), if_neg (fun x => hc.2 x.1), ih _ _ fun n hn => h n (List.mem_cons_of_mem _ hn)]
    simp

/-- An absolute path of plain names is in its normal form. -/
theorem normalize_absolute {ds : Place} (h0 : ds ≠ []) (hall : ∀ n ∈ ds, Plain n) : normalize (absolute ds) = absolute ds := by
  have hnames : names (absolute ds) = ds := names_absolute' _ fun n hn => ⟨(hall n hn).1, (hall n hn).2.1⟩
  have hlast := absolute_last h0 hall
  obtain ⟨d, l, rfl⟩ := List.exists_cons_of_ne_nil h0
  have hel : elements (absolute (d :: l)) = rootName :: (d :: l) := by
    unfold elements
    rw [if_neg (c := _ ∧ _) (fun x => hlast x.1), hnames, if_pos (show (absolute (d :: l)).head? = some slash from rfl)]
    simp
  unfold normalize
  rw [if_neg (show absolute (d :: l) ≠ [] by simp [absolute]), hel]
  dsimp only
  rw [normLoop_plain _ _ _ (by
    intro n hn
    rcases List.mem_cons.1 hn with rfl | hn
    · decide
    · exact ⟨(hall n hn).2.2.1, (hall n hn).2.2.2⟩), if_neg (by simp), List.nil_append]
  exact join_root d _ fun x hx => ⟨(hall x hx).1, (hall x hx).2.1⟩

/-- A request for a path of plain names in the configured directory is for the place with these names. -/
theorem target_absolute {c : Cfg} {ds ns : Place} (hdir : c.directory = absolute ds) (hd0 : ds ≠ [])
    (hn0 : ns ≠ []) (hd : ∀ n ∈ ds, Plain n) (hn : ∀ n ∈ ns, Plain n) :
    target c ((absolute ns).drop 1) = .path (absolute (ds ++ ns)) ∧ requested c ((absolute ns).drop 1) = ds ++ ns := by
  have hall : ∀ n ∈ ds ++ ns, Plain n := fun n h => (List.mem_append.1 h).elim (hd n) (hn n)
  have htar : target c ((absolute ns).drop 1) = .path (absolute (ds ++ ns)) := by
    obtain ⟨m, l, rfl⟩ := List.exists_cons_of_ne_nil hn0
    have hm := hn m List.mem_cons_self
    have hrel : (absolute (m :: l)).drop 1 = m ++ absolute l := rfl
    have hne : (absolute (m :: l)).drop 1 ≠ [] := by rw [hrel]; simp [hm.1]
    have hdne : c.directory ≠ [] := by
      rw [hdir]
      obtain ⟨d, l', rfl⟩ := List.exists_cons_of_ne_nil hd0
      simp [absolute]
    have happ : append c.directory ((absolute (m :: l)).drop 1) = absolute (ds ++ m :: l) := by
      have hh : ((absolute (m :: l)).drop 1).head? ≠ some slash := by
        rw [hrel]
        obtain ⟨a, x, hax⟩ := List.exists_cons_of_ne_nil hm.1
        rw [hax]
        simp only [List.cons_append, List.head?_cons, ne_eq, Option.some.injEq]
        rintro rfl
        exact hm.2.1 (by rw [hax]; simp; exact .inl rfl)
      unfold append
      rw [if_neg hne, if_neg hh, if_neg (by
        rintro (h | h)
        · exact hdne h
        · rw [hdir] at h; exact absolute_last hd0 hd h)]
      rw [hdir, hrel]
      simp [absolute, slash]
    have hnorm : normalize (absolute (ds ++ m :: l)) = absolute (ds ++ m :: l) := normalize_absolute (by simp) hall
    unfold target
    rw [if_neg hne, if_neg hdne, happ, hnorm]
    dsimp only
    rw [if_pos (by
      rw [hdir]
      refine (List.isPrefixOf_iff_prefix).2 ⟨absolute (m :: l), ?_⟩
      simp [absolute])]
  exact ⟨htar, by rw [← target_place htar, resolve_absolute c.cwd (by simp [hd0]) hall]⟩

/-- **C47 (lookups).** In a tree, a request for a path of plain names in the configured directory is for a path that leads to
    what is at the place asked for: for such requests the model finds exactly what the operating system finds. -/
theorem target_lookup {fs : Fs} (ht : Tree fs) {c : Cfg} {ds ns : Place} (hdir : c.directory = absolute ds) (hd0 : ds ≠ [])
    (hn0 : ns ≠ []) (hd : ∀ n ∈ ds, Plain n) (hn : ∀ n ∈ ns, Plain n) :
    target c ((absolute ns).drop 1) = .path (absolute (ds ++ ns)) ∧
    lookup fs c.cwd (absolute (ds ++ ns)) = fs (requested c ((absolute ns).drop 1)) ∧
    requested c ((absolute ns).drop 1) = ds ++ ns := by
  have hall : ∀ n ∈ ds ++ ns, Plain n := fun n h => (List.mem_append.1 h).elim (hd n) (hn n)
  obtain ⟨htar, hreq⟩ := target_absolute hdir hd0 hn0 hd hn
  have hp := target_place htar
  obtain ⟨h1, h2⟩ := lookup_absolute ht c.cwd (ds := ds ++ ns) (by simp [hd0]) hall
  exact ⟨htar, by rw [h1, hp], hreq⟩

/-- The example file system is a tree, and a request for its file meets the conditions. -/
theorem example_tree : Tree FileService.exampleFs := by
  have key : ∀ (place q : Place) (n : Bytes), place ++ [n] = q → place = q.dropLast := by
    rintro place q n rfl; simp
  intro place n h
  have hcases : place = [] ∨ place = [b! "var"] ∨ place = [b! "var", b! "www"] ∨ place = [b! "var", b! "www-old"] ∨ place = [b! "etc"] := by
    unfold FileService.exampleFs at h
    split at h
    · rename_i h1
      rcases h1 with h1 | h1 | h1 | h1 | h1 | h1 <;> rw [key _ _ _ h1] <;> decide +kernel
    · split at h
      · rename_i h1; rw [key _ _ _ h1]; decide +kernel
      · split at h
        · rename_i h1; rw [key _ _ _ h1]; decide +kernel
        · split at h
          · rename_i h1; rw [key _ _ _ h1]; decide +kernel
          · exact absurd rfl h
  refine ⟨true, ?_⟩
  rcases hcases with rfl | rfl | rfl | rfl | rfl <;> decide +kernel

example : lookup FileService.exampleFs [] (b! "/var/www/index.html") = some (.file { content := b! "hello", mtime := 1000 }) := by
  decide +kernel
example : absolute [b! "var", b! "www"] = b! "/var/www" ∧ (absolute [b! "index.html"]).drop 1 = b! "index.html" := by decide +kernel

/-- The difference: a slash after the name of a file. The operating system finds nothing there; in the model it is the file. -/
theorem slash_after_file : target FileService.exampleCfg (b! "index.html/") = .path (b! "/var/www/index.html/.") ∧
    lookup FileService.exampleFs [] (b! "/var/www/index.html/.") = none ∧
    (FileService.exampleFs (resolve [] (b! "/var/www/index.html/."))).isSome = true := by
  refine ⟨?_, ?_, ?_⟩ <;> decide +kernel

end Verif.Props.FileLookup
