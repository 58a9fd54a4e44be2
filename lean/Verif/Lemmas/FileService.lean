import Verif.Lemmas.Path
import Verif.Spec.FileService
/-
The cache of the file service: which file an entry is for and what is known about it.
-/
namespace Verif.FileService
open Verif.Path Verif.Spec.Path Verif.Spec.FileService

/-! ### The place of a request -/

theorem namesFrom_append_slash (p q : Bytes) : ∀ cur, namesFrom cur (p ++ slash :: q) = namesFrom cur p ++ names q := by
  induction p with
  | nil =>
    intro cur
    by_cases h : cur = [] <;> simp [namesFrom, h, names]
  | cons c p ih =>
    intro cur
    rw [List.cons_append, namesFrom, namesFrom]
    split
    · split
      · exact ih _
      · rw [ih, List.cons_append]
    · exact ih _

theorem names_append_slash (p q : Bytes) : names (p ++ slash :: q) = names p ++ names q := namesFrom_append_slash p q []

theorem names_append (p q : Bytes) (hp : p ≠ []) : names (append p q) = names p ++ names q := by
  unfold append
  split
  · rename_i h; simp [h, names, namesFrom]
  · split
    · rename_i h
      cases q with
      | nil => cases h
      | cons a q =>
        simp only [List.head?_cons, Option.some.injEq] at h
        subst h
        rw [names_append_slash, names_cons_slash]
    · split
      · rename_i h
        have h := h.resolve_left hp
        obtain ⟨p', rfl⟩ := List.getLast?_eq_some_iff.mp h
        rw [List.append_assoc, List.singleton_append, names_append_slash, names_append_slash]
        simp [names, namesFrom]
      · exact names_append_slash p q

theorem append_head (p q : Bytes) (hp : p ≠ []) : (append p q).head? = p.head? := by
  obtain ⟨a, p, rfl⟩ := List.exists_cons_of_ne_nil hp
  unfold append
  split
  · rfl
  · split
    · rfl
    · split <;> rfl

theorem resolve_append (b : Place) (p q : Bytes) (hp : p ≠ []) : resolve b (append p q) = walk (resolve b p) (names q) := by
  rw [resolve_eq, resolve_eq, append_head p q hp, names_append p q hp, walk_append]

theorem requested_eq (c : Cfg) {rel : Bytes} (h : rel ≠ []) (hd : c.directory ≠ []) :
    requested c rel = resolve c.cwd (append c.directory rel) := by
  rw [requested, if_neg h, resolve_append _ _ _ hd, names_eq]; rfl

theorem target_place {c : Cfg} {rel p : Bytes} (h : target c rel = .path p) : resolve c.cwd p = requested c rel := by
  unfold target at h
  split at h
  · rename_i hr
    split at h
    · cases h
    · split at h
      · cases h; rw [resolve_normalize, requested, if_pos hr]
      · cases h
  · rename_i hr
    split at h
    · cases h
    · rename_i hd
      simp only [] at h
      split at h
      · cases h; rw [resolve_normalize, requested_eq c hr hd]
      · cases h

/-! ### Entries -/

/-- The entry is what was read from this file. -/
structure Copy (c : Cfg) (f : File) (e : DiskFile) : Prop where
  mtime : e.mtime = f.mtime
  size : e.size = f.content.length
  text : e.lastModified = c.date f.mtime
  content : f.readable = true → e.content = none ∨ e.content = some (f.content.map some)

/-- The entry is for the file at the place; unless it will be read again in any case, it is what was read from the file
    at some time. -/
structure Entry (c : Cfg) (past : List Fs) (p : Place) (e : DiskFile) : Prop where
  place : resolve c.cwd e.path = p
  copy : e.mtime = 0 ∨ ∃ fs ∈ past, ∃ f, fs p = some (.file f) ∧ Copy c f e

theorem update_spec {c : Cfg} {fs : Fs} {d d' : DiskFile} (h : d.update c fs = (d', true)) (hc : d.content = none) :
    d'.path = d.path ∧ d'.content = none ∧ ∃ f, fs (resolve c.cwd d.path) = some (.file f) ∧ Copy c f d' := by
  unfold DiskFile.update at h
  split at h
  · rename_i f hf
    simp only [Prod.mk.injEq, and_true] at h
    subst h
    exact ⟨rfl, hc, f, hf, rfl, rfl, rfl, fun _ => .inl hc⟩
  · simp at h

theorem update_any {c : Cfg} {fs : Fs} {d d' : DiskFile} {ok : Bool} (h : d.update c fs = (d', ok)) : d'.path = d.path := by
  unfold DiskFile.update at h
  split at h <;> (simp only [Prod.mk.injEq] at h; rw [← h.1])

theorem update_copy {c : Cfg} {fs : Fs} {d d' : DiskFile} (h : d.update c fs = (d', true)) :
    ∃ f, fs (resolve c.cwd d.path) = some (.file f) ∧ d'.path = d.path ∧ d'.mtime = f.mtime ∧
      d'.size = f.content.length ∧ d'.lastModified = c.date f.mtime := by
  unfold DiskFile.update at h
  split at h
  · rename_i f hf
    simp only [Prod.mk.injEq, and_true] at h
    subst h
    exact ⟨f, hf, rfl, rfl, rfl, rfl⟩
  · simp at h

theorem read_spec {c : Cfg} {fs : Fs} {d d' : DiskFile} {ok : Bool} (h : d.read c fs = (d', ok)) :
    d'.path = d.path ∧ d'.mtime = d.mtime ∧ d'.size = d.size ∧ d'.lastModified = d.lastModified := by
  unfold DiskFile.read at h
  split at h
  · split at h <;> (simp only [Prod.mk.injEq] at h; rw [← h.1]; exact ⟨rfl, rfl, rfl, rfl⟩)
  · simp only [Prod.mk.injEq] at h; rw [← h.1]; exact ⟨rfl, rfl, rfl, rfl⟩

/-- Reading after the size and time have been taken from the file. -/
theorem read_copy {c : Cfg} {fs : Fs} {d d' : DiskFile} {ok : Bool} {f : File} (h : d.read c fs = (d', ok))
    (hf : fs (resolve c.cwd d.path) = some (.file f)) (h1 : d.mtime = f.mtime) (h2 : d.size = f.content.length)
    (h3 : d.lastModified = c.date f.mtime) : Copy c f d' := by
  unfold DiskFile.read at h
  rw [hf] at h
  simp only [] at h
  split at h
  · simp only [Prod.mk.injEq] at h
    rw [← h.1]
    exact ⟨h1, h2, h3, fun _ => .inr (by simp [h2])⟩
  · rename_i hr
    simp only [Prod.mk.injEq] at h
    rw [← h.1]
    exact ⟨h1, h2, h3, fun hh => absurd hh hr⟩

theorem read_ok {c : Cfg} {fs : Fs} {d d' : DiskFile} {f : File} (h : d.read c fs = (d', true))
    (hf : fs (resolve c.cwd d.path) = some (.file f)) : f.readable = true := by
  unfold DiskFile.read at h
  rw [hf] at h
  simp only [] at h
  split at h
  · assumption
  · simp at h

theorem Entry.mono {c : Cfg} {past : List Fs} {p : Place} {e : DiskFile} (h : Entry c past p e) (fs : Fs) :
    Entry c (fs :: past) p e :=
  ⟨h.place, h.copy.imp id fun ⟨fs', hm, f, h1, h2⟩ => ⟨fs', List.mem_cons_of_mem _ hm, f, h1, h2⟩⟩

/-- All entries of a cache. -/
def CacheOk (c : Cfg) (past : List Fs) (m : Cache) : Prop := ∀ k e, (k, e) ∈ m → Entry c past (requested c k) e

theorem CacheOk.nil (c : Cfg) (past : List Fs) : CacheOk c past [] := fun _ _ h => by cases h

theorem CacheOk.mono {c : Cfg} {past : List Fs} {m : Cache} (h : CacheOk c past m) (fs : Fs) : CacheOk c (fs :: past) m :=
  fun k e hm => (h k e hm).mono fs

theorem find_mem {m : Cache} {k : Bytes} {e : DiskFile} (h : m.find? k = some e) : (k, e) ∈ m := by
  unfold Cache.find? at h
  cases hf : List.find? (fun e => decide (e.1 = k)) m with
  | none => rw [hf] at h; cases h
  | some x =>
    rw [hf] at h
    simp only [Option.map_some, Option.some.injEq] at h
    have h1 := List.find?_some hf
    simp only [decide_eq_true_eq] at h1
    have h2 := List.mem_of_find?_eq_some hf
    rw [← h, ← h1]
    exact h2

theorem CacheOk.put {c : Cfg} {past : List Fs} {m : Cache} (h : CacheOk c past m) {k : Bytes} {d : DiskFile}
    (hd : Entry c past (requested c k) d) : CacheOk c past (m.put k d) := by
  intro k' e hm
  unfold Cache.put at hm
  obtain ⟨x, hx, he⟩ := List.mem_map.mp hm
  split at he
  · cases he; exact hd
  · subst he; exact h k' e hx

theorem CacheOk.insert {c : Cfg} {past : List Fs} {m : Cache} (h : CacheOk c past m) {k : Bytes} {d : DiskFile}
    (hd : Entry c past (requested c k) d) : CacheOk c past (m.insert k d) := by
  unfold Cache.insert
  split
  · exact h
  · intro k' e hm
    rcases List.mem_append.mp hm with hm | hm
    · exact h k' e hm
    · cases List.mem_singleton.mp hm; exact hd

/-- The entry made up to date in `getCached`. -/
def refresh (c : Cfg) (fs : Fs) (e : DiskFile) : DiskFile × Bool × Bool :=
  if e.mtime = 0 then
    match e.update c fs with
    | (e, false) => (e, false, true)
    | (e, true) =>
      if c.maxCache = 0 ∨ e.size ≤ c.maxCache then
        let (e, ok) := e.read c fs
        (e, ok, true)
      else ({ e with content := none }, true, true)
  else if c.cache = 1 then e.checkUpdated c fs
  else (e, true, false)

theorem getCached_eq (c : Cfg) (s : St) (r : Req) (rel : Bytes) (e : DiskFile) :
    getCached c s r rel e = match refresh c s.fs e with
      | (e, ok, updated) =>
        if ok then
          let kept := if updated ∧ 0 < c.maxCache ∧ c.maxCache < e.size then { e with content := none } else e
          (answer r e, { s with cache := s.cache.put rel kept })
        else (.thrown, { s with cache := s.cache.put rel e }) := rfl

/-- What is known of a refreshed entry: it is an entry for the same place; and if there was no exception and the cache
    setting is not 2, or the file was read again, it agrees with the file now. -/
theorem refresh_spec {c : Cfg} {past : List Fs} {fs : Fs} {p : Place} {e e' : DiskFile} {ok updated : Bool}
    (hfs : fs ∈ past) (he : Entry c past p e) (h : refresh c fs e = (e', ok, updated)) :
    Entry c past p e' ∧
    (ok = true → (∃ fs' ∈ past, ∃ g, fs' p = some (.file g) ∧ Copy c g e') ∧
      (c.cache = 1 ∨ e.mtime = 0 → ∃ f, fs p = some (.file f) ∧ e'.mtime = f.mtime ∧ e'.size = f.content.length)) := by
  unfold refresh at h
  split at h
  · rename_i h0
    split at h
    · rename_i e1 hu
      cases h
      refine ⟨?_, by simp⟩
      have hsame : e' = e := by
        unfold DiskFile.update at hu
        split at hu
        · simp at hu
        · simp only [Prod.mk.injEq, and_true] at hu; exact hu.symm
      rw [hsame]; exact he
    · rename_i e1 hu
      obtain ⟨f, hf, h1, h2, h3, h4⟩ := update_copy hu
      rw [he.place] at hf
      split at h
      · cases hrd : e1.read c fs with
        | mk e2 ok2 =>
          rw [hrd] at h
          cases h
          have hs := read_spec hrd
          have hc := read_copy hrd (f := f) (by rw [h1, he.place]; exact hf) h2 h3 h4
          refine ⟨⟨by rw [hs.1, h1]; exact he.place, .inr ⟨fs, hfs, f, hf, hc⟩⟩, fun _ => ⟨⟨fs, hfs, f, hf, hc⟩, fun _ => ⟨f, hf, hc.mtime, hc.size⟩⟩⟩
      · cases h
        have hc : Copy c f { e1 with content := none } := ⟨h2, h3, h4, fun _ => .inl rfl⟩
        refine ⟨⟨by rw [show ({ e1 with content := none } : DiskFile).path = e.path from h1]; exact he.place, .inr ⟨fs, hfs, f, hf, hc⟩⟩,
          fun _ => ⟨⟨fs, hfs, f, hf, hc⟩, fun _ => ⟨f, hf, hc.mtime, hc.size⟩⟩⟩
  · rename_i h0
    have hcopy := he.copy.resolve_left h0
    split at h
    · unfold DiskFile.checkUpdated at h
      split at h
      · rename_i f hf
        rw [he.place] at hf
        split at h
        · rename_i hsame
          cases h
          exact ⟨he, fun _ => ⟨hcopy, fun _ => ⟨f, hf, hsame.1.symm, hsame.2.symm⟩⟩⟩
        · simp only [] at h
          cases hrd : ({ e with size := f.content.length, mtime := f.mtime, lastModified := c.date f.mtime } : DiskFile).read c fs with
          | mk e2 ok2 =>
            rw [hrd] at h
            cases h
            have hs := read_spec hrd
            have hc := read_copy hrd (f := f) (by rw [show ({ e with size := f.content.length, mtime := f.mtime, lastModified := c.date f.mtime } : DiskFile).path = e.path from rfl, he.place]; exact hf) rfl rfl rfl
            exact ⟨⟨by rw [hs.1]; exact he.place, .inr ⟨fs, hfs, f, hf, hc⟩⟩, fun _ => ⟨⟨fs, hfs, f, hf, hc⟩, fun _ => ⟨f, hf, hc.mtime, hc.size⟩⟩⟩
      · cases h
        exact ⟨he, by simp⟩
    · rename_i hc1
      cases h
      exact ⟨he, fun _ => ⟨hcopy, fun hh => by rcases hh with hh | hh; exact absurd hh hc1; exact absurd hh h0⟩⟩

theorem Entry.forget {c : Cfg} {past : List Fs} {p : Place} {e : DiskFile} (h : Entry c past p e) :
    Entry c past p { e with content := none } :=
  ⟨h.place, h.copy.imp id fun ⟨fs, hm, f, h1, h2⟩ => ⟨fs, hm, f, h1, h2.mtime, h2.size, h2.text, fun _ => .inl rfl⟩⟩

theorem getCached_cache {c : Cfg} {past : List Fs} {s : St} (r : Req) {rel : Bytes} {e : DiskFile} (hfs : s.fs ∈ past)
    (hm : CacheOk c past s.cache) (he : Entry c past (requested c rel) e) :
    CacheOk c past (getCached c s r rel e).2.cache ∧ (getCached c s r rel e).2.fs = s.fs := by
  rw [getCached_eq]
  cases hr : refresh c s.fs e with
  | mk e' x =>
    obtain ⟨ok, updated⟩ := x
    obtain ⟨h1, -⟩ := refresh_spec hfs he hr
    simp only []
    split
    · split
      · exact ⟨hm.put h1.forget, rfl⟩
      · exact ⟨hm.put h1, rfl⟩
    · exact ⟨hm.put h1, rfl⟩

theorem fresh_entry {c : Cfg} {past : List Fs} {fs : Fs} {path : Bytes} {d : DiskFile} (hfs : fs ∈ past)
    (h : ({ path := path } : DiskFile).update c fs = (d, true)) :
    Entry c past (resolve c.cwd path) d ∧ d.content = none ∧ d.path = path ∧
      ∃ f, fs (resolve c.cwd path) = some (.file f) ∧ Copy c f d := by
  obtain ⟨h1, h2, f, hf, hc⟩ := update_spec h rfl
  have h1' : d.path = path := h1
  exact ⟨⟨by rw [h1'], .inr ⟨fs, hfs, f, hf, hc⟩⟩, h2, h1', f, hf, hc⟩

theorem fresh_read {c : Cfg} {past : List Fs} {fs : Fs} {path : Bytes} {d d' : DiskFile} {ok : Bool} (hfs : fs ∈ past)
    (h : ({ path := path } : DiskFile).update c fs = (d, true)) (hr : d.read c fs = (d', ok)) :
    Entry c past (resolve c.cwd path) d' ∧ ∃ f, fs (resolve c.cwd path) = some (.file f) ∧ Copy c f d' := by
  obtain ⟨h1, h2, h3, f, hf, hc⟩ := fresh_entry hfs h
  have hs := read_spec hr
  have hc' := read_copy hr (f := f) (by rw [h3]; exact hf) hc.mtime hc.size hc.text
  exact ⟨⟨by rw [hs.1, h3], .inr ⟨fs, hfs, f, hf, hc'⟩⟩, f, hf, hc'⟩

theorem answer_file {r : Req} {d d' : DiskFile} (h : answer r d = .file d') : d' = d := by
  unfold answer at h
  split at h
  · cases h
  · split at h <;> cases h
    rfl

theorem getUncached_cache {c : Cfg} {past : List Fs} {s : St} (r : Req) {rel path : Bytes} (hfs : s.fs ∈ past)
    (hm : CacheOk c past s.cache) (hp : resolve c.cwd path = requested c rel) :
    CacheOk c past (getUncached c s r rel path).2.cache ∧ (getUncached c s r rel path).2.fs = s.fs := by
  unfold getUncached
  split
  · exact ⟨hm, rfl⟩
  · split
    · exact ⟨hm, rfl⟩
    · rename_i d hu
      obtain ⟨h1, -⟩ := fresh_entry hfs hu
      rw [hp] at h1
      split
      · rename_i d1 ha
        have := answer_file ha
        subst this
        split
        · split
          · split
            · exact ⟨hm, rfl⟩
            · rename_i d2 hr
              have h2 := (fresh_read hfs hu hr).1
              rw [hp] at h2
              exact ⟨hm.insert h2, rfl⟩
          · exact ⟨hm.insert h1, rfl⟩
        · exact ⟨hm, rfl⟩
      · exact ⟨hm, rfl⟩

theorem get_cache {c : Cfg} {past : List Fs} {s : St} (r : Req) {rel path : Bytes} (hfs : s.fs ∈ past)
    (hm : CacheOk c past s.cache) (hp : resolve c.cwd path = requested c rel) :
    CacheOk c past (get c s r rel path).2.cache ∧ (get c s r rel path).2.fs = s.fs := by
  unfold get
  split
  · split
    · split
      · exact ⟨hm, rfl⟩
      · exact getUncached_cache r hfs hm hp
    · rename_i e hf
      split
      · split
        · exact ⟨hm, rfl⟩
        · exact ⟨hm, rfl⟩
      · exact getCached_cache r hfs hm (hm rel e (find_mem hf))
  · exact getUncached_cache r hfs hm hp

theorem handle_cache {c : Cfg} {past : List Fs} {s : St} (r : Req) (now : Int) (hfs : s.fs ∈ past)
    (hm : CacheOk c past s.cache) : CacheOk c past (handle c s r now).2.cache := by
  unfold handle
  simp only []
  split
  · exact hm
  · exact hm
  · rename_i path ht
    split
    · exact hm
    · split
      · exact (get_cache r hfs hm (target_place ht)).1
      · split
        · split
          · exact hm
          · split
            · unfold putPost
              simp only []
              split
              · exact hm
              · split <;> exact hm
            · unfold delete
              simp only []
              split
              · exact hm
              · split <;> exact hm
        · exact hm

theorem addEntry_cache {c : Cfg} {past : List Fs} {s s' : St} {rel path : Bytes} {ph : Bool} (hfs : s.fs ∈ past)
    (hm : CacheOk c past s.cache) (hp : resolve c.cwd path = requested c rel) (h : addEntry c s rel path ph = some s') :
    CacheOk c past s'.cache ∧ s'.fs = s.fs := by
  unfold addEntry at h
  simp only [] at h
  split at h
  · cases h
    exact ⟨hm.insert ⟨hp, .inl rfl⟩, rfl⟩
  · split at h
    · cases h
    · rename_i d hu
      obtain ⟨h1, -⟩ := fresh_entry hfs hu
      rw [hp] at h1
      split at h
      · split at h
        · cases h; exact ⟨hm, rfl⟩
        · rename_i d2 hr
          have h2 := (fresh_read hfs hu hr).1
          rw [hp] at h2
          cases h
          exact ⟨hm.insert h2, rfl⟩
      · cases h
        exact ⟨hm.insert h1, rfl⟩

/-- The directory's path is as `normalize` leaves it, and it is not the root directory. -/
def DirOk (c : Cfg) : Prop := c.directory.getLast? ≠ some slash

theorem scan_place {c : Cfg} (hd : DirOk c) (h0 : c.directory ≠ []) {ns : List Bytes} (hn : ns ≠ []) (hns : ∀ n ∈ ns, IsName n) :
    resolve c.cwd (ns.foldl append c.directory) =
      requested c ((ns.foldl append c.directory).drop (c.directory.length + 1)) := by
  rw [foldl_append_absolute ns hns _ h0 hd]
  obtain ⟨n, ns, rfl⟩ := List.exists_cons_of_ne_nil hn
  have hnn := hns n List.mem_cons_self
  have e : (c.directory ++ absolute (n :: ns)).drop (c.directory.length + 1) = n ++ absolute ns := by
    rw [absolute_cons, List.append_cons, List.drop_append_of_le_length (by simp)]
    simp
  have hne : n ++ absolute ns ≠ [] := by simp [hnn.1]
  rw [e, requested_eq c hne h0]
  congr 1
  unfold append
  rw [if_neg hne, if_neg (head_name hnn _), if_neg (by rintro (h | h); exact h0 h; exact hd h), absolute_cons]

theorem scan_cache {c : Cfg} {past : List Fs} (hd : DirOk c) (h0 : c.directory ≠ []) (files : List (List Bytes)) :
    ∀ {s s' : St}, s.fs ∈ past → CacheOk c past s.cache → (∀ ns ∈ files, ns ≠ [] ∧ ∀ n ∈ ns, n ≠ [] ∧ slash ∉ n) →
    scanFiles c s files = some s' → CacheOk c past s'.cache ∧ s'.fs = s.fs := by
  induction files with
  | nil => intro s s' _ hm _ h; cases h; exact ⟨hm, rfl⟩
  | cons ns files ih =>
    intro s s' hfs hm hns h
    simp only [scanFiles] at h
    split at h
    · cases h
    · rename_i s1 h1
      have hn := hns ns List.mem_cons_self
      obtain ⟨h2, h3⟩ := addEntry_cache hfs hm (scan_place hd h0 hn.1 hn.2) h1
      obtain ⟨h4, h5⟩ := ih (by rw [h3]; exact hfs) h2 (fun x hx => hns x (List.mem_cons_of_mem _ hx)) h
      exact ⟨h4, h5.trans h3⟩

theorem start_cache {c : Cfg} {past : List Fs} {s s' : St} (hd : DirOk c) {files : List (List Bytes)} (hfs : s.fs ∈ past)
    (hm : CacheOk c past s.cache) (hns : ∀ ns ∈ files, ns ≠ [] ∧ ∀ n ∈ ns, n ≠ [] ∧ slash ∉ n)
    (h : start c s files = some (c, s')) : CacheOk c past s'.cache ∧ s'.fs = s.fs := by
  unfold start at h
  split at h
  · cases h; exact ⟨hm, rfl⟩
  · simp only [] at h
    -- the configuration stays as it is
    have key : ∀ c' : Cfg, c' = c → (match (if c'.file = [] then some s else addEntry c' s [] c'.file (c'.scan = 1)) with
        | none => none
        | some s => if c'.directory = [] then some (c', s) else (scanFiles c' s files).map (c', ·)) = some (c, s') →
        CacheOk c past s'.cache ∧ s'.fs = s.fs := by
      rintro c' rfl hh
      split at hh
      · cases hh
      · rename_i s1 h1
        have h2 : CacheOk c' past s1.cache ∧ s1.fs = s.fs := by
          split at h1
          · cases h1; exact ⟨hm, rfl⟩
          · exact addEntry_cache hfs hm (by rw [requested, if_pos rfl]) h1
        split at hh
        · cases hh; exact h2
        · rename_i h0
          cases hsf : scanFiles c' s1 files with
          | none => rw [hsf] at hh; cases hh
          | some s2 =>
            rw [hsf] at hh
            simp only [Option.map_some, Option.some.injEq, Prod.mk.injEq, true_and] at hh
            subst hh
            obtain ⟨h3, h4⟩ := scan_cache hd h0 files (by rw [h2.2]; exact hfs) h2.1 hns hsf
            exact ⟨h3, h4.trans h2.2⟩
    by_cases hcc : c.cache = 0 ∧ 1 < c.scan
    · exfalso
      rw [if_pos hcc] at h
      have : ∀ x, (match x with
          | none => none
          | some s1 => if ({ c with cache := 1 } : Cfg).directory = [] then some (({ c with cache := 1 } : Cfg), s1)
            else (scanFiles { c with cache := 1 } s1 files).map (({ c with cache := 1 } : Cfg), ·)) = some (c, s') → False := by
        intro x hx
        have hcache : ∀ y : Cfg × St, y = (c, s') → y.1.cache = 1 → False := by
          rintro y rfl hy; simp only [] at hy; omega
        cases x with
        | none => cases hx
        | some s1 =>
          simp only [] at hx
          split at hx
          · exact hcache _ (Option.some.inj hx) rfl
          · cases hsf : scanFiles { c with cache := 1 } s1 files with
            | none => rw [hsf] at hx; cases hx
            | some s2 => rw [hsf] at hx; exact hcache _ (Option.some.inj hx) rfl
      exact this _ h
    · rw [if_neg hcc] at h
      exact key c rfl h

theorem hist_inv {c : Cfg} (hd : DirOk c) {past : List Fs} {s : St} (h : Hist c past s) :
    s.fs ∈ past ∧ CacheOk c past s.cache := by
  induction h with
  | init fs => exact ⟨List.mem_cons_self, .nil _ _⟩
  | change fs _ ih => exact ⟨List.mem_cons_self, ih.2.mono fs⟩
  | start _ hf hs ih =>
    obtain ⟨h1, h2⟩ := start_cache hd ih.1 ih.2 hf hs
    exact ⟨by rw [h2]; exact ih.1, h1⟩
  | request r now _ ih => exact ⟨List.mem_cons_self, (handle_cache r now ih.1 ih.2).mono _⟩
  | stop _ ih => exact ⟨ih.1, .nil _ _⟩

end Verif.FileService
