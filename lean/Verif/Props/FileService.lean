import Verif.Lemmas.FileService
import Verif.Props.UrlCodec
/-
C45: the file service stays inside its directory. C46: what the methods do. C47: the cache.
-/
namespace Verif.Props.FileService
open Verif.FileService Verif.Path Verif.Spec.Path Verif.Spec.FileService

/-! ### C45 -/

private theorem update_congr {c : Cfg} {fs fs' : Fs} {d : DiskFile} (h : fs' (resolve c.cwd d.path) = fs (resolve c.cwd d.path)) :
    d.update c fs' = d.update c fs := by
  unfold DiskFile.update; rw [h]

private theorem read_congr {c : Cfg} {fs fs' : Fs} {d : DiskFile} (h : fs' (resolve c.cwd d.path) = fs (resolve c.cwd d.path)) :
    d.read c fs' = d.read c fs := by
  unfold DiskFile.read; rw [h]

private theorem refresh_congr {c : Cfg} {fs fs' : Fs} {d : DiskFile}
    (h : fs' (resolve c.cwd d.path) = fs (resolve c.cwd d.path)) : refresh c fs' d = refresh c fs d := by
  unfold refresh
  split
  · rw [update_congr h]
    split
    · rfl
    · rename_i e hu
      have := update_any hu
      split
      · rw [read_congr (fs := fs) (fs' := fs') (d := e) (by rw [this]; exact h)]
      · rfl
  · split
    · unfold DiskFile.checkUpdated
      rw [h]
      split
      · split
        · rfl
        · simp only []
          rename_i f _ _
          rw [read_congr (d := { d with size := f.content.length, mtime := f.mtime, lastModified := c.date f.mtime }) h]
      · rfl
    · rfl

/-- The files a request can look at: the one asked for and its parent directory. If these are the same in two file
    systems, the answer is the same. -/
theorem looks_only_at {c : Cfg} (hd : DirOk c) {past : List Fs} {s : St} (hh : Hist c past s) (r : Req) (now : Int) (fs' : Fs)
    (h1 : fs' (requested c (relative c r.resource)) = s.fs (requested c (relative c r.resource)))
    (h2 : fs' (requested c (relative c r.resource)).dropLast = s.fs (requested c (relative c r.resource)).dropLast) :
    (handle c { s with fs := fs' } r now).1 = (handle c s r now).1 ∧
    (handle c { s with fs := fs' } r now).2.cache = (handle c s r now).2.cache := by
  obtain ⟨-, hm⟩ := hist_inv hd hh
  generalize hrel : relative c r.resource = rel at h1 h2
  unfold handle
  simp only [hrel]
  split
  · exact ⟨rfl, rfl⟩
  · exact ⟨rfl, rfl⟩
  · rename_i path ht
    have hp := target_place ht
    rw [hp, h1]
    have h1' : fs' (resolve c.cwd path) = s.fs (resolve c.cwd path) := by rw [hp]; exact h1
    have hun : (getUncached c { s with fs := fs' } r rel path).1 = (getUncached c s r rel path).1 ∧
        (getUncached c { s with fs := fs' } r rel path).2.cache = (getUncached c s r rel path).2.cache := by
      unfold getUncached
      simp only [h1']
      rw [update_congr (d := { path := path }) h1']
      split
      · exact ⟨rfl, rfl⟩
      · split
        · exact ⟨rfl, rfl⟩
        · rename_i d hu
          have hdp : d.path = path := update_any hu
          split
          · rename_i d1 ha
            have := answer_file ha
            subst this
            rw [read_congr (fs := s.fs) (fs' := fs') (d := d1) (by rw [hdp]; exact h1')]
            split
            · split
              · cases d1.read c s.fs with
                | mk d2 ok => cases ok <;> exact ⟨rfl, rfl⟩
              · exact ⟨rfl, rfl⟩
            · exact ⟨rfl, rfl⟩
          · exact ⟨rfl, rfl⟩
    split
    · exact ⟨rfl, rfl⟩
    · split
      · unfold FileService.get
        by_cases hcs : 0 < c.cache ∨ 0 < c.scan
        · simp only [if_pos hcs]
          cases hf : s.cache.find? rel with
          | none =>
            simp only []
            by_cases h13 : c.scan = 1 ∨ c.scan = 3
            · simp only [if_pos h13, and_self]
            · simp only [if_neg h13]; exact hun
          | some e =>
            simp only []
            have he := (hm rel e (find_mem hf)).place
            have h1'' : fs' (resolve c.cwd e.path) = s.fs (resolve c.cwd e.path) := by rw [he]; exact h1
            by_cases hc0 : c.cache = 0
            · simp only [if_pos hc0]
              rw [update_congr (d := { path := e.path }) h1'']
              cases ({ path := e.path } : DiskFile).update c s.fs with
              | mk d2 ok => cases ok <;> exact ⟨rfl, rfl⟩
            · simp only [if_neg hc0]
              rw [getCached_eq, getCached_eq c s]
              simp only []
              rw [refresh_congr h1'']
              rcases refresh c s.fs e with ⟨e', ok, updated⟩
              cases ok <;> exact ⟨rfl, rfl⟩
        · simp only [if_neg hcs]; exact hun
      · split
        · split
          · exact ⟨rfl, rfl⟩
          · split
            · unfold putPost write
              simp only [hp, h1, h2]
              cases hs : s.fs (requested c rel) with
              | none =>
                cases hs' : s.fs (requested c rel).dropLast with
                | none => simp
                | some n =>
                  cases n with
                  | file f => simp [h1, hs]
                  | dir w => cases w <;> simp [h1, hs, Fs.set]
              | some n =>
                cases n with
                | dir w => simp [h1, hs]
                | file f => by_cases hw : f.writable <;> simp [h1, hs, hw, Fs.set]
            · unfold delete
              simp only [hp, h1, h2]
              split
              · exact ⟨rfl, rfl⟩
              · split <;> exact ⟨rfl, rfl⟩
        · exact ⟨rfl, rfl⟩

private theorem write_other {fs : Fs} {p q : Place} {post : Bool} {body : Bytes} {now : Int} (h : q ≠ p) :
    write fs p post body now q = fs q := by
  unfold write
  cases hs : fs p with
  | none =>
    simp only []
    cases hs' : fs p.dropLast with
    | none => rfl
    | some n =>
      cases n with
      | file f => rfl
      | dir w =>
        cases w
        · rfl
        · simp [Fs.set, h]
  | some n =>
    cases n with
    | dir w => rfl
    | file f =>
      simp only []
      by_cases hw : f.writable
      · simp [Fs.set, h, hw]
      · simp [hw]

/-- A request changes nothing but the file it is for. -/
theorem changes_only {c : Cfg} {s : St} (r : Req) (now : Int) {q : Place}
    (h : q ≠ requested c (relative c r.resource) ∨ ∀ p, target c (relative c r.resource) ≠ .path p) :
    (handle c s r now).2.fs q = s.fs q := by
  unfold handle
  simp only []
  split
  · rfl
  · rfl
  · rename_i path ht
    have hp := target_place ht
    have h := h.resolve_right (fun hh => hh path ht)
    split
    · rfl
    · split
      · have : ∀ r rel path, (FileService.get c s r rel path).2.fs = s.fs := by
          intro r rel path
          have hun : (getUncached c s r rel path).2.fs = s.fs := by
            unfold getUncached
            split
            · rfl
            · split
              · rfl
              · split
                · split
                  · split
                    · split <;> rfl
                    · rfl
                  · rfl
                · rfl
          unfold FileService.get
          split
          · split
            · split
              · rfl
              · exact hun
            · split
              · split <;> rfl
              · rw [getCached_eq]
                split
                split <;> rfl
          · exact hun
        rw [this]
      · split
        · split
          · rfl
          · split
            · unfold putPost
              simp only [hp]
              split
              · rfl
              · split <;> exact write_other h
            · unfold delete
              simp only [hp]
              split
              · rfl
              · split
                · simp [Fs.set, h]
                · rfl
        · rfl

/-- C45, partially: a service for the directory "/…/d" looks only at places in it (and whether its parent exists and can
    be written) or in a directory beside it whose name begins with `d`, and changes only such places. Missing: that
    beside it (`sibling_escape` shows it fails), directories that are not given as an absolute path
    (`relative_directory_escape`), and requests with names of two characters with a dot (`dotted_escape`). -/
theorem confined_partial {c : Cfg} {dir : Place} {d : Bytes} (hdir : c.directory = absolute (dir ++ [d]))
    (hplain : ∀ n ∈ dir ++ [d], Plain n ∧ ¬ Dotted n) {past : List Fs} {s : St} (hh : Hist c past s) (r : Req) (now : Int)
    (hrel : relative c r.resource ≠ [])
    (hnames : ∀ n ∈ ((relative c r.resource).splitOn (c! "/")).filter (· ≠ []), ¬ Dotted n) :
    (∀ fs', (∀ p, InsideOrBeside dir d p ∨ p = dir → fs' p = s.fs p) →
      (handle c { s with fs := fs' } r now).1 = (handle c s r now).1 ∧
      (handle c { s with fs := fs' } r now).2.cache = (handle c s r now).2.cache) ∧
    ∀ p, ¬ InsideOrBeside dir d p → (handle c s r now).2.fs p = s.fs p := by
  have hne : c.directory ≠ [] := by rw [hdir]; simp [absolute]
  have hdok : DirOk c := by
    unfold DirOk
    rw [hdir, absolute, List.flatMap_append, List.flatMap_singleton, getLast?_append_ne _ (by simp),
      List.getLast?_cons_of_ne_nil (hplain d (by simp)).1.1]
    exact fun h => (hplain d (by simp)).1.2.1 (List.mem_of_getLast? h)
  have key : ∀ path, target c (relative c r.resource) = .path path →
      InsideOrBeside dir d (requested c (relative c r.resource)) := by
    intro path ht
    rw [← target_place ht]
    unfold target at ht
    rw [if_neg hrel, if_neg hne] at ht
    simp only [] at ht
    split at ht
    · rename_i hpre
      cases ht
      rw [hdir] at hpre ⊢
      obtain ⟨suffix, rest, h1, -⟩ := normalize_prefix dir d _ hplain hrel (fun n hn => hnames n (by rw [names_eq] at hn; exact hn))
        (List.isPrefixOf_iff_prefix.mp hpre) c.cwd
      exact ⟨suffix, rest, h1⟩
    · cases ht
  constructor
  · intro fs' hfs
    by_cases ht : ∃ path, target c (relative c r.resource) = .path path
    · obtain ⟨path, ht⟩ := ht
      have hin := key path ht
      refine looks_only_at hdok hh r now fs' (hfs _ (.inl hin)) (hfs _ ?_)
      obtain ⟨suffix, rest, he⟩ := hin
      rw [he]
      rcases List.eq_nil_or_concat rest with rfl | ⟨l, x, rfl⟩
      · right; rw [List.dropLast_concat]
      · left
        refine ⟨suffix, l, ?_⟩
        rw [List.concat_eq_append, ← List.cons_append, ← List.append_assoc, List.dropLast_concat]
    · unfold handle
      simp only []
      split
      · exact ⟨rfl, rfl⟩
      · exact ⟨rfl, rfl⟩
      · rename_i path hp; exact absurd ⟨path, hp⟩ ht
  · intro p hp
    refine changes_only r now ?_
    by_cases ht : ∃ path, target c (relative c r.resource) = .path path
    · obtain ⟨path, ht⟩ := ht
      left
      rintro rfl
      exact hp (key path ht)
    · right; exact fun path hpath => ht ⟨path, hpath⟩

/-- The example file system: a site, a directory beside it, the password file. -/
def exampleFs : Fs := fun p =>
  if p = [] ∨ p = [b! "var"] ∨ p = [b! "var", b! "www"] ∨ p = [b! "var", b! "www", b! ".a"] ∨ p = [b! "var", b! "www-old"] ∨
    p = [b! "etc"] then some (.dir true)
  else if p = [b! "var", b! "www", b! "index.html"] then some (.file { content := b! "hello", mtime := 1000 })
  else if p = [b! "var", b! "www-old", b! "key"] then some (.file { content := b! "secret", mtime := 1000 })
  else if p = [b! "etc", b! "passwd"] then some (.file { content := b! "root:x", mtime := 1000 })
  else none

def exampleCfg : Cfg :=
  { resource := b! "/files", directory := b! "/var/www", cache := 0, date := fun t => UrlCodec.urlEncode [UInt8.ofNat t.toNat] }

def got (c : Cfg) (path : Bytes) : Out := (handle c { fs := exampleFs } { method := b! "GET", resource := path } 0).1

/-- The size of the file sent (here without a cache the content is read by the sender), and where it is. -/
def sent (c : Cfg) (path : Bytes) : Option (Nat × Place) := match got c path with
  | .file d => some (d.size, resolve c.cwd d.path)
  | _ => none

example : exampleCfg.directory = absolute [b! "var", b! "www"] ∧
    (∀ n ∈ [b! "var"] ++ [b! "www"], Plain n ∧ ¬ Dotted n) ∧
    sent exampleCfg (b! "/files/x/../index.html") = some (5, [b! "var", b! "www", b! "index.html"]) ∧
    got exampleCfg (b! "/files/../../etc/passwd") = .page 403 (b! "/files/../../etc/passwd") := by
  refine ⟨?_, ?_, ?_, ?_⟩ <;> decide +kernel

/-- Finding: a directory beside the configured one, whose name begins with its name, is served too; the dots may be
    encoded. -/
theorem sibling_escape :
    sent exampleCfg (b! "/files/../www-old/key") = some (6, [b! "var", b! "www-old", b! "key"]) ∧
    sent exampleCfg (b! "/files/%2e%2e/www-old/key") = some (6, [b! "var", b! "www-old", b! "key"]) := by
  constructor <;> decide +kernel

/-- Finding: ".." after a name of two characters with a dot in it is not removed by `normalize`, so that the prefix test
    lets any path pass that goes through such a directory. -/
theorem dotted_escape :
    sent exampleCfg (b! "/files/.a/../../../etc/passwd") = some (6, [b! "etc", b! "passwd"]) := by decide +kernel

/-- Finding: for the directory "." the prefix test lets everything pass. -/
theorem relative_directory_escape :
    sent { exampleCfg with directory := b! ".", cwd := [b! "var", b! "www"] } (b! "/files/../../etc/passwd") =
      some (6, [b! "etc", b! "passwd"]) := by decide +kernel

/-- Finding: a directory given with a slash at the end is kept with "/." at its end, and the prefix test refuses every
    file whose name does not begin with a dot. -/
theorem trailing_slash_refuses (c : Cfg) (number : Bytes → Option Nat) (hc : c.cwd = []) (hr : c.resource = b! "/files") :
    ∃ c', setOption number exampleFs c (b! "directory") (b! "/var/www/") = .ok c' ∧
      (handle c' { fs := exampleFs } { method := b! "GET", resource := b! "/files/index.html" } 0).1 =
        .page 403 (b! "/files/index.html") := by
  refine ⟨{ c with directory := b! "/var/www/." }, ?_, ?_⟩
  · have h1 : normalize (b! "/var/www/") = b! "/var/www/." := by decide +kernel
    have h2 : exampleFs (resolve c.cwd (b! "/var/www/.")) = some (.dir true) := by rw [hc]; decide +kernel
    simp only [setOption, if_true, h1, h2]
    rw [if_neg (by simp)]
  · have h1 : target { c with directory := b! "/var/www/." } (b! "index.html") = .outside := by
      unfold target
      rw [if_neg (by decide), if_neg (by simp)]
      simp only []
      rw [if_neg (by decide +kernel)]
    have h2 : relative { c with directory := b! "/var/www/." } (b! "/files/index.html") = b! "index.html" := by
      unfold relative
      simp only [hr]
      decide +kernel
    unfold handle
    simp only [h2, h1]
    decide +kernel

/-! ### C46 -/

/-- C46: without the writable option no request changes the file system. -/
theorem read_only {c : Cfg} (hw : c.writable = false) (s : St) (r : Req) (now : Int) :
    (handle c s r now).2.fs = s.fs := by
  have hget : ∀ r rel path, (FileService.get c s r rel path).2.fs = s.fs := by
    intro r rel path
    have hun : (getUncached c s r rel path).2.fs = s.fs := by
      unfold getUncached
      split
      · rfl
      · split
        · rfl
        · split
          · split
            · split
              · split <;> rfl
              · rfl
            · rfl
          · rfl
    unfold FileService.get
    split
    · split
      · split
        · rfl
        · exact hun
      · split
        · split <;> rfl
        · rw [getCached_eq]
          split
          split <;> rfl
    · exact hun
  unfold handle
  simp only []
  split
  · rfl
  · rfl
  · split
    · rfl
    · split
      · exact hget _ _ _
      · split
        · rfl
        · rfl

/-- C46: only POST, PUT and DELETE change the file system. -/
theorem safe_methods (c : Cfg) (s : St) (r : Req) (now : Int)
    (hm : r.method ≠ b! "POST" ∧ r.method ≠ b! "PUT" ∧ r.method ≠ b! "DELETE") : (handle c s r now).2.fs = s.fs := by
  have h := read_only (c := { c with writable := false }) rfl s r now
  rw [← h]
  have ht : ∀ rel, target { c with writable := false } rel = target c rel := fun _ => rfl
  have hr : relative { c with writable := false } r.resource = relative c r.resource := rfl
  unfold handle
  simp only [hm, false_or, if_false, ht, hr]
  split
  · rfl
  · rfl
  · split
    · rfl
    · split
      · rfl
      · rfl

/-- The request is for a file that may be served (it need not exist). -/
def Serves (c : Cfg) (s : St) (r : Req) : Prop :=
  (∃ p, target c (relative c r.resource) = .path p) ∧ ∀ w, s.fs (requested c (relative c r.resource)) ≠ some (.dir w)

private theorem handle_serves {c : Cfg} {s : St} {r : Req} (now : Int) (h : Serves c s r) :
    ∃ path, resolve c.cwd path = requested c (relative c r.resource) ∧ handle c s r now =
      if isGet r.method ∨ isHead r.method then FileService.get c s r (relative c r.resource) path
      else if r.method = b! "POST" ∨ r.method = b! "PUT" ∨ r.method = b! "DELETE" then
        if c.writable = false then (.page 405 (escape r.method), s)
        else if r.method = b! "POST" ∨ r.method = b! "PUT" then putPost c s r path now
        else delete c s r path
      else (.page 501 (escape r.method), s) := by
  obtain ⟨⟨path, ht⟩, hd⟩ := h
  have hp := target_place ht
  refine ⟨path, hp, ?_⟩
  unfold handle
  simp only [ht]
  split
  · rename_i w hw
    rw [hp] at hw
    exact absurd hw (hd w)
  · rfl

/-- C46: a request that modifies is answered with 405 if the service is not writable. -/
theorem not_allowed {c : Cfg} {s : St} {r : Req} (now : Int) (h : Serves c s r) (hw : c.writable = false)
    (hm : r.method = b! "POST" ∨ r.method = b! "PUT" ∨ r.method = b! "DELETE") :
    handle c s r now = (.page 405 (escape r.method), s) := by
  obtain ⟨path, -, he⟩ := handle_serves now h
  rw [he, if_neg, if_pos hm, if_pos hw]
  rcases hm with hm | hm | hm <;> rw [hm] <;> decide

/-- C46: other methods are answered with 501, writable or not. -/
theorem not_implemented {c : Cfg} {s : St} {r : Req} (now : Int) (h : Serves c s r)
    (hm : r.method ∉ [b! "GET", b! "HEAD", b! "POST", b! "PUT", b! "DELETE"]) :
    handle c s r now = (.page 501 (escape r.method), s) := by
  obtain ⟨path, -, he⟩ := handle_serves now h
  simp only [List.mem_cons, List.not_mem_nil, or_false, not_or] at hm
  rw [he, if_neg (by simp [isGet, isHead, hm]), if_neg (by simp [hm])]

/-- Requests for directories, for files outside and without a matching option are refused and change nothing. -/
theorem refused {c : Cfg} {s : St} {r : Req} (now : Int) (h : ¬ Serves c s r) :
    ∃ status, (status = 403 ∨ status = 404) ∧ handle c s r now = (.page status (escape r.resource), s) := by
  unfold handle
  simp only []
  cases ht : target c (relative c r.resource) with
  | none => exact ⟨404, .inr rfl, rfl⟩
  | outside => exact ⟨403, .inl rfl, rfl⟩
  | path p =>
    have hp := target_place ht
    simp only [hp]
    cases hs : s.fs (requested c (relative c r.resource)) with
    | none => exact absurd ⟨⟨p, ht⟩, by rw [hs]; simp⟩ h
    | some n =>
      cases n with
      | dir w => exact ⟨403, .inl rfl, rfl⟩
      | file f => exact absurd ⟨⟨p, ht⟩, by rw [hs]; simp⟩ h

private theorem decode_link (n t : Bytes) (h : 0 ∉ n) : Verif.UrlCodec.urlDecode (Verif.UrlCodec.urlEncode n ++ t) =
    n ++ Verif.UrlCodec.urlDecode t := by
  induction n with
  | nil => rfl
  | cons c n ih =>
    rw [List.mem_cons, not_or] at h
    have : Verif.UrlCodec.urlEncode (c :: n) = Verif.UrlCodec.encByte c ++ Verif.UrlCodec.urlEncode n := rfl
    rw [this, List.append_assoc, Verif.Props.UrlCodec.decode_encByte, ih h.2, if_neg (Ne.symm h.1)]
    rfl

private theorem namesFrom_plain (n : Bytes) (h : c! "/" ∉ n) : ∀ cur, cur ++ n ≠ [] → namesFrom cur n = [cur ++ n] := by
  induction n with
  | nil =>
    intro cur hc
    rw [List.append_nil] at hc ⊢
    simp [namesFrom, hc]
  | cons a n ih =>
    intro cur hc
    rw [List.mem_cons, not_or] at h
    rw [namesFrom, if_neg (show a ≠ slash from Ne.symm h.1), ih h.2 _ (by simp), List.append_assoc]
    rfl

private theorem filter_names (ns : List Bytes) (hn : ∀ n ∈ ns, n ≠ [] ∧ c! "/" ∉ n) (n : Bytes) (h0 : n ≠ [] ∧ c! "/" ∉ n) :
    ((n ++ ns.flatMap (fun n => c! "/" :: n)).splitOn (c! "/")).filter (· ≠ []) = n :: ns := by
  have hp : ∀ m : Bytes, m ≠ [] ∧ c! "/" ∉ m → names m = [m] := fun m hm => namesFrom_plain m hm.2 [] hm.1
  refine (names_eq _).symm.trans ?_
  induction ns generalizing n with
  | nil => rw [List.flatMap_nil, List.append_nil, hp n h0]
  | cons m ns ih =>
    rw [List.flatMap_cons, List.cons_append, show ∀ t : Bytes, names (n ++ (c! "/") :: t) = names n ++ names t from
      names_append_slash n, hp n h0, ih (fun x hx => hn x (List.mem_cons_of_mem _ hx)) m (hn m List.mem_cons_self)]
    rfl

private theorem link_relative {c : Cfg} {n : Bytes} {ns : List Bytes} (hn : ∀ m ∈ n :: ns, 0 ∉ m) :
    relative c (c.resource ++ (n :: ns).flatMap (fun m => c! "/" :: Verif.UrlCodec.urlEncode m)) =
      n ++ ns.flatMap (fun m => c! "/" :: m) := by
  have hdec : ∀ ns : List Bytes, (∀ m ∈ ns, 0 ∉ m) → Verif.UrlCodec.urlDecode
      (ns.flatMap (fun m => c! "/" :: Verif.UrlCodec.urlEncode m)) = ns.flatMap (fun m => c! "/" :: m) := by
    intro ns
    induction ns with
    | nil => intro _; rfl
    | cons m ns ih =>
      intro h
      rw [List.flatMap_cons, List.cons_append, Verif.Props.UrlCodec.urlDecode_cons _ _ (by decide) (by decide),
        decode_link _ _ (h m List.mem_cons_self), ih (fun x hx => h x (List.mem_cons_of_mem _ hx))]
      rfl
  unfold relative
  rw [if_neg (by rw [List.flatMap_cons]; simp only [List.length_append, List.length_cons]; omega)]
  have hd : ∀ t : Bytes, (c.resource ++ c! "/" :: t).drop (c.resource.length + 1) = t := fun t => by
    rw [← List.drop_drop, List.drop_left]; rfl
  rw [List.flatMap_cons, List.cons_append, hd, decode_link _ _ (hn n List.mem_cons_self),
    hdec ns (fun m hm => hn m (List.mem_cons_of_mem _ hm))]

/-- C46: the path of a request names the file. A link made of the service's resource and of the encoded names of
    directories and a file is a request for the file with these names, below the configured directory. -/
theorem link {c : Cfg} {n : Bytes} {ns : List Bytes} (hn : ∀ m ∈ n :: ns, m ≠ [] ∧ c! "/" ∉ m ∧ 0 ∉ m) :
    requested c (relative c (c.resource ++ (n :: ns).flatMap (fun m => c! "/" :: Verif.UrlCodec.urlEncode m))) =
      walk (resolve c.cwd c.directory) (n :: ns) := by
  have h0 := hn n List.mem_cons_self
  rw [link_relative (fun m hm => (hn m hm).2.2)]
  unfold requested
  rw [if_neg (by simp [h0.1]), filter_names ns (fun m hm => ⟨(hn m (List.mem_cons_of_mem _ hm)).1,
    (hn m (List.mem_cons_of_mem _ hm)).2.1⟩) n ⟨h0.1, h0.2.1⟩]

/-- C46: the service's resource itself, with or without a slash behind it, is a request for the configured file. -/
theorem link_root (c : Cfg) : requested c (relative c c.resource) = resolve c.cwd c.file ∧
    requested c (relative c (c.resource ++ b! "/")) = resolve c.cwd c.file := by
  constructor
  · simp [relative, requested]
  · rw [relative, if_neg (by simp [show (b! "/").length = 1 from rfl]),
      List.drop_eq_nil_of_le (by simp [show (b! "/").length = 1 from rfl])]
    simp [requested, show Verif.UrlCodec.urlDecode [] = [] from rfl]

example : requested { exampleCfg with file := b! "/var/www/index.html" }
    (relative { exampleCfg with file := b! "/var/www/index.html" } (b! "/files/")) =
    [b! "var", b! "www", b! "index.html"] := by decide +kernel

example : requested exampleCfg (relative exampleCfg (b! "/files/a%20b/50%25.txt")) =
    [b! "var", b! "www", b! "a b", b! "50%.txt"] := by decide +kernel

/-- C46: PUT on a writable service replaces the content of the file, POST appends to it, and nothing else changes. -/
theorem written {c : Cfg} {s : St} {r : Req} (now : Int) (h : Serves c s r) (hw : c.writable = true)
    (hm : r.method = b! "POST" ∨ r.method = b! "PUT") {f : File}
    (hf : s.fs (requested c (relative c r.resource)) = some (.file f)) (hfw : f.writable = true) :
    (handle c s r now).1 = .page 204 [] ∧
    (handle c s r now).2.fs (requested c (relative c r.resource)) =
      some (.file { f with content := (if r.method = b! "POST" then f.content else []) ++ r.body, mtime := now }) ∧
    ∀ q, q ≠ requested c (relative c r.resource) → (handle c s r now).2.fs q = s.fs q := by
  refine ⟨?_, ?_, fun q hq => changes_only r now (.inl hq)⟩ <;>
  · obtain ⟨path, hp, he⟩ := handle_serves now h
    rw [he, if_neg (by rcases hm with hm | hm <;> rw [hm] <;> decide), if_pos (by tauto), if_neg (by simp [hw]), if_pos hm]
    rcases hm with hm | hm <;> simp [putPost, write, hp, hf, hfw, Fs.set, hm]

/-- C46: PUT and POST on a writable service create a file that is not there if its directory is. -/
theorem created {c : Cfg} {s : St} {r : Req} (now : Int) (h : Serves c s r) (hw : c.writable = true)
    (hm : r.method = b! "POST" ∨ r.method = b! "PUT") (hf : s.fs (requested c (relative c r.resource)) = none)
    (hdir : s.fs (requested c (relative c r.resource)).dropLast = some (.dir true)) :
    (handle c s r now).1 = .page 201 (escape r.resource) ∧
    (handle c s r now).2.fs (requested c (relative c r.resource)) = some (.file { content := r.body, mtime := now }) ∧
    ∀ q, q ≠ requested c (relative c r.resource) → (handle c s r now).2.fs q = s.fs q := by
  refine ⟨?_, ?_, fun q hq => changes_only r now (.inl hq)⟩ <;>
  · obtain ⟨path, hp, he⟩ := handle_serves now h
    rw [he, if_neg (by rcases hm with hm | hm <;> rw [hm] <;> decide), if_pos (by tauto), if_neg (by simp [hw]), if_pos hm]
    simp [putPost, write, hp, hf, hdir, Fs.set]

/-- C46: DELETE on a writable service removes the file and nothing else. -/
theorem deleted {c : Cfg} {s : St} {r : Req} (now : Int) (h : Serves c s r) (hw : c.writable = true)
    (hm : r.method = b! "DELETE") (hf : s.fs (requested c (relative c r.resource)) ≠ none)
    (hdir : s.fs (requested c (relative c r.resource)).dropLast = some (.dir true)) :
    (handle c s r now).1 = .page 204 [] ∧ (handle c s r now).2.fs (requested c (relative c r.resource)) = none ∧
    ∀ q, q ≠ requested c (relative c r.resource) → (handle c s r now).2.fs q = s.fs q := by
  have hf' : (s.fs (requested c (relative c r.resource))).isNone = false := by
    cases hs : s.fs (requested c (relative c r.resource)) with
    | none => exact absurd hs hf
    | some _ => rfl
  refine ⟨?_, ?_, fun q hq => changes_only r now (.inl hq)⟩ <;>
  · obtain ⟨path, hp, he⟩ := handle_serves now h
    rw [he, if_neg (by rw [hm]; decide), if_pos (.inr (.inr hm)), if_neg (by simp [hw]), if_neg (by rw [hm]; decide)]
    simp [delete, hp, hf', hdir, Fs.set]

/-- A request for the example's file meets the conditions. -/
example : Serves { exampleCfg with writable := true } { fs := exampleFs } { method := b! "PUT", resource := b! "/files/index.html" } :=
  ⟨⟨b! "/var/www/index.html", by decide +kernel⟩, by
    have : exampleFs (requested { exampleCfg with writable := true }
      (relative { exampleCfg with writable := true } (b! "/files/index.html"))) =
        some (.file { content := b! "hello", mtime := 1000 }) := by decide +kernel
    exact fun w hw => by cases this.symm.trans hw⟩

/-- Finding: a failed write is not noticed. PUT on a file that cannot be written is answered with 204, and nothing has
    changed. -/
theorem failed_write_unnoticed {c : Cfg} {s : St} {r : Req} (now : Int) (h : Serves c s r) (hw : c.writable = true)
    (hm : r.method = b! "POST" ∨ r.method = b! "PUT") {f : File}
    (hf : s.fs (requested c (relative c r.resource)) = some (.file f)) (hfw : f.writable = false) :
    handle c s r now = (.page 204 [], s) := by
  obtain ⟨path, hp, he⟩ := handle_serves now h
  rw [he, if_neg (by rcases hm with hm | hm <;> rw [hm] <;> decide), if_pos (by tauto), if_neg (by simp [hw]), if_pos hm]
  simp [putPost, write, hp, hf, hfw]

/-! ### C47 -/

private theorem answer_304 {r : Req} {d : DiskFile} {lm : Bytes} (h : answer r d = .headers 304 lm) :
    d.lastModified = r.ifModifiedSince := by
  unfold answer at h
  split at h
  · assumption
  · split at h
    · cases h
    · cases h

/-- What GET answers with is, for a service that checks for updates, a copy of the requested file at some time when it
    had the size and the time of modification it has now; if nothing is cached the sender will read the file. -/
theorem get_copy {c : Cfg} (hd : DirOk c) {past : List Fs} {s : St} (hh : Hist c past s) (hc : c.cache ≤ 1) (r : Req)
    (now : Int) {o : Out} (ho : (handle c s r now).1 = o) (hnp : ∀ st t, o ≠ .page st t) (hnt : o ≠ .thrown) :
    ∃ d f, o = answer r d ∧ resolve c.cwd d.path = requested c (relative c r.resource) ∧
      s.fs (requested c (relative c r.resource)) = some (.file f) ∧ d.mtime = f.mtime ∧ d.size = f.content.length ∧
      (c.cache = 0 → d.content = none) ∧
      ∃ fs ∈ past, ∃ g, fs (requested c (relative c r.resource)) = some (.file g) ∧ Copy c g d := by
  obtain ⟨hfs, hm⟩ := hist_inv hd hh
  unfold handle at ho
  simp only [] at ho
  generalize hrel : relative c r.resource = rel at *
  split at ho
  · exact absurd ho.symm (hnp _ _)
  · exact absurd ho.symm (hnp _ _)
  · rename_i path ht
    have hp := target_place ht
    have hun : (getUncached c s r rel path).1 = o →
        ∃ d f, o = answer r d ∧ resolve c.cwd d.path = requested c rel ∧
          s.fs (requested c rel) = some (.file f) ∧ d.mtime = f.mtime ∧ d.size = f.content.length ∧
          (c.cache = 0 → d.content = none) ∧
          ∃ fs ∈ past, ∃ g, fs (requested c rel) = some (.file g) ∧ Copy c g d := by
      intro ho
      unfold getUncached at ho
      split at ho
      · exact absurd ho.symm (hnp _ _)
      · split at ho
        · exact absurd ho.symm hnt
        · rename_i d hu
          obtain ⟨h1, h2, h3, f, hf, hcp⟩ := fresh_entry hfs hu
          rw [hp] at hf
          split at ho
          · rename_i d1 ha
            have hd1 := answer_file ha
            subst hd1
            have hans : ∀ d' : DiskFile, d'.lastModified = d1.lastModified → answer r d' = .file d' := by
              intro d' hl
              unfold answer at ha ⊢
              rw [hl]
              split at ha
              · cases ha
              · split at ha
                · cases ha
                · rename_i n1 n2
                  rw [if_neg n1, if_neg n2]
            split at ho
            · rename_i hc0
              split at ho
              · split at ho
                · exact absurd ho.symm hnt
                · rename_i d2 hr
                  have hs := read_spec hr
                  obtain ⟨h4, f', hf', hcp'⟩ := fresh_read hfs hu hr
                  rw [hp] at hf'
                  refine ⟨d2, f', ?_, by rw [hs.1, h3, hp], hf', hcp'.mtime, hcp'.size, fun h => absurd h hc0, s.fs, hfs, f', hf', hcp'⟩
                  rw [← ho, hans d2 hs.2.2.2]
              · exact ⟨d1, f, by rw [← ho, hans d1 rfl], by rw [h3, hp], hf, hcp.mtime, hcp.size, fun _ => h2, s.fs, hfs, f, hf, hcp⟩
            · exact ⟨d1, f, by rw [← ho, hans d1 rfl], by rw [h3, hp], hf, hcp.mtime, hcp.size, fun _ => h2, s.fs, hfs, f, hf, hcp⟩
          · exact ⟨d, f, ho.symm, by rw [h3, hp], hf, hcp.mtime, hcp.size, fun _ => h2, s.fs, hfs, f, hf, hcp⟩
    split at ho
    · exact absurd ho.symm (hnp _ _)
    · split at ho
      · unfold FileService.get at ho
        split at ho
        · rename_i hcs
          split at ho
          · split at ho
            · exact absurd ho.symm (hnp _ _)
            · exact hun ho
          · rename_i e hf
            have he := hm rel e (find_mem hf)
            split at ho
            · split at ho
              · exact absurd ho.symm hnt
              · rename_i d hu
                obtain ⟨h1, h2, h3, f, hf, hcp⟩ := fresh_entry hfs hu
                rw [he.place] at hf
                exact ⟨d, f, ho.symm, by rw [h3, he.place], hf, hcp.mtime, hcp.size, fun _ => h2, s.fs, hfs, f, hf, hcp⟩
            · rename_i hc0
              rw [getCached_eq] at ho
              cases hr : refresh c s.fs e with
              | mk e' x =>
                obtain ⟨ok, updated⟩ := x
                rw [hr] at ho
                obtain ⟨h1, h2⟩ := refresh_spec hfs he hr
                simp only [] at ho
                split at ho
                · rename_i hok
                  obtain ⟨h3, h4⟩ := h2 hok
                  obtain ⟨f, hf1, hf2, hf3⟩ := h4 (.inl (by omega))
                  exact ⟨e', f, ho.symm, h1.place, hf1, hf2, hf3, fun h => absurd h hc0, h3⟩
                · exact absurd ho.symm hnt
        · exact hun ho
      · split at ho
        · split at ho
          · exact absurd ho.symm (hnp _ _)
          · split at ho
            · unfold putPost at ho
              simp only [] at ho
              split at ho
              · exact absurd ho.symm (hnp _ _)
              · split at ho <;> exact absurd ho.symm (hnp _ _)
            · unfold delete at ho
              simp only [] at ho
              split at ho
              · exact absurd ho.symm (hnp _ _)
              · split at ho <;> exact absurd ho.symm (hnp _ _)
        · exact absurd ho.symm (hnp _ _)

/-- C47, partially: with cache=1 the file sent for GET has the size and Last-Modified text of the requested file as it is
    now, and its content is that of the file at some time when it had this size and time of modification (or it is not
    cached and will be read from the file). Missing: files the server may not read (`uninitialised_sent`). The
    directory is one as `set_option` leaves it, other than "/". -/
theorem get_fresh_partial {c : Cfg} (hd : DirOk c) {past : List Fs} {s : St} (hh : Hist c past s) (hr : AllReadable past)
    (hc : c.cache = 1) (r : Req) (now : Int) {d : DiskFile} (ho : (handle c s r now).1 = .file d) :
    ∃ f, s.fs (requested c (relative c r.resource)) = some (.file f) ∧ d.size = f.content.length ∧
      d.lastModified = c.date f.mtime ∧ resolve c.cwd d.path = requested c (relative c r.resource) ∧
      (d.content = none ∨ ∃ fs ∈ past, ∃ g, fs (requested c (relative c r.resource)) = some (.file g) ∧ g.mtime = f.mtime ∧
        g.content.length = f.content.length ∧ d.content = some (g.content.map some)) := by
  obtain ⟨d', f, h1, h2, h3, h4, h5, -, fs, hfs, g, hg, hcp⟩ := get_copy hd hh (by omega) r now ho (by simp) (by simp)
  have := answer_file h1.symm
  subst this
  refine ⟨f, h3, h5, ?_, h2, ?_⟩
  · rw [hcp.text, ← hcp.mtime, h4]
  · rcases hcp.content (hr fs hfs _ g hg) with h | h
    · exact .inl h
    · exact .inr ⟨fs, hfs, g, hg, by rw [← hcp.mtime, h4], by rw [← hcp.size, h5], h⟩

/-- C47: with cache=0 the file sent for GET is the requested one, not cached, with its size and time as they are now. -/
theorem get_current {c : Cfg} (hd : DirOk c) {past : List Fs} {s : St} (hh : Hist c past s) (hc : c.cache = 0) (r : Req)
    (now : Int) {d : DiskFile} (ho : (handle c s r now).1 = .file d) :
    ∃ f, s.fs (requested c (relative c r.resource)) = some (.file f) ∧ d.size = f.content.length ∧
      d.lastModified = c.date f.mtime ∧ resolve c.cwd d.path = requested c (relative c r.resource) ∧ d.content = none := by
  obtain ⟨d', f, h1, h2, h3, h4, h5, h6, fs, hfs, g, hg, hcp⟩ := get_copy hd hh (by omega) r now ho (by simp) (by simp)
  have := answer_file h1.symm
  subst this
  exact ⟨f, h3, h5, by rw [hcp.text, ← hcp.mtime, h4], h2, h6 hc⟩

/-- C47: with cache=0 or cache=1, 304 is only answered if the If-Modified-Since text is that of the requested file's time
    of modification now. -/
theorem not_modified {c : Cfg} (hd : DirOk c) {past : List Fs} {s : St} (hh : Hist c past s) (hc : c.cache ≤ 1) (r : Req)
    (now : Int) {lm : Bytes} (ho : (handle c s r now).1 = .headers 304 lm) :
    ∃ f, s.fs (requested c (relative c r.resource)) = some (.file f) ∧ r.ifModifiedSince = c.date f.mtime := by
  obtain ⟨d', f, h1, h2, h3, h4, h5, -, fs, hfs, g, hg, hcp⟩ := get_copy hd hh hc r now ho (by simp) (by simp)
  exact ⟨f, h3, by rw [← answer_304 h1.symm, hcp.text, ← hcp.mtime, h4]⟩

private theorem read_succeeds {c : Cfg} {fs : Fs} {d : DiskFile} {f : File} (hf : fs (resolve c.cwd d.path) = some (.file f))
    (hr : f.readable = true) (hs : d.size = f.content.length) : (d.read c fs).2 = true := by
  unfold DiskFile.read
  simp [hf, hr, hs]

private theorem update_succeeds {c : Cfg} {fs : Fs} {d : DiskFile} {f : File} (hf : fs (resolve c.cwd d.path) = some (.file f)) :
    d.update c fs = ({ d with size := f.content.length, mtime := f.mtime, lastModified := c.date f.mtime }, true) := by
  unfold DiskFile.update
  rw [hf]

private theorem refresh_succeeds {c : Cfg} {fs : Fs} {e : DiskFile} {f : File} (hf : fs (resolve c.cwd e.path) = some (.file f))
    (hr : f.readable = true) : (refresh c fs e).2.1 = true := by
  unfold refresh
  split
  · rw [update_succeeds hf]
    simp only []
    split
    · exact read_succeeds (f := f) hf hr rfl
    · rfl
  · split
    · unfold DiskFile.checkUpdated
      rw [hf]
      simp only []
      split
      · rfl
      · exact read_succeeds (f := f) hf hr rfl
    · rfl

private theorem answer_shape (r : Req) (d : DiskFile) : (∀ st t, answer r d ≠ .page st t) ∧ answer r d ≠ .thrown := by
  unfold answer
  split
  · simp
  · split <;> simp

/-- GET or HEAD for a file that is there and can be read does not fail. -/
private theorem get_succeeds {c : Cfg} (hd : DirOk c) {past : List Fs} {s : St} (hh : Hist c past s) (r : Req)
    (now : Int) (h : Serves c s r) (hm : r.method = b! "GET" ∨ r.method = b! "HEAD") {f : File}
    (hf : s.fs (requested c (relative c r.resource)) = some (.file f)) (hr : f.readable = true)
    (hscan : (c.scan = 1 ∨ c.scan = 3) → (s.cache.find? (relative c r.resource)).isSome) :
    (∀ st t, (handle c s r now).1 ≠ .page st t) ∧ (handle c s r now).1 ≠ .thrown := by
  obtain ⟨hfs, hinv⟩ := hist_inv hd hh
  obtain ⟨path, hp, he⟩ := handle_serves now h
  rw [he, if_pos (by rcases hm with hm | hm <;> rw [hm] <;> decide)]
  generalize hrel : relative c r.resource = rel at *
  have hun : (∀ st t, (getUncached c s r rel path).1 ≠ .page st t) ∧ (getUncached c s r rel path).1 ≠ .thrown := by
    unfold getUncached
    rw [hp, hf]
    simp only []
    rw [update_succeeds (d := { path := path }) (by rw [hp]; exact hf)]
    simp only []
    split
    · rename_i d hd'
      have hde := answer_file hd'
      subst hde
      split
      · split
        · have := read_succeeds (c := c) (fs := s.fs) (d := { path := path, size := f.content.length, mtime := f.mtime, lastModified := c.date f.mtime })
            (f := f) (by rw [hp]; exact hf) hr rfl
          split
          · rename_i h'; rw [h'] at this; exact nomatch this
          · simp
        · simp
      · simp
    · exact answer_shape _ _
  unfold FileService.get
  split
  · split
    · rename_i hnone
      split
      · rename_i hs
        have := hscan hs
        rw [hnone] at this
        exact nomatch this
      · exact hun
    · rename_i e hfind
      have hent := hinv rel e (find_mem hfind)
      have hf' : s.fs (resolve c.cwd e.path) = some (.file f) := by rw [hent.place]; exact hf
      split
      · rw [update_succeeds (d := { path := e.path }) hf']
        exact answer_shape _ _
      · rw [getCached_eq]
        have := refresh_succeeds (c := c) hf' hr
        cases hre : refresh c s.fs e with
        | mk e' x =>
          obtain ⟨ok, updated⟩ := x
          rw [hre] at this
          simp only at this
          subst this
          exact answer_shape _ _
  · exact hun

/-- C47: GET and HEAD for a file that is there and can be read are answered: with 304 exactly when the If-Modified-Since
    text is that of the file's time of modification; otherwise HEAD with 200 and that text, and GET with the file. With
    scan=1 or scan=3 only files found by the scan are served. -/
theorem get_answered {c : Cfg} (hd : DirOk c) {past : List Fs} {s : St} (hh : Hist c past s) (hc : c.cache ≤ 1) (r : Req)
    (now : Int) (h : Serves c s r) (hm : r.method = b! "GET" ∨ r.method = b! "HEAD") {f : File}
    (hf : s.fs (requested c (relative c r.resource)) = some (.file f)) (hr : f.readable = true)
    (hscan : (c.scan = 1 ∨ c.scan = 3) → (s.cache.find? (relative c r.resource)).isSome) :
    if r.ifModifiedSince = c.date f.mtime then (handle c s r now).1 = .headers 304 (c.date f.mtime)
    else if r.method = b! "HEAD" then (handle c s r now).1 = .headers 200 (c.date f.mtime)
    else ∃ d, (handle c s r now).1 = .file d := by
  obtain ⟨n1, n2⟩ := get_succeeds hd hh r now h hm hf hr hscan
  obtain ⟨d, f', h1, h2, h3, h4, h5, -, fs, hfs, g, hg, hcp⟩ := get_copy hd hh hc r now rfl n1 n2
  rw [hf] at h3
  cases h3
  have hlm : d.lastModified = c.date f.mtime := by rw [hcp.text, ← hcp.mtime, h4]
  rw [h1]
  unfold answer
  rw [hlm]
  by_cases e : r.ifModifiedSince = c.date f.mtime
  · rw [if_pos e, if_pos e.symm]
  · have e' : ¬ c.date f.mtime = r.ifModifiedSince := fun g => e g.symm
    by_cases e2 : r.method = b! "HEAD"
    · simp [e, e', e2, isHead]
    · simp [e, e', e2, isHead]

/-- C47: if there is no such file, GET and HEAD are answered with 404, or, if it was there before and is in the cache,
    an exception is thrown (500). -/
theorem get_missing {c : Cfg} (hd : DirOk c) {past : List Fs} {s : St} (hh : Hist c past s) (hc : c.cache ≤ 1) (r : Req)
    (now : Int) (h : Serves c s r) (hm : r.method = b! "GET" ∨ r.method = b! "HEAD")
    (hf : s.fs (requested c (relative c r.resource)) = none) :
    (handle c s r now).1 = if (s.cache.find? (relative c r.resource)).isSome ∧ (0 < c.cache ∨ 0 < c.scan) then .thrown
      else .page 404 (escape r.resource) := by
  obtain ⟨hfs, hinv⟩ := hist_inv hd hh
  obtain ⟨path, hp, he⟩ := handle_serves now h
  rw [he, if_pos (by rcases hm with hm | hm <;> rw [hm] <;> decide)]
  generalize hrel : relative c r.resource = rel at *
  have hun : (getUncached c s r rel path).1 = .page 404 (escape r.resource) := by
    unfold getUncached
    rw [hp, hf]
  unfold FileService.get
  by_cases h1 : 0 < c.cache ∨ 0 < c.scan
  · rw [if_pos h1]
    cases hfind : s.cache.find? rel with
    | none =>
      simp only [Option.isSome_none, Bool.false_eq_true, false_and, if_false]
      split
      · rfl
      · exact hun
    | some e =>
      have hent := hinv rel e (find_mem hfind)
      have hf' : s.fs (resolve c.cwd e.path) = none := by rw [hent.place]; exact hf
      simp only [Option.isSome_some, true_and, if_pos h1]
      split
      · simp [DiskFile.update, hf']
      · rename_i hc0
        rw [getCached_eq]
        have : (refresh c s.fs e).2.1 = false := by
          have h1c : c.cache = 1 := by omega
          unfold refresh
          split
          · simp [DiskFile.update, hf']
          · simp [DiskFile.checkUpdated, hf']
        cases hre : refresh c s.fs e with
        | mk e' x =>
          obtain ⟨ok, updated⟩ := x
          rw [hre] at this
          simp only at this
          subst this
          rfl
  · rw [if_neg h1, if_neg (fun g => h1 g.2)]
    exact hun

/-- What a scan of the directory calls a file: its names, with slashes between them. -/
def scanName (ns : List Bytes) : Bytes := (b! "/").intercalate ns

private theorem intercalate_cons (n : Bytes) (ns : List Bytes) : scanName (n :: ns) = n ++ ns.flatMap (fun m => c! "/" :: m) := by
  induction ns generalizing n with
  | nil => simp [scanName, List.intercalate]
  | cons m ns ih =>
    have e : scanName (n :: m :: ns) = n ++ b! "/" ++ scanName (m :: ns) := by
      simp [scanName, List.intercalate]
    rw [e, ih, List.flatMap_cons, List.append_assoc]
    rfl

private theorem scan_key {c : Cfg} (hd : DirOk c) (h0 : c.directory ≠ []) {n : Bytes} {ns : List Bytes}
    (hns : ∀ m ∈ n :: ns, m ≠ [] ∧ c! "/" ∉ m) :
    ((n :: ns).foldl append c.directory).drop (c.directory.length + 1) = scanName (n :: ns) := by
  rw [foldl_append_absolute _ hns _ h0 hd, absolute_cons, List.append_cons, List.drop_append_of_le_length (by simp),
    intercalate_cons]
  simp [absolute]

private theorem insert_isSome {m : Cache} {k k' : Bytes} {d : DiskFile} :
    ((m.insert k d).find? k').isSome = ((m.find? k').isSome || decide (k = k')) := by
  unfold Cache.insert
  split
  · by_cases e : k = k'
    · subst e; simp_all
    · simp [e]
  · unfold Cache.find?
    by_cases e : k = k' <;> simp [List.find?_append, e]

private theorem addEntry_keys {c : Cfg} {s s' : St} {rel path : Bytes} {ph : Bool} (h : addEntry c s rel path ph = some s') :
    s'.fs = s.fs ∧ (∀ k, (s.cache.find? k).isSome → (s'.cache.find? k).isSome) ∧
    (∀ k, (s'.cache.find? k).isSome → (s.cache.find? k).isSome ∨ k = rel) ∧
    ((ph = true ∨ ∃ f, s.fs (resolve c.cwd path) = some (.file f) ∧ f.readable = true) → (s'.cache.find? rel).isSome) := by
  unfold addEntry at h
  simp only [] at h
  split at h
  · cases h
    refine ⟨rfl, fun k hk => ?_, fun k hk => ?_, fun _ => ?_⟩ <;> simp_all [insert_isSome]
    exact hk.imp id Eq.symm
  · rename_i hph
    split at h
    · cases h
    · rename_i d hu
      split at h
      · split at h
        · rename_i hr
          cases h
          refine ⟨rfl, fun k hk => hk, fun k hk => .inl hk, ?_⟩
          rintro (hx | ⟨f, hf, hfr⟩)
          · exact absurd hx hph
          · exfalso
            simp only [DiskFile.update, hf] at hu
            cases hu
            simp [DiskFile.read, hf, hfr] at hr
        · cases h
          refine ⟨rfl, fun k hk => ?_, fun k hk => ?_, fun _ => ?_⟩ <;> simp_all [insert_isSome]
          exact hk.imp id Eq.symm
      · cases h
        refine ⟨rfl, fun k hk => ?_, fun k hk => ?_, fun _ => ?_⟩ <;> simp_all [insert_isSome]
        exact hk.imp id Eq.symm

private theorem scanFiles_keys {c : Cfg} (files : List (List Bytes)) : ∀ {s s' : St}, scanFiles c s files = some s' →
    s'.fs = s.fs ∧ (∀ k, (s.cache.find? k).isSome → (s'.cache.find? k).isSome) ∧
    (∀ k, (s'.cache.find? k).isSome → (s.cache.find? k).isSome ∨
      ∃ ns ∈ files, k = (ns.foldl append c.directory).drop (c.directory.length + 1)) ∧
    ∀ ns ∈ files, (c.scan = 1 ∨ ∃ f, s.fs (resolve c.cwd (ns.foldl append c.directory)) = some (.file f) ∧ f.readable = true) →
      (s'.cache.find? ((ns.foldl append c.directory).drop (c.directory.length + 1))).isSome := by
  induction files with
  | nil => intro s s' h; cases h; exact ⟨rfl, fun _ h => h, fun _ h => .inl h, by simp⟩
  | cons ns files ih =>
    intro s s' h
    simp only [scanFiles] at h
    split at h
    · cases h
    · rename_i s1 h1
      obtain ⟨a1, a2, a3, a4⟩ := addEntry_keys h1
      obtain ⟨b1, b2, b3, b4⟩ := ih h
      refine ⟨b1.trans a1, fun k hk => b2 k (a2 k hk), fun k hk => ?_, fun ms hms hr => ?_⟩
      · rcases b3 k hk with h | ⟨ms, hms, h⟩
        · rcases a3 k h with h | h
          · exact .inl h
          · exact .inr ⟨ns, List.mem_cons_self, h⟩
        · exact .inr ⟨ms, List.mem_cons_of_mem _ hms, h⟩
      · rcases List.mem_cons.mp hms with rfl | hms
        · exact b2 _ (a4 (hr.imp (by simp) id))
        · exact b4 ms hms (by rw [a1]; exact hr)

private theorem start_scan {c c' : Cfg} {s s' : St} {files : List (List Bytes)} (h : start c s files = some (c', s'))
    (hs : c.scan ≠ 0) (h0 : c.directory ≠ []) :
    (∃ s1, scanFiles c' s1 files = some s' ∧ s1.fs = s.fs ∧
      ∀ k, (s1.cache.find? k).isSome → (s.cache.find? k).isSome ∨ k = []) ∧
    c'.directory = c.directory ∧ c'.cwd = c.cwd ∧ c'.scan = c.scan ∧ c'.resource = c.resource := by
  unfold start at h
  rw [if_neg hs] at h
  simp only [] at h
  generalize hc : (if c.cache = 0 ∧ 1 < c.scan then { c with cache := 1 } else c) = c1 at h
  have e : c1.directory = c.directory ∧ c1.cwd = c.cwd ∧ c1.scan = c.scan ∧ c1.resource = c.resource ∧ c1.file = c.file := by
    rw [← hc]; split <;> exact ⟨rfl, rfl, rfl, rfl, rfl⟩
  split at h
  · cases h
  · rename_i s1 h1
    rw [if_neg (by rw [e.1]; exact h0)] at h
    cases hsc : scanFiles c1 s1 files with
    | none => rw [hsc] at h; cases h
    | some s2 =>
      rw [hsc] at h
      cases h
      refine ⟨⟨s1, hsc, ?_⟩, e.1, e.2.1, e.2.2.1, e.2.2.2.1⟩
      split at h1
      · cases h1; exact ⟨rfl, fun k hk => .inl hk⟩
      · obtain ⟨a1, -, a3, -⟩ := addEntry_keys h1
        exact ⟨a1, a3⟩

/-- C47: a service that is started with a scan of its directory finds every scanned file in its cache under the link
    made of the encoded names, so that (`get_answered`) the file is served. A file that is read by the scan must be
    readable. -/
theorem scanned_found {c c' : Cfg} {s s' : St} {files : List (List Bytes)} (hd : DirOk c) (h0 : c.directory ≠ [])
    (h : start c s files = some (c', s')) (hs : c.scan ≠ 0) {n : Bytes} {ns : List Bytes} (hm : n :: ns ∈ files)
    (hn : ∀ m ∈ n :: ns, m ≠ [] ∧ c! "/" ∉ m ∧ 0 ∉ m)
    (hr : c.scan = 1 ∨ ∃ f, s.fs (walk (resolve c.cwd c.directory) (n :: ns)) = some (.file f) ∧ f.readable = true) :
    (s'.cache.find? (relative c' (c.resource ++ (n :: ns).flatMap (fun m => c! "/" :: Verif.UrlCodec.urlEncode m)))).isSome := by
  obtain ⟨⟨s1, h1, h2, -⟩, e1, e2, e3, e4⟩ := start_scan h hs h0
  obtain ⟨-, -, -, hk⟩ := scanFiles_keys files h1
  have hn' : ∀ m ∈ n :: ns, m ≠ [] ∧ c! "/" ∉ m := fun m hm => ⟨(hn m hm).1, (hn m hm).2.1⟩
  have hz : ∀ m ∈ n :: ns, 0 ∉ m := fun m hm => (hn m hm).2.2
  rw [← e4, link_relative hz, ← intercalate_cons, ← scan_key (c := c') (by unfold DirOk; rw [e1]; exact hd) (by rw [e1]; exact h0) hn']
  refine hk _ hm ?_
  rw [e3, e2, e1, h2, scan_place hd h0 (by simp) hn', scan_key hd h0 hn', intercalate_cons, ← link_relative hz, link hn]
  exact hr

/-- C47: and nothing else is in the cache of a service that has just been started. If the service is to serve scanned
    files only (1 and 3), a request for another file is answered with 404. -/
theorem unscanned_refused {c c' : Cfg} {s' : St} {fs : Fs} {files : List (List Bytes)} (hd : DirOk c) (h0 : c.directory ≠ [])
    (hfiles : ∀ ns ∈ files, ns ≠ [] ∧ ∀ m ∈ ns, m ≠ [] ∧ c! "/" ∉ m)
    (h : start c { fs := fs } files = some (c', s')) (hs : c.scan = 1 ∨ c.scan = 3) (r : Req) (now : Int) (h1 : Serves c' s' r)
    (hm : r.method = b! "GET" ∨ r.method = b! "HEAD") (hr : relative c r.resource ≠ [])
    (hno : ∀ ns ∈ files, relative c r.resource ≠ scanName ns) :
    handle c' s' r now = (.page 404 (escape r.resource), s') := by
  obtain ⟨⟨s1, h3, h2, h4⟩, e1, e2, e3, e4⟩ := start_scan h (by omega) h0
  obtain ⟨-, -, hk, -⟩ := scanFiles_keys files h3
  have er : relative c' r.resource = relative c r.resource := by simp only [relative, e4]
  obtain ⟨path, -, he⟩ := handle_serves now h1
  rw [he, if_pos (by rcases hm with hm | hm <;> rw [hm] <;> decide), er]
  have hf : s'.cache.find? (relative c r.resource) = none := by
    by_contra hc
    rcases hk _ (Option.isSome_iff_ne_none.mpr hc) with h | ⟨ns, hns, h⟩
    · rcases h4 _ h with h | h
      · cases h
      · exact hr h
    · obtain ⟨n, ns', rfl⟩ := List.exists_cons_of_ne_nil (hfiles ns hns).1
      rw [scan_key (c := c') (by unfold DirOk; rw [e1]; exact hd) (by rw [e1]; exact h0) (hfiles _ hns).2] at h
      exact hno _ hns h
  unfold FileService.get
  rw [if_pos (.inr (by omega)), hf]
  simp only []
  rw [if_pos (by omega)]

/-- With the example's directory: the scan of one file, and a request for it and for another. -/
example : (start { exampleCfg with scan := 3 } { fs := exampleFs } [[b! "index.html"]]).map (fun x =>
    ((x.2.cache.find? (b! "index.html")).isSome, (x.2.cache.find? (b! "other.html")).isSome, x.1.cache)) =
    some (true, false, 1) := by decide +kernel

/-- Finding: in the root directory the scan drops the first character of the names, so that no scanned file is found. -/
theorem root_scan_unfound (c : Cfg) (hc : c.directory = b! "/") (hs : c.scan = 1) (hf : c.file = []) (fs : Fs) :
    (start c { fs := fs } [[b! "index.html"]]).map (fun x => x.2.cache.map (·.1)) = some [b! "ndex.html"] := by
  have e : (append (b! "/") (b! "index.html")).drop 2 = b! "ndex.html" := by decide +kernel
  simp [start, hs, hf, hc, scanFiles, addEntry, Cache.insert, Cache.find?, e, show (b! "/").length = 1 from rfl]

/-- A service with a cache, and a history: a request, a change, two requests. -/
def cachedCfg : Cfg := { exampleCfg with cache := 1 }

def indexPlace : Place := [b! "var", b! "www", b! "index.html"]
def getIndex : Req := { method := b! "GET", resource := b! "/files/index.html" }

/-- The content of the file sent. -/
def contentOf : Out → Option (List (Option UInt8))
  | .file d => d.content
  | _ => none

def changed (f : File) : Fs := exampleFs.set indexPlace (some (.file f))

example : DirOk cachedCfg := by unfold DirOk; decide
example : Serves cachedCfg { fs := exampleFs } getIndex ∧
    exampleFs (requested cachedCfg (relative cachedCfg getIndex.resource)) = some (.file { content := b! "hello", mtime := 1000 }) := by
  have : exampleFs (requested cachedCfg (relative cachedCfg getIndex.resource)) =
    some (.file { content := b! "hello", mtime := 1000 }) := by decide +kernel
  exact ⟨⟨⟨b! "/var/www/index.html", by decide +kernel⟩, fun w hw => by cases this.symm.trans hw⟩, this⟩
example : Serves cachedCfg { fs := exampleFs } { getIndex with resource := b! "/files/none" } ∧
    exampleFs (requested cachedCfg (relative cachedCfg (b! "/files/none"))) = none := by
  have : exampleFs (requested cachedCfg (relative cachedCfg (b! "/files/none"))) = none := by decide +kernel
  exact ⟨⟨⟨b! "/var/www/none", by decide +kernel⟩, fun w hw => by cases this.symm.trans hw⟩, this⟩
example : Hist cachedCfg [changed ⟨b! "bye", 2000, true, true⟩, (handle cachedCfg { fs := exampleFs } getIndex 0).2.fs, exampleFs]
    { (handle cachedCfg { fs := exampleFs } getIndex 0).2 with fs := changed ⟨b! "bye", 2000, true, true⟩ } :=
  .change _ (.request getIndex 0 (.init exampleFs))
example : contentOf (handle cachedCfg { (handle cachedCfg { fs := exampleFs } getIndex 0).2 with
    fs := changed ⟨b! "bye", 2000, true, true⟩ } getIndex 0).1 = some ((b! "bye").map some) := by decide +kernel

/-- The limit of the property: a change that keeps size and time of modification is not seen. -/
theorem same_time_stale : contentOf (handle cachedCfg { (handle cachedCfg { fs := exampleFs } getIndex 0).2 with
    fs := changed ⟨b! "HELLO", 1000, true, true⟩ } getIndex 0).1 = some ((b! "hello").map some) := by decide +kernel

/-- Finding: a file that changed and cannot be read: the first request fails, and the second is answered with as many
    bytes as the file has of memory that was never written. -/
theorem uninitialised_sent :
    let s1 := (handle cachedCfg { fs := exampleFs } getIndex 0).2
    let s2 := handle cachedCfg { s1 with fs := changed ⟨b! "new", 2000, false, true⟩ } getIndex 0
    s2.1 = .thrown ∧ contentOf (handle cachedCfg s2.2 getIndex 0).1 = some [none, none, none] := by
  constructor <;> decide +kernel

/-- Finding: with cache=2 a file is sent that has been removed. -/
theorem cache2_removed :
    let c := { cachedCfg with cache := 2 }
    contentOf (handle c { (handle c { fs := exampleFs } getIndex 0).2 with fs := exampleFs.set indexPlace none } getIndex 0).1 =
      some ((b! "hello").map some) := by decide +kernel

end Verif.Props.FileService
