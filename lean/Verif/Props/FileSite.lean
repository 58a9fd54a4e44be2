import Mathlib.Tactic.Common
import Verif.Lemmas.FileSite
import Verif.Props.FileLookup
import Verif.Props.BasicSession
import Verif.Props.Piond
import Verif.Props.ServiceConfig
import Verif.Props.Users
/-
C91: a directory of files behind a web server, from the command line or the configuration file to the client.
-/
namespace Verif.Props.FileSite
open Verif.FileSite Verif.Spec.FileSite Verif.Spec.Dispatch Verif.Spec.Paths Verif.Spec.Auth Verif.Spec.FileService Verif.Spec.FileAnswers
open Verif.FileService (Fs DirOk File relative target)
open Verif.FileAnswers Verif.Props.FileAnswers Verif.Spec.Responses Verif.Spec.BasicSession Verif.Server Verif.Responses
open Verif.Config (Call)
open Verif.Writer (Lifecycle W)
open Verif.Spec.Path (Plain absolute Place)
open Verif.Props.MessageBuild Verif.Spec.MessageBuild Verif.Props.Message Verif.Props.Dict
open Verif.Http (HeaderOk)
open Verif.Props.Responses (page headerOk_of valueChar_of)
open Verif.Props.BasicSession (own_values page_size loop_here)

/-! ### From the command line to the site -/

private theorem doAll_append (w : World) (now : Nat) (a b : List Piond.Do) : ∀ s : Site,
    s.doAll w now (a ++ b) = (s.doAll w now a).bind fun s => s.doAll w now b := by
  induction a with
  | nil => intro s; rfl
  | cons c a ih =>
    intro s
    show (s.do w now c).bind _ = ((s.do w now c).bind _).bind _
    cases s.do w now c with
    | none => rfl
    | some s => exact ih s

private theorem doAll_options (w : World) (now : Nat) (r : Bytes) (os : List (Bytes × Bytes)) : ∀ s : Site,
    s.doAll w now (os.map fun nv => .setOption r nv.1 nv.2) = s.calls w (os.map fun nv => .setOption r nv.1 nv.2) := by
  induction os with
  | nil => intro s; rfl
  | cons o os ih =>
    intro s
    show (s.option w r o.1 o.2).bind _ = (s.option w r o.1 o.2).bind _
    cases s.option w r o.1 o.2 with
    | none => rfl
    | some s => exact ih s

/-- **C91 (setting up).** `piond` gets its server running exactly if its command line is understood and either the service
    it names can be loaded and set up with the options, or the configuration file can be read to its end; and that is the
    site. -/
theorem piond_sets_up (w : World) (args : Piond.World) (now : Nat) (fs : Fs) (line : List Bytes) (s0 : Site) :
    piond w args now fs line = some s0 ↔ ∃ o, Piond.commandLine args line = .ok o ∧
      ((o.config = [] ∧ SetsUp w fs (.loadService o.resource o.service :: o.options.map fun nv => .setOption o.resource nv.1 nv.2)
          .open_ s0) ∨
       (o.config ≠ [] ∧ ∃ text a cs, w.configs o.config = some text ∧ Config.load (throws w { fs := fs }) text = .finished a cs ∧
          SetsUp w fs cs (guardOf now a) s0)) := by
  unfold piond
  cases hc : Piond.commandLine args line with
  | ok o =>
    simp only [Piond.Read.ok.injEq, exists_eq_left']
    have hstart : ∀ x : Option Site, (x.bind fun s => s.doAll w now [.start, .waitForShutdown]) = x.bind fun s => s.start w := by
      intro x
      congr 1; funext s
      show (s.start w).bind _ = _
      cases s.start w <;> rfl
    have hkey : ({ fs := fs } : Site).doAll w now (Piond.serve o) =
        ((({ fs := fs } : Site).doAll w now (if o.config = [] then .loadService o.resource o.service :: o.options.map (fun nv => .setOption o.resource nv.1 nv.2)
          else [.loadConfig o.config])).bind fun s => s.start w) := by
      unfold Piond.serve
      rw [doAll_append, hstart]
      congr 1
      rw [doAll_append, doAll_append]
      cases o.ssl <;> rfl
    rw [hkey]
    by_cases hn : o.config = []
    · rw [if_pos hn]
      simp only [hn, true_and, ne_eq, not_true_eq_false, false_and, or_false]
      unfold SetsUp
      rw [Option.bind_eq_some_iff]
      have he : ({ fs := fs } : Site).doAll w now (.loadService o.resource o.service :: o.options.map (fun nv => .setOption o.resource nv.1 nv.2)) =
          ({ fs := fs } : Site).calls w (.loadService o.resource o.service :: o.options.map (fun nv => .setOption o.resource nv.1 nv.2)) := by
        show (Site.load w _ _ _).bind _ = (Site.load w _ _ _).bind _
        congr 1; funext s
        exact doAll_options ..
      rw [he]
      refine exists_congr fun s => and_congr_right fun hs => ?_
      have := (made _ hs).guard
      obtain ⟨_, _, _, g⟩ := s
      cases this; rfl
    · rw [if_neg hn]
      simp only [hn, false_and, ne_eq, not_false_eq_true, true_and, false_or]
      have he : ∀ s : Site, s.doAll w now [.loadConfig o.config] = (w.configs o.config).bind (s.configure w now) := by
        intro s
        show ((w.configs o.config).bind (s.configure w now)).bind _ = _
        cases (w.configs o.config).bind (s.configure w now) <;> rfl
      rw [he]
      cases ht : w.configs o.config with
      | none => simp
      | some text =>
        simp only [Option.bind_some, Option.some.injEq, exists_and_left, exists_eq_left']
        unfold Site.configure
        cases hl : Config.load (throws w { fs := fs }) text with
        | finished a cs =>
          simp only [Config.Out.finished.injEq]
          unfold SetsUp
          rw [Option.bind_eq_some_iff]
          constructor
          · rintro ⟨s, hs, h⟩
            obtain ⟨s', hs', rfl⟩ := Option.map_eq_some_iff.1 hs
            exact ⟨a, cs, ⟨rfl, rfl⟩, s', hs', h⟩
          · rintro ⟨a', cs', ⟨rfl, rfl⟩, s', hs', h⟩
            exact ⟨_, by rw [hs']; rfl, h⟩
        | _ => simp
  | _ => simp

/-! ### Who gets a request -/

/-- The authenticator is not one with cookies. -/
def NoCookies (a : Option Config.Auth) : Prop := ∀ x, a = some x → x.kind = .basic

private theorem guard_cases {a : Option Config.Auth} (ha : NoCookies a) (now : Nat) :
    (guardOf now a = .open_) ∨ ∃ x, a = some x ∧ guardOf now a = .basic now (told x) := by
  cases a with
  | none => exact .inl rfl
  | some x =>
    right
    refine ⟨x, rfl, ?_⟩
    unfold guardOf
    simp only [ha x rfl]

section
variable {w : World} {fs : Fs} {cs : List Call} {a : Option Config.Auth} {now0 : Nat} {s0 s : Site} {past : List Fs}

theorem site_ops {g : Guard} (hup : SetsUp w fs cs g s0) (hr : Runs w s0 past s) :
    s.ops = (loaded cs).map fun id => .addResource id id := by
  obtain ⟨s1, h1, h0⟩ := hup
  rw [ops_stay hr, ← (made cs h1).ops]
  obtain ⟨_, _, rfl⟩ := Option.map_eq_some_iff.1 h0
  rfl

theorem site_guard {g : Guard} (hup : SetsUp w fs cs g s0) : s0.guard = g := by
  obtain ⟨s1, h1, h0⟩ := hup
  obtain ⟨_, _, rfl⟩ := Option.map_eq_some_iff.1 h0
  rfl

/-- The first steps of handling a request. -/
private theorem site_receivers (hup : SetsUp w fs cs (guardOf now0 a) s0) (ha : NoCookies a) (hr : Runs w s0 past s) (now : Nat) (m : Msg)
    (hv : m.isValid = true) : s.receivers w now m =
      open Classical in if Admits w m (guardOf now0 a) then (dispatch (fun _ => .returns) (build s.ops).resources (noSlash m.resource) m)
      else [.refused] := by
  have hred : redirects s.ops (noSlash m.resource) = none := by rw [site_ops hup hr]; exact redirects_loaded ..
  have hg := guard_stays hr
  rw [site_guard hup] at hg
  unfold Site.receivers
  rcases guard_cases ha now0 with h | ⟨x, -, h⟩
  · rw [hg.1 h, h, if_pos (show Admits w m .open_ from trivial)]
    dsimp only
    unfold handleRequest
    rw [if_neg (by simp [hv]), loop_here hred]
  · obtain ⟨reqs, hq⟩ := hg.2 _ _ h
    rw [hq, h]
    dsimp only
    have hp := basic_pass_iff w.auth now0 (told x) (told_no_requests x) reqs now m
    unfold handleRequest
    rw [if_neg (by simp [hv]), loop_here hred]
    unfold reqEvents at hp
    cases h : (Auth.basic w.auth now (Auth.basicAfter w.auth now0 (told x ++ reqs.map fun q => .request q.1 [] q.2)) m).1.pass with
    | true =>
      rw [if_pos (show Admits w m (.basic now0 (told x)) from hp.1 h)]
      simp only [BasicSite.authenticator, h]
      rfl
    | false =>
      simp only [BasicSite.authenticator, h]
      rw [if_neg (show ¬ Admits w m (.basic now0 (told x)) from fun x => by
        have h2 := hp.2 x
        rw [h] at h2; cases h2)]
      rfl

/-- A request that passes gets to the service for it. -/
theorem dispatch_handler {g : Guard} (hup : SetsUp w fs cs g s0) (hn : NamesOk cs) (hr : Runs w s0 past s) (m : Msg) {id : Bytes}
    (hh : Handles cs id m.resource) :
    dispatch (fun _ => .returns) (build s.ops).resources (noSlash m.resource) m = [.handler id m] := by
  unfold dispatch
  have hl : findHandler (build s.ops).resources (noSlash m.resource) = some id := by
    refine (Props.Dispatch.find_longest _ _ _).2 ⟨id, ?_, hh.2.1, fun p hp hc => ?_⟩
    · rw [site_ops hup hr, handlers_loaded _ hn, if_pos hh.1]
    · rw [site_ops hup hr, handlers_loaded _ hn] at hp
      refine hh.2.2 p ?_ hc
      by_contra hm
      exact hp (if_neg hm)
  rw [hl]

private theorem site_handler (hup : SetsUp w fs cs (guardOf now0 a) s0) (ha : NoCookies a) (hn : NamesOk cs) (hr : Runs w s0 past s)
    (now : Nat) (m : Msg) (hv : m.isValid = true) (hadm : Admits w m (guardOf now0 a)) {id : Bytes} (hh : Handles cs id m.resource) :
    s.receivers w now m = [.handler id m] := by
  classical
  rw [site_receivers hup ha hr now m hv, if_pos hadm]
  exact dispatch_handler hup hn hr m hh

private theorem site_nobody (hup : SetsUp w fs cs (guardOf now0 a) s0) (ha : NoCookies a) (hn : NamesOk cs) (hr : Runs w s0 past s)
    (now : Nat) (m : Msg) (hv : m.isValid = true) (hadm : Admits w m (guardOf now0 a))
    (hh : ∀ id ∈ loaded cs, ¬ Covers id (noSlash m.resource)) : s.receivers w now m = [.notFound] := by
  classical
  rw [site_receivers hup ha hr now m hv, if_pos hadm]
  unfold dispatch
  have hl : findHandler (build s.ops).resources (noSlash m.resource) = none := by
    cases hx : findHandler (build s.ops).resources (noSlash m.resource) with
    | none => rfl
    | some h =>
      exfalso
      obtain ⟨p, hp, hc, -⟩ := (Props.Dispatch.find_longest _ _ _).1 hx
      rw [site_ops hup hr, handlers_loaded _ hn] at hp
      split at hp
      · next hm => exact hh p hm hc
      · cases hp
  rw [hl]

/-- **C91 (who is refused).** Whatever has happened to the site: a request is refused exactly if it needs a password and has
    none that is right by the configuration file. Nothing that happens while the site runs opens or closes it. -/
theorem refused_iff (hup : SetsUp w fs cs (guardOf now0 a) s0) (ha : NoCookies a) (hr : Runs w s0 past s) (now : Nat) (m : Msg)
    (hv : m.isValid = true) : s.receivers w now m = [.refused] ↔ ¬ Admits w m (guardOf now0 a) := by
  classical
  rw [site_receivers hup ha hr now m hv]
  split
  · next h =>
    refine ⟨fun hx => ?_, fun hx => absurd h hx⟩
    unfold dispatch at hx
    split at hx <;> cases hx
  · next h => exact ⟨fun _ => h, fun _ => rfl⟩

end

/-! ### What the client receives -/

/-- How the server reads requests. -/
structure Server (w : World) (cfg : Http.Cfg) (m : Msg) : Prop where
  blank : Http.Blank m
  order : Http.OrderOk cfg.ord
  isRequest : cfg.isRequest = true
  wholeMessages : cfg.headersOnly = false
  noHandler : cfg.handler = false
  same : w.auth.ord = cfg.ord

private theorem admits_sees {w : World} {q : Spec.Conversation.Request} {m : Msg} (hm : q.Is m) (g : Guard) :
    Admits w m g ↔ Admits w (sees q) g := by
  have h1 : m.resource = q.resource := hm.line.2.1
  have h2 := hm.headers
  cases g with
  | open_ => rfl
  | cookie => rfl
  | basic c h =>
    unfold Admits Needs Presents sees
    rw [h1, h2]

private theorem running_same (c : FileService.Cfg) : (running c).resource = c.resource ∧ (running c).directory = c.directory ∧
    (running c).file = c.file ∧ (running c).cwd = c.cwd ∧ (running c).date = c.date ∧ (running c).maxChunk = c.maxChunk ∧
    (running c).scan = c.scan := by
  unfold running; split <;> exact ⟨rfl, rfl, rfl, rfl, rfl, rfl, rfl⟩

section
variable {w : World} {fs : Fs} {cs : List Call} {a : Option Config.Auth} {now0 : Nat} {s0 s : Site} {past : List Fs}

/-- What is sent for a file that a request gets to. -/
theorem served_file {g : Guard} (hw : FilesOk w) (ht : w.table.Ok) (hbyte : ∀ x, w.byte (some x) = x)
    (hup : SetsUp w fs cs g s0) (hr : Runs w s0 past s) (hread : AllReadable past)
    {id : Bytes} {c : FileService.Cfg} (hl : Loads cs id (b! "FileService"))
    (hc : settings w fs (Spec.FileSite.fresh w id) (optionsOf id cs) = some c) (hd : DirOk c) (hcache : c.cache ≤ 1)
    (hscan : c.scan = 0 ∨ c.scan = 2) (m : Msg) (hget : m.method = b! "GET") {path : Bytes} (hpath : target c (relative c m.resource) = .path path)
    {f : File} (hf : s.fs (requested c (relative c m.resource)) = some (.file f))
    (hnew : m.headers.get w.auth.ord (b! "If-Modified-Since") ≠ c.date f.mtime)
    (hstable : c.cache = 1 ∨ c.scan = 2 → ∀ fs ∈ past, ∀ g, fs (requested c (relative c m.resource)) = some (.file g) →
      g.mtime = f.mtime → g.content.length = f.content.length → g.content = f.content)
    (hname : Plain (fileName (asked c (relative c m.resource)))) (hdate : HeaderOk (b! "Last-Modified", c.date f.mtime))
    {cfg : Http.Cfg} {m0 : Msg} (hcl : Client cfg m0 (b! "GET"))
    (hsize : f.content.length ≤ 2 ^ 63 - 1) (hmax : f.content.length ≤ cfg.maxContent) (now : Nat) (lc : Lifecycle)
    (hrec : s.receivers w now m = [.handler id m]) : ∃ answer, (s.request w now m lc).1 = some answer ∧
      Receives cfg m0 (UntilClose c.maxChunk m.verMajor m.verMinor f.content.length) answer
        (Downloaded · f.content (findMimeType (fileName (asked c (relative c m.resource)))) (c.date f.mtime)) := by
  obtain ⟨cache, k1, k2⟩ : ∃ cache, s.services.lookup id = some (.file (running c) cache) ∧
      Hist (running c) past { fs := s.fs, cache := cache } := by
    obtain ⟨s1, hs1, hs0⟩ := hup
    exact alive hw hs1 hs0 hr hl hc
  obtain ⟨e1, e2, e3, e4, e5, e6, e7⟩ := running_same c
  have hrel : ∀ r, relative (running c) r = relative c r := by intro r; unfold relative; rw [e1]
  have htar : ∀ r, target (running c) r = target c r := by intro r; unfold target; rw [e2, e3]
  have hreq : ∀ r, requested (running c) r = requested c r := by intro r; unfold requested; rw [e2, e3, e4]
  have hask : ∀ r, asked (running c) r = asked c r := by intro r; unfold asked; rw [e3]
  have hrun : (running c).cache ≤ 1 ∧ ((running c).cache = 1 → c.cache = 1 ∨ c.scan = 2) := by
    unfold running
    split
    · next h => exact ⟨Nat.le_refl 1, fun _ => .inr (by omega)⟩
    · exact ⟨hcache, fun h => .inl h⟩
  refine ⟨(respond w.table w.auth.ord (running c) w.byte w.diagnostic w.error { fs := s.fs, cache := cache } m lc now).1, ?_, ?_⟩
  · unfold Site.request
    simp only [hrec, k1]
  · have := download_partial (c := running c) (by unfold DirOk; rw [e2]; exact hd) k2 hread hrun.1 w.table ht w.auth.ord m
      hget lc now w.byte hbyte w.diagnostic w.error
      (by
        refine ⟨⟨path, ?_⟩, fun x hx => ?_⟩
        · show target (running c) (relative (running c) m.resource) = _
          rw [htar, hrel]; exact hpath
        · have hx : s.fs (requested (running c) (relative (running c) m.resource)) = some (.dir x) := hx
          rw [hreq, hrel, hf] at hx; cases hx) (f := f)
      (by rw [hreq, hrel]; exact hf) (by rw [e7]; omega) (by rw [e5]; exact hnew)
      (by rw [hreq, hrel]; exact fun h => hstable (hrun.2 h)) (by rw [hask, hrel]; exact hname) (by rw [e5]; exact hdate)
      hcl hsize hmax
    rw [hask, hrel, e5, e6] at this
    exact this

/-- **C91 (files; partial: as C79, that is files that the server may not read, cache=2, names that are not plain; and scan=1 or
    3, where files are served only if they were there at the start; services for names with two slashes at the end).** A
    directory of files behind a server that was set up by a configuration file or a command line: a client that asks for a file
    and is admitted receives exactly its content as it is now, whatever has been asked before, by whomever and of whatever
    service, and whatever happened to the files. -/
theorem site_download_partial (hw : FilesOk w) (ht : w.table.Ok) (hbyte : ∀ x, w.byte (some x) = x)
    (hup : SetsUp w fs cs (guardOf now0 a) s0) (ha : NoCookies a) (hn : NamesOk cs) (hr : Runs w s0 past s) (hread : AllReadable past)
    {id : Bytes} {c : FileService.Cfg} (hl : Loads cs id (b! "FileService"))
    (hc : settings w fs (Spec.FileSite.fresh w id) (optionsOf id cs) = some c) (hd : DirOk c) (hcache : c.cache ≤ 1)
    (hscan : c.scan = 0 ∨ c.scan = 2) {scfg : Http.Cfg} {sm : Msg} (hs : Server w scfg sm)
    (q : Spec.Conversation.Request) (hq : q.Ok scfg) (hget : q.method = b! "GET") (hadm : Admits w (sees q) (guardOf now0 a))
    (hh : Handles cs id q.resource) {path : Bytes} (hpath : target c (relative c q.resource) = .path path) {f : File}
    (hf : s.fs (requested c (relative c q.resource)) = some (.file f))
    (hnew : q.headers.get scfg.ord (b! "If-Modified-Since") ≠ c.date f.mtime)
    (hstable : c.cache = 1 ∨ c.scan = 2 → ∀ fs ∈ past, ∀ g, fs (requested c (relative c q.resource)) = some (.file g) →
      g.mtime = f.mtime → g.content.length = f.content.length → g.content = f.content)
    (hname : Plain (fileName (asked c (relative c q.resource)))) (hdate : HeaderOk (b! "Last-Modified", c.date f.mtime))
    {cfg : Http.Cfg} {m0 : Msg} (hcl : Client cfg m0 (b! "GET"))
    (hsize : f.content.length ≤ 2 ^ 63 - 1) (hmax : f.content.length ≤ cfg.maxContent) (now : Nat) (lc : Lifecycle) :
    Conversation.Reads scfg sm q.bytes fun m => ∃ answer, (s.request w now m lc).1 = some answer ∧
      Receives cfg m0 (UntilClose c.maxChunk q.major q.minor f.content.length) answer
        (Downloaded · f.content (findMimeType (fileName (asked c (relative c q.resource)))) (c.date f.mtime)) := by
  obtain ⟨h0, h1⟩ := Conversation.request_reads scfg sm hs.blank hs.order hs.isRequest hs.wholeMessages hs.noHandler q hq
  refine ⟨h0, fun tail bufs hcut => ?_⟩
  obtain ⟨o, ho, g1, g2, g3, g4⟩ := h1 tail bufs hcut
  obtain ⟨l1, l2, _, _, l4, l5⟩ := g4.line
  refine ⟨o, ho, g1, g2, g3, ?_⟩
  have hrec := site_handler hup ha hn hr now o.message g4.valid ((admits_sees g4 _).2 hadm) (id := id) (by rw [l2]; exact hh)
  have := served_file hw ht hbyte hup hr hread hl hc hd hcache hscan o.message (l1.trans hget) (path := path) (by rw [l2]; exact hpath) (f := f)
    (by rw [l2]; exact hf) (by rw [g4.headers, hs.same]; exact hnew) (by rw [l2]; exact hstable) (by rw [l2]; exact hname) hdate hcl hsize hmax now lc
    hrec
  rw [l2, l4, l5] at this
  exact this

/-- **C91 (refusal).** A client whose request needs a password and has none that is right is told so, with the realm to
    give a password for, and the files stay as they are. -/
theorem site_refuses (ht : w.table.Ok) (hup : SetsUp w fs cs (guardOf now0 a) s0) (ha : NoCookies a) (hr : Runs w s0 past s)
    {scfg : Http.Cfg} {sm : Msg} (hs : Server w scfg sm) (q : Spec.Conversation.Request) (hq : q.Ok scfg) (hhead : q.method ≠ b! "HEAD")
    (hadm : ¬ Admits w (sees q) (guardOf now0 a)) {cfg : Http.Cfg} {m0 : Msg} (hcl : Client cfg m0 q.method)
    (hmax : 1000 ≤ cfg.maxContent) (now : Nat) (lc : Lifecycle) :
    Conversation.Reads scfg sm q.bytes fun m => (s.request w now m lc).2.fs = s.fs ∧ ∃ answer, (s.request w now m lc).1 = some answer ∧
      Receives cfg m0 False answer fun r => r.statusCode = 401 ∧
        r.headers.values (b! "WWW-Authenticate") = [b! "Basic realm=\"PION\""] := by
  obtain ⟨h0, h1⟩ := Conversation.request_reads scfg sm hs.blank hs.order hs.isRequest hs.wholeMessages hs.noHandler q hq
  refine ⟨h0, fun tail bufs hcut => ?_⟩
  obtain ⟨o, ho, g1, g2, g3, g4⟩ := h1 tail bufs hcut
  have l1 : o.message.method = q.method := g4.line.1
  refine ⟨o, ho, g1, g2, g3, ?_⟩
  have hrec := (refused_iff hup ha hr now o.message g4.valid).2 (fun h => hadm ((admits_sees g4 _).1 h))
  have href : s.refusal w now o.message = basicUnauthorized REALM := by
    have hg := guard_stays hr
    rw [site_guard hup] at hg
    unfold Site.refusal
    rcases guard_cases ha now0 with h | ⟨x, -, h⟩
    · rw [hg.1 h]
    · obtain ⟨reqs, hq⟩ := hg.2 _ _ h
      rw [hq]
  unfold Site.request
  simp only [hrec, href]
  refine ⟨trivial, _, rfl, fun _ tail bufs hcut => ?_, False.elim⟩
  have hok : HeaderOk (b! "WWW-Authenticate", b! "Basic realm=\"" ++ REALM ++ b! "\"") :=
    headerOk_of (by decide +kernel) (valueChar_of (by decide +kernel)) (by decide +kernel)
  have hpage := page_size REALM
  obtain ⟨r, k1, k2, k3, k4, k5⟩ := Responses.reply_received_partial cfg hcl.isResponse m0 hcl.blank hcl.order hcl.wholeMessages hcl.noHandler
    w.table ht o.message lc _ (Responses.builtin_sendable (.basicUnauthorized REALM hok)) (by rw [hcl.method, l1]) (by rw [l1]; exact hhead)
    (by omega) (by omega) tail bufs hcut
  refine ⟨r, k1, k2, k3, k4, k5.code, ?_⟩
  have hp := matching_perm k5.headers (b! "WWW-Authenticate")
  rw [own_values (by decide +kernel) (by decide +kernel), own_values (by decide +kernel) (by decide +kernel)] at hp
  have hone : matching (basicUnauthorized REALM).headers (b! "WWW-Authenticate") = [(b! "WWW-Authenticate", b! "Basic realm=\"PION\"")] := by
    decide +kernel
  rw [hone, List.perm_singleton] at hp
  rw [values_eq, hp]
  rfl

/-- **C91 (no service).** A client that is admitted and asks for something no service is loaded for is told so. -/
theorem site_nothing_there (ht : w.table.Ok) (hup : SetsUp w fs cs (guardOf now0 a) s0) (ha : NoCookies a) (hn : NamesOk cs)
    (hr : Runs w s0 past s) {scfg : Http.Cfg} {sm : Msg} (hs : Server w scfg sm) (q : Spec.Conversation.Request) (hq : q.Ok scfg)
    (hhead : q.method ≠ b! "HEAD") (hadm : Admits w (sees q) (guardOf now0 a)) (hno : ∀ id ∈ loaded cs, ¬ Covers id (noSlash q.resource))
    {cfg : Http.Cfg} {m0 : Msg} (hcl : Client cfg m0 q.method) (hsize : (page (notFound (sees q))).length < 2 ^ 63)
    (hmax : (page (notFound (sees q))).length ≤ cfg.maxContent) (now : Nat) (lc : Lifecycle) :
    Conversation.Reads scfg sm q.bytes fun m => (s.request w now m lc).2.fs = s.fs ∧ ∃ answer, (s.request w now m lc).1 = some answer ∧
      Receives cfg m0 False answer (·.statusCode = 404) := by
  obtain ⟨h0, h1⟩ := Conversation.request_reads scfg sm hs.blank hs.order hs.isRequest hs.wholeMessages hs.noHandler q hq
  refine ⟨h0, fun tail bufs hcut => ?_⟩
  obtain ⟨o, ho, g1, g2, g3, g4⟩ := h1 tail bufs hcut
  have l1 : o.message.method = q.method := g4.line.1
  have l2 : o.message.resource = q.resource := g4.line.2.1
  refine ⟨o, ho, g1, g2, g3, ?_⟩
  have hrec := site_nobody hup ha hn hr now o.message g4.valid ((admits_sees g4 _).2 hadm) (by rw [l2]; exact hno)
  have hpage : page (notFound o.message) = page (notFound (sees q)) := by
    unfold notFound sees; rw [l2]
  unfold Site.request
  simp only [hrec]
  refine ⟨trivial, _, rfl, fun _ tail bufs hcut => ?_, False.elim⟩
  obtain ⟨r, k1, k2, k3, k4, k5⟩ := Responses.reply_received_partial cfg hcl.isResponse m0 hcl.blank hcl.order hcl.wholeMessages hcl.noHandler
    w.table ht o.message lc _ (Responses.builtin_sendable (.notFound o.message)) (by rw [hcl.method, l1]) (by rw [l1]; exact hhead)
    (by rw [hpage]; omega) (by rw [hpage]; exact hmax) tail bufs hcut
  exact ⟨r, k1, k2, k3, k4, k5.code⟩

end

/-! ### A directory -/

/-- The files of the directory can be downloaded below `root` by requests that are such: whatever has happened since the site
    was started, a client that asks for a file by its path, with `%` escapes or without, receives its content as it is now, its
    type and its time. (Not promised: files the server may not read; files that were changed without changing their size or
    the second of their last change; clients that already have a file of that time.) -/
def Downloads (w : World) (s0 : Site) (root : Bytes) (ds : Place) (Such : Spec.Conversation.Request → Prop) : Prop :=
  ∀ past s, Runs w s0 past s → AllReadable past → ∀ ns : Place, ns ≠ [] → (∀ n ∈ ns, Plain n) →
    ∀ f : File, s.fs (ds ++ ns) = some (.file f) →
    (∀ fs ∈ past, ∀ g, fs (ds ++ ns) = some (.file g) → g.mtime = f.mtime → g.content.length = f.content.length → g.content = f.content) →
    ∀ scfg sm, Server w scfg sm → ∀ q : Spec.Conversation.Request, q.Ok scfg → q.method = b! "GET" → Such q →
    (∃ enc, q.resource = root ++ b! "/" ++ enc ∧ UrlCodec.urlDecode enc = (absolute ns).drop 1) →
    q.headers.get scfg.ord (b! "If-Modified-Since") ≠ w.date f.mtime → HeaderOk (b! "Last-Modified", w.date f.mtime) →
    ∀ cfg m0, Client cfg m0 (b! "GET") → f.content.length ≤ 2 ^ 63 - 1 → f.content.length ≤ cfg.maxContent → ∀ now lc,
    Conversation.Reads scfg sm q.bytes fun m => ∃ answer, (s.request w now m lc).1 = some answer ∧
      Receives cfg m0 False answer (Downloaded · f.content (findMimeType (ns.getLast?.getD [])) (w.date f.mtime))

/-- Requests that are such are told that they need a password for "PION". -/
def Refuses (w : World) (s0 : Site) (Such : Spec.Conversation.Request → Prop) : Prop :=
  ∀ past s, Runs w s0 past s → ∀ scfg sm, Server w scfg sm → ∀ q : Spec.Conversation.Request, q.Ok scfg → q.method ≠ b! "HEAD" → Such q →
    ∀ cfg m0, Client cfg m0 q.method → 1000 ≤ cfg.maxContent → ∀ now lc,
    Conversation.Reads scfg sm q.bytes fun m => (s.request w now m lc).2.fs = s.fs ∧ ∃ answer, (s.request w now m lc).1 = some answer ∧
      Receives cfg m0 False answer fun r => r.statusCode = 401 ∧
        r.headers.values (b! "WWW-Authenticate") = [b! "Basic realm=\"PION\""]

theorem covers_below (id enc : Bytes) : Covers id (noSlash (id ++ b! "/" ++ enc)) := by
  rcases noSlash_trimmed (id ++ b! "/" ++ enc) with h | ⟨h, -⟩
  · rcases List.eq_nil_or_concat enc with rfl | ⟨l, x, rfl⟩
    · left
      rw [List.append_nil] at h
      rw [List.append_nil]
      exact (List.append_cancel_right h).symm
    · right
      rw [List.concat_eq_append, ← List.append_assoc] at h
      refine ⟨l, ?_⟩
      have := (List.append_inj' h rfl).1
      rw [List.concat_eq_append, ← List.append_assoc, ← this]
      simp
  · right
    exact ⟨enc, by rw [← h]; simp⟩

theorem last_name {ns : Place} (h0 : ns ≠ []) (hn : ∀ n ∈ ns, Plain n) :
    fileName ((absolute ns).drop 1) = ns.getLast?.getD [] ∧ Plain (ns.getLast?.getD []) := by
  rcases List.eq_nil_or_concat ns with h | ⟨l, e, rfl⟩
  · exact absurd h h0
  · rw [List.concat_eq_append] at hn ⊢
    have he := hn e (by simp)
    rw [List.getLast?_append]
    simp only [List.getLast?_singleton, Option.some_or, Option.getD_some]
    refine ⟨?_, he⟩
    have e1 : absolute (l ++ [e]) = absolute l ++ c! "/" :: e := by simp [absolute]
    rw [e1]
    cases l with
    | nil => exact fileName_name he.2.1
    | cons a l =>
      have e2 : (absolute (a :: l) ++ c! "/" :: e).drop 1 = (a ++ absolute l) ++ c! "/" :: e := by simp [absolute]
      rw [e2]
      exact afterLast_append _ _ he.2.1

private theorem absolute_ne {ds : Place} (h0 : ds ≠ []) : absolute ds ≠ [] := by
  obtain ⟨d, l, rfl⟩ := List.exists_cons_of_ne_nil h0
  simp [absolute]

theorem set_directory (w : World) (fs : Fs) {ds : Place} (h0 : ds ≠ []) (hd : ∀ n ∈ ds, Plain n) {x : Bool} (hx : fs ds = some (.dir x))
    (c : FileService.Cfg) : FileService.setOption w.number fs c (b! "directory") (absolute ds) = .ok { c with directory := absolute ds } := by
  unfold FileService.setOption
  rw [if_pos rfl]
  dsimp only
  rw [FileLookup.normalize_absolute h0 hd, FileLookup.resolve_absolute _ h0 hd, hx]
  dsimp only
  rw [if_neg (absolute_ne h0)]

/-- The calls for a service with a directory. -/
def dirCalls (R : Bytes) (ds : Place) : List Call :=
  [.loadService R (b! "FileService"), .setOption R (b! "directory") (absolute ds)]

theorem dir_sets_up (w : World) (hopen : w.opens (b! "FileService") = true) (fs : Fs) {ds : Place} (h0 : ds ≠ []) (hd : ∀ n ∈ ds, Plain n)
    {x : Bool} (hx : fs ds = some (.dir x)) (R : Bytes) (g : Guard) : ∃ s0, SetsUp w fs (dirCalls R ds) g s0 := by
  let c : FileService.Cfg := { Spec.FileSite.fresh w (stripSlash R) with directory := absolute ds }
  have h1 : ({ fs := fs } : Site).load w R (b! "FileService") = some { fs := fs, services := [(stripSlash R, .file (Spec.FileSite.fresh w (stripSlash R)) [])], ops := [.addResource (stripSlash R) (stripSlash R)] } := by
    unfold Site.load
    rw [if_neg (by rw [hopen]; simp [SMap.lookup]), if_pos rfl]
    rfl
  have h2 : Site.option w { fs := fs, services := [(stripSlash R, .file (Spec.FileSite.fresh w (stripSlash R)) [])], ops := [.addResource (stripSlash R) (stripSlash R)] } R (b! "directory") (absolute ds) =
      some { fs := fs, services := [(stripSlash R, .file c [])], ops := [.addResource (stripSlash R) (stripSlash R)] } := by
    unfold Site.option
    have hlook : SMap.lookup (stripSlash R) [(stripSlash R, Service.file (Spec.FileSite.fresh w (stripSlash R)) [])] =
        some (.file (Spec.FileSite.fresh w (stripSlash R)) []) := by simp [SMap.lookup]
    simp only [hlook, set_directory w fs h0 hd hx]
    simp [SMap.assign, c]
  refine ⟨{ fs := fs, services := [(stripSlash R, .file c [])], ops := [.addResource (stripSlash R) (stripSlash R)], guard := g },
    { fs := fs, services := [(stripSlash R, .file c [])], ops := [.addResource (stripSlash R) (stripSlash R)] }, ?_, rfl⟩
  show (Site.load w _ R (b! "FileService")).bind _ = _
  rw [h1, Option.bind_some]
  show (Site.option w _ R (b! "directory") (absolute ds)).bind _ = _
  rw [h2]
  rfl

section
variable {w : World} {fs : Fs} {a : Option Config.Auth} {now0 : Nat} {s0 : Site} {R : Bytes} {ds : Place}

private theorem dir_downloads (hw : FilesOk w) (ht : w.table.Ok) (hbyte : ∀ x, w.byte (some x) = x)
    (hup : SetsUp w fs (dirCalls R ds) (guardOf now0 a) s0) (ha : NoCookies a) (hR : noSlash (noSlash R) = noSlash R)
    (h0 : ds ≠ []) (hd : ∀ n ∈ ds, Plain n) {x : Bool} (hx : fs ds = some (.dir x)) :
    Downloads w s0 (noSlash R) ds fun q => Admits w (sees q) (guardOf now0 a) := by
  intro past s hr hread ns hn0 hn f hf hstable scfg sm hs q hq hget hadm henc hnew hdate cfg m0 hcl hsize hmax now lc
  obtain ⟨enc, he, hdec⟩ := henc
  let c : FileService.Cfg := { Spec.FileSite.fresh w (noSlash R) with directory := absolute ds }
  have hrel : relative c q.resource = (absolute ns).drop 1 := by
    unfold relative
    rw [he, if_neg (by show ¬ _ ≤ (noSlash R).length; simp)]
    have : (noSlash R ++ b! "/" ++ enc).drop ((noSlash R).length + 1) = enc := by simp
    show UrlCodec.urlDecode ((noSlash R ++ b! "/" ++ enc).drop ((noSlash R).length + 1)) = _
    rw [this, hdec]
  obtain ⟨k1, k2⟩ := FileLookup.target_absolute (c := c) rfl h0 hn0 hd hn
  obtain ⟨k3, k4⟩ := last_name hn0 hn
  have hne : (absolute ns).drop 1 ≠ [] := by
    obtain ⟨m, l, rfl⟩ := List.exists_cons_of_ne_nil hn0
    have hm := hn m List.mem_cons_self
    show m ++ absolute l ≠ []
    simp [hm.1]
  have hask : asked c (relative c q.resource) = (absolute ns).drop 1 := by
    unfold asked; rw [hrel, if_neg hne]
  have hload : loaded (dirCalls R ds) = [noSlash R] := rfl
  have := site_download_partial hw ht hbyte hup ha (by intro id hid; rw [hload, List.mem_singleton] at hid; rw [hid, hR]) hr hread
    (id := noSlash R) (c := c) ⟨R, rfl, List.mem_cons_self⟩
    (by
      have : optionsOf (noSlash R) (dirCalls R ds) = [(b! "directory", absolute ds)] := by
        unfold optionsOf dirCalls
        simp
      rw [this]
      unfold settings
      rw [set_directory w fs h0 hd hx]
      rfl)
    (FileLookup.absolute_last h0 hd) (Nat.le_refl 1) (.inl rfl) hs q hq hget hadm
    ⟨by rw [hload]; exact List.mem_cons_self, by rw [he]; exact covers_below _ _, fun id hid _ => by
      rw [hload, List.mem_singleton] at hid; rw [hid]⟩ (path := absolute (ds ++ ns)) (by rw [hrel]; exact k1) (f := f)
    (by rw [hrel, k2]; exact hf) hnew (by rw [hrel, k2]; exact fun _ => hstable) (by rw [hask, k3]; exact k4) hdate hcl hsize hmax now lc
  rw [hask, k3] at this
  have hno : UntilClose c.maxChunk q.major q.minor f.content.length ↔ False := by
    refine ⟨fun h => absurd h.2.1 (Nat.lt_irrefl 0), False.elim⟩
  rw [propext hno] at this
  exact this

end

/-- **C91 (`piond -o directory=… RESOURCE FileService`; partial as `Downloads` says).** With a directory given on the command
    line, and whatever other options there are: the server is set up, and its files can be downloaded below the resource. -/
theorem piond_directory_partial (w : World) (hw : FilesOk w) (ht : w.table.Ok) (hbyte : ∀ x, w.byte (some x) = x)
    (hopen : w.opens (b! "FileService") = true) (args : Piond.World) (now : Nat) (fs : Fs) (fl : List Spec.Piond.Flag)
    (hgood : ∀ f ∈ fl, f.Good args) {ds : Place} (h0 : ds ≠ []) (hd : ∀ n ∈ ds, Plain n) {x : Bool} (hx : fs ds = some (.dir x))
    (hopt : fl.filterMap Spec.Piond.Flag.option? = [(b! "directory", absolute ds)]) (hconf : fl.filterMap Spec.Piond.Flag.config? = [])
    (R : Bytes) (hne : R ≠ []) (hdash : R.head? ≠ some (c! "-")) (hR : noSlash (noSlash R) = noSlash R) :
    ∃ s0, piond w args now fs (fl.flatMap Spec.Piond.Flag.args ++ [R, b! "FileService"]) = some s0 ∧
      Downloads w s0 (noSlash R) ds fun _ => True := by
  obtain ⟨s0, hs0⟩ := dir_sets_up w hopen fs h0 hd hx R (guardOf now none)
  refine ⟨s0, (piond_sets_up ..).2 ⟨Spec.Piond.meaning fl (.both R (b! "FileService")), (Piond.understood ..).2 ⟨fl, .both R (b! "FileService"), hgood,
    ⟨hdash, by decide⟩, rfl, rfl, .inr ⟨hne, by show b! "FileService" ≠ []; decide⟩⟩, .inl ⟨by show (fl.filterMap Spec.Piond.Flag.config?).getLast?.getD [] = []; rw [hconf]; rfl, ?_⟩⟩, ?_⟩
  · show SetsUp w fs (.loadService R (b! "FileService") :: (fl.filterMap Spec.Piond.Flag.option?).map fun nv => .setOption R nv.1 nv.2) .open_ s0
    rw [hopt]
    exact hs0
  · have := dir_downloads hw ht hbyte hs0 (by intro _ h; cases h) hR h0 hd hx
    exact fun past s hr hread ns hn0 hn f hf hstable scfg sm hs q hq hget _ =>
      this past s hr hread ns hn0 hn f hf hstable scfg sm hs q hq hget trivial

/-- The commands of a configuration file for a directory with a password and this kind of authenticator. -/
def guarded (k : Config.Kind) (U P R : Bytes) (ds : Place) : List Spec.Config.Cmd :=
  [.auth k, .user U P, .restrict R, .service R (b! "FileService"), .option R (b! "directory") (absolute ds)]

/-- The commands of a configuration file for a directory with a password. -/
def secret (U P R : Bytes) (ds : Place) : List Spec.Config.Cmd := guarded .basic U P R ds

theorem guarded_loads {w : World} {fs : Fs} {g : Guard} {s0 : Site} (k : Config.Kind) {U P R : Bytes} {ds : Place}
    (hs0 : SetsUp w fs (dirCalls R ds) g s0) (hok : ∀ c ∈ guarded k U P R ds, c.Ok) :
    Config.load (throws w { fs := fs }) (Spec.Config.written (guarded k U P R ds)) =
      .finished (some { kind := k, users := [(U, P)], restrict := [R] }) (dirCalls R ds) := by
  let a : Config.Auth := { kind := k, users := [(U, P)], restrict := [R] }
  obtain ⟨s1, hs1, -⟩ := hs0
  obtain ⟨t1, ht1, hs1⟩ := Option.bind_eq_some_iff.1 hs1
  obtain ⟨t2, ht2, -⟩ := Option.bind_eq_some_iff.1 hs1
  have e1 : throws w { fs := fs } [] (.loadService R (b! "FileService")) = false := by
    unfold throws
    show (Site.call w { fs := fs } (.loadService R (b! "FileService"))).isNone = false
    rw [ht1]; rfl
  have e2 : throws w { fs := fs } [.loadService R (b! "FileService")] (.setOption R (b! "directory") (absolute ds)) = false := by
    unfold throws
    show ((((Site.call w _ _).bind _).bind _).isNone) = false
    rw [ht1, Option.bind_some]
    show (Site.call w t1 (.setOption R (b! "directory") (absolute ds))).isNone = false
    rw [ht2]; rfl
  refine ServiceConfig.written_loaded _ _ hok (some a, dirCalls R ds) ?_
  show (Spec.Config.make (throws w { fs := fs }) (some a, []) (.loadService R (b! "FileService"))).bind _ = _
  unfold Spec.Config.make
  rw [if_neg (by rw [e1]; decide)]
  show (Spec.Config.make (throws w { fs := fs }) (some a, [.loadService R (b! "FileService")]) (.setOption R (b! "directory") (absolute ds))).bind _ = _
  unfold Spec.Config.make
  rw [if_neg (by rw [e2]; decide)]
  rfl

/-- The header `Authorization` of the request as the server sees it. -/
def authorizationOf (w : World) (q : Spec.Conversation.Request) : Bytes := q.headers.get w.auth.ord (b! "Authorization")

theorem user_fits {b : Users.Build} (hb : Spec.Users.Digests b) (U P u p : Bytes) :
    (Users.getUserPw b (Users.run b [.add U P]) u p).isSome = true ↔ u = U ∧ Spec.Users.Fits b (Spec.Users.ofPassword b P) p := by
  rw [Users.get_user_password_partial hb [.add U P] (by intro op h; cases List.mem_singleton.1 h; trivial)
    (by intro op h; cases List.mem_singleton.1 h; trivial)]
  have e : Spec.Users.run b [.add U P] u = if u = U then some (Spec.Users.ofPassword b P) else none := by
    show (if u = U ∧ _ then _ else _) = _
    simp
  rw [e]
  constructor
  · rintro ⟨c, hc, hf⟩
    split at hc
    · next h => cases hc; exact ⟨h, hf⟩
    · cases hc
  · rintro ⟨rfl, hf⟩
    exact ⟨_, if_pos rfl, hf⟩

/-- **C91 (a directory with a password; partial as `Downloads` says).** With a configuration file that has one user, restricts
    a resource and loads a file service with a directory for it: the server is set up. Whoever gives the name and the password of
    the user can download the files; whoever gives none, or others, is refused. -/
theorem piond_secret_partial (w : World) (hw : FilesOk w) (ht : w.table.Ok) (hbyte : ∀ x, w.byte (some x) = x)
    (hopen : w.opens (b! "FileService") = true) (hb : Spec.Users.Digests w.auth.build) (args : Piond.World) (now : Nat) (fs : Fs)
    {ds : Place} (h0 : ds ≠ []) (hd : ∀ n ∈ ds, Plain n) {x : Bool} (hx : fs ds = some (.dir x)) (U P R : Bytes)
    (hok : ∀ c ∈ secret U P R ds, c.Ok) (hR : noSlash (noSlash R) = noSlash R) (hU : c! ":" ∉ U)
    (file : Bytes) (hfile : file ≠ []) (htext : w.configs file = some (Spec.Config.written (secret U P R ds))) :
    ∃ s0, piond w args now fs [b! "-c", file] = some s0 ∧
      (Downloads w s0 (noSlash R) ds fun q => authorizationOf w q = authorization U P) ∧
      Refuses w s0 fun q => Covers (noSlash R) (noSlash q.resource) ∧
        (¬ b! "Basic " <+: authorizationOf w q ∨
          ∃ u p, authorizationOf w q = authorization u p ∧ c! ":" ∉ u ∧
            (u ≠ U ∨ ¬ Spec.Users.Fits w.auth.build (Spec.Users.ofPassword w.auth.build P) p)) := by
  let a : Config.Auth := { kind := .basic, users := [(U, P)], restrict := [R] }
  obtain ⟨s0, hs0⟩ := dir_sets_up w hopen fs h0 hd hx R (guardOf now (some a))
  have ha : NoCookies (some a) := by rintro _ ⟨⟩; rfl
  have hload : Config.load (throws w { fs := fs }) (Spec.Config.written (secret U P R ds)) = .finished (some a) (dirCalls R ds) :=
    guarded_loads .basic hs0 hok
  have hhist : guardOf now (some a) = .basic now [.users (.add U P), .restrict R] := rfl
  have husers : usersOf w.auth [.users (.add U P), .restrict R] = Users.run w.auth.build [.add U P] := rfl
  have hUok : U ≠ [] := (hok (.user U P) (by simp [secret, guarded])).1.1
  refine ⟨s0, (piond_sets_up ..).2 ⟨Spec.Piond.meaning [.config file] .nothing, (Piond.understood ..).2 ⟨[.config file], .nothing, ?_, trivial, rfl, rfl,
    .inl hfile⟩, .inr ⟨hfile, _, _, _, htext, hload, hs0⟩⟩, ?_, ?_⟩
  · intro f hf; cases List.mem_singleton.1 hf; trivial
  · have := dir_downloads hw ht hbyte hs0 ha hR h0 hd hx
    refine fun past s hr hread ns hn0 hn f hf hstable scfg sm hs q hq hget hau =>
      this past s hr hread ns hn0 hn f hf hstable scfg sm hs q hq hget ?_
    rw [hhist]
    intro _
    refine ⟨credentials U P, U, ⟨hau, ?_⟩, P, BasicSession.decode_credentials _ _ _, hUok, hU, ?_⟩
    · intro hnil
      have := BasicSession.decode_credentials w.auth U P
      rw [hnil] at this
      have e : Auth.decodeCredentials w.auth [] = some [] ∨ Auth.decodeCredentials w.auth [] = none := by
        unfold Auth.decodeCredentials
        cases w.auth.charSigned
        · exact .inl rfl
        · exact .inl rfl
      rcases e with e | e <;> rw [e] at this <;> simp at this
    · rw [husers, user_fits hb]
      refine ⟨rfl, ?_⟩
      unfold Spec.Users.ofPassword
      split <;> rfl
  · intro past s hr scfg sm hs q hq hhead ⟨hcov, hbad⟩ cfg m0 hcl hmax now' lc
    refine site_refuses ht hs0 ha hr hs q hq hhead ?_ hcl hmax now' lc
    rw [hhist]
    intro hadm
    obtain ⟨cred, name, ⟨hp1, hp2⟩, pw, hc1, hc2, hc3, hc4⟩ := hadm ⟨⟨U, by
      rw [husers, Users.get_user_iff_partial hb [.add U P] (by intro op h; cases List.mem_singleton.1 h; trivial)
        (by intro op h; cases List.mem_singleton.1 h; trivial)]
      show (if U = U ∧ _ then _ else _) ≠ none
      rw [if_pos ⟨rfl, rfl⟩]
      simp⟩, ⟨noSlash R, by simp [restricted], hcov⟩, by simp [permitted]⟩
    have hp1 : authorizationOf w q = b! "Basic " ++ cred := hp1
    rcases hbad with hbad | ⟨u, p, hau, hcolon, hbad⟩
    · exact hbad ⟨cred, hp1.symm⟩
    · rw [hau] at hp1
      have hcred : credentials u p = cred := List.append_cancel_left hp1
      rw [← hcred, BasicSession.decode_credentials, Option.some.injEq] at hc1
      obtain ⟨rfl, rfl⟩ := BasicSession.split_colon hcolon hc3 hc1
      rw [husers, user_fits hb] at hc4
      rcases hbad with hbad | hbad
      · exact hbad hc4.1
      · exact hbad hc4.2

/-! ### The conditions are met -/

def configText : Bytes :=
  b! "auth basic\nuser bob s3 cret\nrestrict /files\nservice /files FileService\noption /files directory=/var/www\n"

def exampleWorld : World where
  opens p := p = b! "FileService"
  configs f := if f = b! "/etc/pion.conf" then some configText else none
  date _ := b! "Thu, 01 Jan 1970 00:16:40 GMT"
  other _ _ m := (notFound m).writer {} m .close
  auth := Props.Auth.env

theorem configText_written : configText = Spec.Config.written (secret (b! "bob") (b! "s3 cret") (b! "/files") [b! "var", b! "www"]) := by
  decide +kernel

theorem example_readable {past : List Fs} (h : past = [FileService.exampleFs]) : AllReadable past := by
  intro fs hfs p f hp
  subst h
  cases List.mem_singleton.1 hfs
  revert hp
  unfold FileService.exampleFs
  repeat' split
  all_goals intro hp; cases hp
  all_goals rfl

theorem example_server : Server exampleWorld Conversation.scfg {} :=
  ⟨⟨rfl, rfl, rfl, rfl⟩, fun l => .refl l, rfl, rfl, rfl, rfl⟩

private theorem example_client : Client Conversation.ccfg { requestMethod := b! "GET" } (b! "GET") :=
  ⟨rfl, fun l => .refl l, rfl, rfl, ⟨rfl, rfl, rfl, rfl⟩, rfl⟩

theorem start_fs {w : World} {fs : Fs} {cs : List Call} {g : Guard} {s0 : Site} (h : SetsUp w fs cs g s0) : s0.fs = fs := by
  obtain ⟨s1, h1, h0⟩ := h
  obtain ⟨_, _, rfl⟩ := Option.map_eq_some_iff.1 h0
  exact (made cs h1).same

theorem piond_fs {w : World} {args : Piond.World} {now : Nat} {fs : Fs} {line : List Bytes} {s0 : Site}
    (h : piond w args now fs line = some s0) : s0.fs = fs := by
  obtain ⟨_, -, ⟨-, h⟩ | ⟨-, _, _, _, -, -, h⟩⟩ := (piond_sets_up ..).1 h <;> exact start_fs h

private theorem example_downloads {s0 : Site} (hfs : s0.fs = FileService.exampleFs) {Such : Spec.Conversation.Request → Prop}
    (h : Downloads exampleWorld s0 (b! "/files") [b! "var", b! "www"] Such) (q : Spec.Conversation.Request) (hq : q.Ok Conversation.scfg)
    (hget : q.method = b! "GET") (hs : Such q) (hr : q.resource = b! "/files/ind%65x.html")
    (hnew : q.headers.get Conversation.scfg.ord (b! "If-Modified-Since") = []) (lc : Lifecycle) :
    Conversation.Reads Conversation.scfg {} q.bytes fun m => ∃ answer, (s0.request exampleWorld 5 m lc).1 = some answer ∧
      Receives Conversation.ccfg { requestMethod := b! "GET" } False answer
        (Downloaded · (b! "hello") (b! "text/html") (b! "Thu, 01 Jan 1970 00:16:40 GMT")) := by
  have hf : s0.fs ([b! "var", b! "www"] ++ [b! "index.html"]) = some (.file { content := b! "hello", mtime := 1000 }) := by
    rw [hfs]; decide +kernel
  have := h [s0.fs] s0 .started (example_readable (by rw [hfs])) [b! "index.html"] (by simp)
    (by intro n hn; cases List.mem_singleton.1 hn; decide +kernel) _ hf
    (by
      intro fs h g hg _ _
      cases List.mem_singleton.1 h
      cases hf.symm.trans hg; rfl)
    _ _ example_server q hq hget hs ⟨b! "ind%65x.html", by rw [hr]; decide +kernel, by decide +kernel⟩
    (by rw [hnew]; show ([] : Bytes) ≠ b! "Thu, 01 Jan 1970 00:16:40 GMT"; decide)
    (headerOk_of (by decide +kernel) (valueChar_of (by decide +kernel)) (by decide +kernel))
    _ _ example_client (by decide) (by decide) 5 lc
  have ht : findMimeType ([b! "index.html"].getLast?.getD []) = b! "text/html" := by decide +kernel
  rw [ht] at this
  exact this

/-- A request for the example's file, with one of its letters escaped. -/
def askIndex (headers : Dict) : Spec.Conversation.Request :=
  { method := b! "GET", resource := b! "/files/ind%65x.html", minor := 1, headers := headers, framing := .bare }

/-- The password "s3 cret" of "bob". -/
def bobsHeader : Bytes × Bytes := (b! "Authorization", b! "Basic Ym9iOnMzIGNyZXQ=")

theorem askIndex_ok : (askIndex []).Ok Conversation.scfg ∧ (askIndex [bobsHeader]).Ok Conversation.scfg := by
  have hline : Verif.Http.RequestLineOk (b! "GET") (b! "/files/ind%65x.html") [] 1 1 :=
    ⟨show Http.Token (b! "GET") from ⟨by decide +kernel, by decide +kernel, by decide +kernel⟩,
      by show ∀ c ∈ b! "/files/ind%65x.html", Http.uriChar c; unfold Http.uriChar; decide +kernel,
      by show (b! "/files/ind%65x.html").length ≤ _; decide +kernel, nofun, Nat.zero_le _, ⟨Nat.le_refl 1, by show 1 < 65536; decide⟩,
      by show 1 < 65536; decide⟩
  refine ⟨⟨hline, nofun, ⟨(by rintro ⟨v, hv, -⟩; cases hv), rfl⟩, Nat.zero_le _, by show 0 + 1 < 2 ^ 64; decide⟩,
    ⟨hline, ?_, ⟨?_, by show Dict.find? _ [bobsHeader] _ = _; decide +kernel⟩, Nat.zero_le _, by show 0 + 1 < 2 ^ 64; decide⟩⟩
  · intro e he
    cases List.mem_singleton.1 he
    exact headerOk_of (by decide +kernel) (valueChar_of (by decide +kernel)) (by decide +kernel)
  · rintro ⟨v, hv, -⟩
    have : Dict.find? Conversation.scfg.ord [bobsHeader] (b! "Transfer-Encoding") = none := by decide +kernel
    rw [show (askIndex [bobsHeader]).headers = [bobsHeader] from rfl, this] at hv
    cases hv

/-- `piond -p 8080 -o directory=/var/www /files FileService`. -/
theorem example_command_line (args : Piond.World) (lc : Lifecycle) : ∃ s0,
    piond exampleWorld args 0 FileService.exampleFs [b! "-p", b! "8080", b! "-o", b! "directory=/var/www", b! "/files", b! "FileService"] = some s0 ∧
    Conversation.Reads Conversation.scfg {} (askIndex []).bytes fun m => ∃ answer, (s0.request exampleWorld 5 m lc).1 = some answer ∧
      Receives Conversation.ccfg { requestMethod := b! "GET" } False answer
        (Downloaded · (b! "hello") (b! "text/html") (b! "Thu, 01 Jan 1970 00:16:40 GMT")) := by
  obtain ⟨s0, h1, h2⟩ := piond_directory_partial exampleWorld nofun (fun d => .refl d) (fun _ => rfl) (by decide +kernel) args 0 FileService.exampleFs
    [.port (b! "8080"), .option (b! "directory") (b! "/var/www")] (by
      intro f hf
      simp only [List.mem_cons, List.not_mem_nil, or_false] at hf
      rcases hf with rfl | rfl
      · trivial
      · show c! "=" ∉ b! "directory"; decide) (ds := [b! "var", b! "www"]) (by simp)
    (by decide +kernel) (x := true) (by decide +kernel) (by decide +kernel) (by decide +kernel) (b! "/files")
    (by decide) (by decide) (by decide)
  exact ⟨s0, h1, example_downloads (piond_fs h1) h2 (askIndex []) askIndex_ok.1 rfl trivial rfl rfl lc⟩

private theorem example_commands : ∀ c ∈ secret (b! "bob") (b! "s3 cret") (b! "/files") [b! "var", b! "www"], c.Ok := by
  intro c hc
  simp only [secret, guarded, List.mem_cons, List.not_mem_nil, or_false] at hc
  rcases hc with rfl | rfl | rfl | rfl | rfl
  · trivial
  · exact ⟨⟨by decide +kernel, by decide +kernel⟩, ⟨_, _, rfl, by decide +kernel⟩, by decide +kernel⟩
  · exact ⟨⟨_, _, rfl, by decide +kernel⟩, by decide +kernel⟩
  · exact ⟨⟨by decide +kernel, by decide +kernel⟩, ⟨_, _, rfl, by decide +kernel⟩, by decide +kernel⟩
  · exact ⟨⟨by decide +kernel, by decide +kernel⟩, ⟨⟨_, _, rfl, by decide +kernel⟩, by decide +kernel⟩, by decide +kernel⟩

/-- `piond -c /etc/pion.conf`, with and without the password. -/
theorem example_configuration (args : Piond.World) (lc : Lifecycle) : ∃ s0,
    piond exampleWorld args 0 FileService.exampleFs [b! "-c", b! "/etc/pion.conf"] = some s0 ∧
    (Conversation.Reads Conversation.scfg {} (askIndex [bobsHeader]).bytes fun m => ∃ answer, (s0.request exampleWorld 5 m lc).1 = some answer ∧
      Receives Conversation.ccfg { requestMethod := b! "GET" } False answer
        (Downloaded · (b! "hello") (b! "text/html") (b! "Thu, 01 Jan 1970 00:16:40 GMT"))) ∧
    Conversation.Reads Conversation.scfg {} (askIndex []).bytes fun m => ∃ answer, (s0.request exampleWorld 5 m lc).1 = some answer ∧
      Receives Conversation.ccfg { requestMethod := b! "GET" } False answer (·.statusCode = 401) := by
  obtain ⟨s0, h1, h2, h3⟩ := piond_secret_partial exampleWorld nofun (fun d => .refl d) (fun _ => rfl) (by decide +kernel) (Users.toy_digests false)
    args 0 FileService.exampleFs (ds := [b! "var", b! "www"]) (by simp) (by decide +kernel) (x := true) (by decide +kernel)
    (b! "bob") (b! "s3 cret") (b! "/files") example_commands
    (by decide) (by decide) (b! "/etc/pion.conf") (by decide) (by
      show some configText = _
      rw [configText_written])
  refine ⟨s0, h1, example_downloads (piond_fs h1) h2 (askIndex [bobsHeader]) askIndex_ok.2 rfl ?_ rfl ?_ lc, ?_⟩
  · show Dict.get _ [bobsHeader] _ = _
    decide +kernel
  · decide +kernel
  · have := h3 [s0.fs] s0 .started _ _ example_server (askIndex []) askIndex_ok.1 (by show b! "GET" ≠ _; decide)
      ⟨.inr ⟨b! "ind%65x.html", by decide +kernel⟩, .inl (by
        show ¬ b! "Basic " <+: []
        rintro ⟨_, h⟩; cases h)⟩ _ _ example_client (by decide) 5 lc
    obtain ⟨k0, k⟩ := this
    refine ⟨k0, fun tail bufs hcut => ?_⟩
    obtain ⟨o, ho, g1, g2, g3, -, answer, ha, hr⟩ := k tail bufs hcut
    refine ⟨o, ho, g1, g2, g3, answer, ha, fun hf tail bufs hcut => ?_, False.elim⟩
    obtain ⟨o', ho', g1', g2', g3', g4', -⟩ := hr.1 hf tail bufs hcut
    exact ⟨o', ho', g1', g2', g3', g4'⟩

/-- **C91, violated for names with two slashes at the end**: services for "/a//" and "/a" can both be loaded, but the second
    one never gets a request, whatever is asked for. -/
theorem double_slash : ∃ s, ({ fs := FileService.exampleFs } : Site).calls exampleWorld
      [.loadService (b! "/a//") (b! "FileService"), .loadService (b! "/a") (b! "FileService")] = some s ∧
    (s.services.lookup (b! "/a")).isSome = true ∧ ∀ now m m', .handler (b! "/a") m' ∉ s.receivers exampleWorld now m := by
  refine ⟨_, rfl, by decide +kernel, fun now m m' hm => ?_⟩
  have hops : ∀ p h, handlers ([.addResource (b! "/a/") (b! "/a/"), .addResource (b! "/a") (b! "/a")] : List (Op Bytes)) p = some h →
      h = b! "/a/" := by
    intro p h hh
    have e : handlers ([.addResource (b! "/a/") (b! "/a/"), .addResource (b! "/a") (b! "/a")] : List (Op Bytes)) p =
        if p = b! "/a" ∧ (if p = b! "/a" ∧ (none : Option Bytes) = none then some (b! "/a/") else none) = none then some (b! "/a")
        else if p = b! "/a" ∧ (none : Option Bytes) = none then some (b! "/a/") else none := rfl
    rw [e] at hh
    by_cases hp : p = b! "/a"
    · rw [if_neg (by simp [hp]), if_pos ⟨hp, rfl⟩] at hh
      exact (Option.some.inj hh).symm
    · rw [if_neg (by simp [hp]), if_neg (by simp [hp])] at hh
      cases hh
  have hm : Call.handler (b! "/a") m' ∈ (handleRequest (σ := Unit) (fun _ => .returns) none
      (build [.addResource (b! "/a/") (b! "/a/"), .addResource (b! "/a") (b! "/a")]) () .ok m).1 := hm
  unfold handleRequest at hm
  by_cases hv : m.isValid = true
  · rw [if_neg (by simp [hv]), loop_here (ops := [.addResource (b! "/a/") (b! "/a/"), .addResource (b! "/a") (b! "/a")]) rfl] at hm
    dsimp only at hm
    unfold dispatch at hm
    cases hx : findHandler (build [.addResource (b! "/a/") (b! "/a/"), .addResource (b! "/a") (b! "/a")]).resources (noSlash m.resource) with
    | none => rw [hx] at hm; simp at hm
    | some h =>
      obtain ⟨p, hp, -, -⟩ := (Props.Dispatch.find_longest _ _ _).1 hx
      rw [hx, hops p h hp] at hm
      simp at hm
  · rw [if_pos (by simp [hv])] at hm
    simp at hm

end Verif.Props.FileSite
