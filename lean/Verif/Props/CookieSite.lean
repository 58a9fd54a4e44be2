import Mathlib.Tactic.Common
import Verif.Lemmas.CookieSite
import Verif.Props.CookieSession
import Verif.Props.Dialogue
import Verif.Props.FileSite
/-
C104: a directory of files behind a login page, from the configuration file to the client.
-/
namespace Verif.Props.CookieSite
open Verif.FileSite Verif.Spec.FileSite Verif.Spec.CookieSite Verif.Spec.Dispatch Verif.Spec.Paths Verif.Spec.FileService Verif.Spec.FileAnswers
open Verif.FileService (Fs DirOk File relative target)
open Verif.FileAnswers Verif.Props.FileAnswers Verif.Props.FileSite Verif.Spec.Responses Verif.Server Verif.Responses Verif.Lemmas.CookieSite
open Verif.Config (Call)
open Verif.Writer (Lifecycle W)
open Verif.Spec.Path (Plain absolute Place)
open Verif.Props.MessageBuild Verif.Spec.MessageBuild Verif.Props.Message Verif.Props.Dict Verif.Props.HttpBody
open Verif.Http (HeaderOk)
open Verif.Spec.CookieAuth (Unrepeated)
open Verif.Props.CookieSession (Wire LoginParameters)
open Verif.Props.Responses (page)

/-! ### Requests that are sent are valid -/

theorem arrives_valid (cfg : Http.Cfg) (hr : cfg.isRequest = true) (t : TableOrder) (l : Link cfg t) (ka : Bool) (m : Msg) (body : Bytes)
    (hw : Writable true m body) (hmax : body.length ≤ cfg.maxContent) :
    Arrives cfg t ka m fun r => r.isValid = true ∧ SameMessage true ka m body r := by
  refine ⟨_, _, by rw [hr]; exact transmit_eq t true ka m body hw.content hw.contentLength, fun old tail bufs hcut => ?_⟩
  obtain ⟨-, h⟩ := Conversation.request_reads cfg (old.clear cfg.isRequest) (blank_clear _ _) l.order hr l.whole l.buffered
    (Dialogue.asSent t ka m body) (Dialogue.asSent_ok l.order l.tables hw hmax)
  obtain ⟨o, h1, h2, h3, h4, h5⟩ := h tail bufs hcut
  exact ⟨o, h1, h2, h3, h4, h5.valid, Dialogue.asSent_same l.tables hw h5⟩

theorem query_line_writable (t : TableOrder) (m : Msg) (body : Bytes) (hw : Writable true m body)
    (hs : (Query.makeQueryString (t.iter m.queries)).length ≤ 1048576) : Writable true (m.useQueriesForQueryString t) body := by
  have ho : Http.RequestLineOk m.method m.resource m.queryString m.verMajor m.verMinor := hw.headOk
  exact { hw with
    headOk := (⟨ho.methodOk, ho.resourceOk, ho.resourceSize, makeQueryString_chars _, hs, ho.majorOk, ho.minorOk⟩ :
      Http.RequestLineOk m.method m.resource (Query.makeQueryString (t.iter m.queries)) m.verMajor m.verMinor)
    bodyAllowed := nofun }

/-! ### Statements -/

/-- The name of a file below the directory `ds`, and the file it names after these steps; the server may read all files there
    ever were, and whatever had this name, size and time of change had this content. -/
structure There (w : World) (s0 : Site) (steps : List Step) (ds ns : Place) (f : File) : Prop where
  name : ns ≠ []
  plain : ∀ n ∈ ns, Plain n
  file : (go w s0 steps).fs (ds ++ ns) = some (.file f)
  readable : AllReadable (states w s0 steps)
  stable : ∀ fs ∈ states w s0 steps, ∀ g, fs (ds ++ ns) = some (.file g) → g.mtime = f.mtime → g.content.length = f.content.length →
    g.content = f.content
  date : HeaderOk (b! "Last-Modified", w.date f.mtime)
  dated : w.date f.mtime ≠ []
  size : f.content.length ≤ 2 ^ 63 - 1

/-- A request for this file, below the resource `root`, by a client that has no copy of it. -/
structure AsksFor (w : World) (root : Bytes) (ns : Place) (f : File) (q : Msg) : Prop where
  get : q.method = b! "GET"
  path : ∃ enc, q.resource = root ++ b! "/" ++ enc ∧ UrlCodec.urlDecode enc = (absolute ns).drop 1
  noLogin : noSlash q.resource ≠ b! "/login"
  noLogout : noSlash q.resource ≠ b! "/logout"
  noCopy : ∀ v ∈ q.headers.values (b! "If-Modified-Since"), v ≠ w.date f.mtime

/-- The client receives the file. -/
def SendsFile (w : World) (s : Site) (now : Nat) (m : Msg) (ns : Place) (f : File) : Prop :=
  ∀ cfg m0, Client cfg m0 (b! "GET") → f.content.length ≤ cfg.maxContent → ∀ lc, ∃ answer, (s.request w now m lc).1 = some answer ∧
    Receives cfg m0 False answer (Downloaded · f.content (findMimeType (ns.getLast?.getD [])) (w.date f.mtime))

/-- The client is told that it is not authorized, and no file is changed. -/
def Denied (w : World) (s : Site) (now : Nat) (m : Msg) : Prop :=
  ∀ cfg m0, Client cfg m0 m.method → 1000 ≤ cfg.maxContent → ∀ lc, (s.request w now m lc).2.fs = s.fs ∧
    ∃ answer, (s.request w now m lc).1 = some answer ∧ Receives cfg m0 False answer (·.statusCode = 401)

/-- However the connection cuts the answer and whatever follows it, the client gets a message with `P`. -/
def AnswerArrives (ccfg : Http.Cfg) (answer : W) (P : Msg → Prop) : Prop :=
  ∀ (old : Msg) (tail : Bytes) (bufs : List Bytes), Cuts bufs (answer.wire ++ tail) →
    ∃ o, Http.outcome ccfg (Http.fresh ccfg (old.clear ccfg.isRequest)) bufs = some o ∧ o.result = .yes ∧ o.error = none ∧
      o.unread = tail ∧ P o.message

/-- The request of a client that logs in: the parameters of `m` go into the query string or into a form. -/
inductive LoginRequest (scfg : Http.Cfg) (ct : TableOrder) (m : Msg) (body : Bytes) : Msg → Prop
  | query : body.length ≤ scfg.maxContent → NotForm m.headers → (Query.makeQueryString (ct.iter m.queries)).length ≤ 1048576 →
      LoginRequest scfg ct m body (m.useQueriesForQueryString ct)
  | form : m.queryString = [] → (Query.makeQueryString (ct.iter m.queries)).length ≤ scfg.maxContent →
      LoginRequest scfg ct m body (m.useQueriesForContent ct)

/-- Whoever logs in with the name and the password of the user, at any time, gets an answer whose cookies, put into later requests,
    get them the files for an hour: whatever happens in between, unless somebody logs out with them. (`Unrepeated`: the generator of
    random numbers has not given the same twenty bytes before.) -/
def LoginWorks (w : World) (s0 : Site) (t0 : Nat) (U P R : Bytes) (ds : Place) : Prop :=
  ∀ (scfg ccfg : Http.Cfg) (ct : TableOrder), Wire w.auth scfg ccfg w.table ct → ∀ (before : List Step) (now : Nat) (m : Msg) (body p : Bytes),
    LoginParameters {} m U p → Right w P p → Unrepeated w.gen t0 (opened w t0 U P R before) →
    Writable true m body → (∀ x ∈ m.queries, Verif.Props.Query.PairOk x) → ∀ login, LoginRequest scfg ct m body login → ∀ ka,
    Arrives scfg ct ka login fun r => ∀ lc, ∃ answer, ((go w s0 before).request w now r lc).1 = some answer ∧
      AnswerArrives ccfg answer fun ans => ans.cookies = [(b! "pion_session_id", next w t0 U P R before)] ∧
        ∀ (after : List Step) (now' : Nat), (∀ c ∈ ans.cookies, Stays w c.2 after) →
          Forward t0 (before ++ .request now r lc :: after) now' → now' ≤ now + 3600 →
        ∀ ns f, There w s0 (before ++ .request now r lc :: after) ds ns f →
        ∀ q qbody ka', AsksFor w (noSlash R) ns f q → q.cookies = ans.cookies → q.headers.values (b! "Cookie") = [] →
          Writable true q qbody → qbody.length ≤ scfg.maxContent →
        Arrives scfg ct ka' q fun r' => SendsFile w (go w s0 (before ++ .request now r lc :: after)) now' r' ns f

/-- Whoever asks for something below the resource, with a cookie that is not the one of somebody who has logged in and not out, gets
    nothing; nor does who tries to log in with another name or password. -/
def OthersDenied (w : World) (s0 : Site) (t0 : Nat) (U P R : Bytes) : Prop :=
  ∀ (steps : List Step) (scfg : Http.Cfg) (sm : Msg), Server w scfg sm → ∀ q : Spec.Conversation.Request, q.Ok scfg → q.method ≠ b! "HEAD" →
    ∀ now, Conversation.Reads scfg sm q.bytes fun m =>
      (Covers (noSlash R) (noSlash q.resource) → noSlash q.resource ≠ b! "/login" → noSlash q.resource ≠ b! "/logout" →
        ¬ Session w t0 U P R steps (Auth.sessionCookie w.auth m) → Denied w (go w s0 steps) now m) ∧
      (noSlash q.resource = b! "/login" → ¬ Login w U P m → Denied w (go w s0 steps) now m)

/-! ### Proofs -/

section
variable {w : World} {fs : Fs} {s0 : Site} {t0 : Nat} {U P R : Bytes} {ds : Place}

theorem site_session (hup : SetsUp w fs (dirCalls R ds) (.cookie t0 (setting U P R)) s0) (steps : List Step) :
    (go w s0 steps).guard = .cookie t0 (setting U P R ++ requests steps) :=
  go_guard w t0 steps s0 _ (site_guard hup)

theorem site_receivers (hup : SetsUp w fs (dirCalls R ds) (.cookie t0 (setting U P R)) s0) (steps : List Step) (now : Nat) (m : Msg)
    (hv : m.isValid = true) : (go w s0 steps).receivers w now m =
      if (CookieAuth.handle w.gen w.auth now (sessionAuth w t0 (setting U P R ++ requests steps)) m).1.pass
      then dispatch (fun _ => .returns) (build (go w s0 steps).ops).resources (noSlash m.resource) m else [.refused] :=
  cookie_receivers (site_ops hup (go_runs w s0 steps)) (site_session hup steps) now m hv

/-- What is sent for a request that the authenticator lets pass. -/
theorem passed_file (hw : FilesOk w) (ht : w.table.Ok) (hbyte : ∀ x, w.byte (some x) = x) (hord : Http.OrderOk w.auth.ord)
    (hup : SetsUp w fs (dirCalls R ds) (.cookie t0 (setting U P R)) s0) (hR : noSlash (noSlash R) = noSlash R)
    (h0 : ds ≠ []) (hd : ∀ n ∈ ds, Plain n) {x : Bool} (hx : fs ds = some (.dir x)) {steps : List Step} {ns : Place} {f : File}
    (hthere : There w s0 steps ds ns f) {m : Msg} (hv : m.isValid = true) (hask : AsksFor w (noSlash R) ns f m) {now : Nat}
    (hpass : (CookieAuth.handle w.gen w.auth now (sessionAuth w t0 (setting U P R ++ requests steps)) m).1.pass = true) :
    SendsFile w (go w s0 steps) now m ns f := by
  intro cfg m0 hcl hmax lc
  obtain ⟨enc, he, hdec⟩ := hask.path
  let c : FileService.Cfg := { Spec.FileSite.fresh w (noSlash R) with directory := absolute ds }
  have hrel : relative c m.resource = (absolute ns).drop 1 := by
    unfold relative
    rw [he, if_neg (by show ¬ _ ≤ (noSlash R).length; simp)]
    have : (noSlash R ++ b! "/" ++ enc).drop ((noSlash R).length + 1) = enc := by simp
    show UrlCodec.urlDecode ((noSlash R ++ b! "/" ++ enc).drop ((noSlash R).length + 1)) = _
    rw [this, hdec]
  obtain ⟨k1, k2⟩ := FileLookup.target_absolute (c := c) rfl h0 hthere.name hd hthere.plain
  obtain ⟨k3, k4⟩ := last_name hthere.name hthere.plain
  have hne : (absolute ns).drop 1 ≠ [] := by
    obtain ⟨n, l, rfl⟩ := List.exists_cons_of_ne_nil hthere.name
    have hn := hthere.plain n List.mem_cons_self
    show n ++ absolute l ≠ []
    simp [hn.1]
  have hasked : asked c (relative c m.resource) = (absolute ns).drop 1 := by
    unfold asked; rw [hrel, if_neg hne]
  have hload : loaded (dirCalls R ds) = [noSlash R] := rfl
  have hr := go_runs w s0 steps
  have hrec : (go w s0 steps).receivers w now m = [.handler (noSlash R) m] := by
    rw [site_receivers hup steps now m hv, if_pos hpass]
    refine dispatch_handler hup (by intro id hid; rw [hload, List.mem_singleton] at hid; rw [hid, hR]) hr m ?_
    exact ⟨by rw [hload]; exact List.mem_cons_self, by rw [he]; exact covers_below _ _, fun id hid _ => by
      rw [hload, List.mem_singleton] at hid; rw [hid]⟩
  have hnew : m.headers.get w.auth.ord (b! "If-Modified-Since") ≠ w.date f.mtime := by
    unfold Dict.get
    cases hf : Dict.find? w.auth.ord m.headers (b! "If-Modified-Since") with
    | none => exact fun h => hthere.dated h.symm
    | some v =>
      obtain ⟨n, hn⟩ := find?_mem hord hf
      exact hask.noCopy v (by rw [values_eq]; exact List.mem_map.2 ⟨_, hn, rfl⟩)
  have := served_file hw ht hbyte hup hr (fun fs hfs => hthere.readable fs (List.mem_reverse.1 hfs)) (id := noSlash R) (c := c)
    ⟨R, rfl, List.mem_cons_self⟩
    (by
      have : optionsOf (noSlash R) (dirCalls R ds) = [(b! "directory", absolute ds)] := by
        unfold optionsOf dirCalls
        simp
      rw [this]
      unfold settings
      rw [set_directory w fs h0 hd hx]
      rfl)
    (FileLookup.absolute_last h0 hd) (Nat.le_refl 1) (.inl rfl) m hask.get (path := absolute (ds ++ ns)) (by rw [hrel]; exact k1) (f := f)
    (by rw [hrel, k2]; exact hthere.file) hnew
    (by rw [hrel, k2]; exact fun _ fs hfs => hthere.stable fs (List.mem_reverse.1 hfs))
    (by rw [hasked, k3]; exact k4) hthere.date hcl hthere.size hmax now lc hrec
  rw [hasked, k3] at this
  have hno : UntilClose c.maxChunk m.verMajor m.verMinor f.content.length ↔ False := by
    refine ⟨fun h => absurd h.2.1 (Nat.lt_irrefl 0), False.elim⟩
  rw [propext hno] at this
  exact this

/-- What is sent for a request that the authenticator does not let pass. -/
theorem kept_out (hup : SetsUp w fs (dirCalls R ds) (.cookie t0 (setting U P R)) s0) {steps : List Step} {m : Msg} (hv : m.isValid = true)
    {now : Nat} {reply : Reply} (hreply : cookieReply w.auth {} m
      (CookieAuth.handle w.gen w.auth now (sessionAuth w t0 (setting U P R ++ requests steps)) m).1 = some reply) (lc : Lifecycle) :
    (go w s0 steps).request w now m lc =
      (some (reply.writer w.table m lc), { go w s0 steps with guard := (go w s0 steps).guard.saw now m }) := by
  have hpass : ¬ (CookieAuth.handle w.gen w.auth now (sessionAuth w t0 (setting U P R ++ requests steps)) m).1.pass = true := by
    intro hp
    cases hv : (CookieAuth.handle w.gen w.auth now (sessionAuth w t0 (setting U P R ++ requests steps)) m).1 <;> rw [hv] at hp hreply <;> cases hp <;> cases hreply
  have hrec := site_receivers hup steps now m hv
  rw [if_neg hpass] at hrec
  have href : (go w s0 steps).refusal w now m = reply := by
    unfold Site.refusal
    rw [site_session hup steps]
    dsimp only
    rw [hreply]; rfl
  unfold Site.request
  simp only [hrec, href]

theorem denied (ht : w.table.Ok) (hup : SetsUp w fs (dirCalls R ds) (.cookie t0 (setting U P R)) s0) {steps : List Step} {m : Msg}
    (hv : m.isValid = true) (hhead : m.method ≠ b! "HEAD") {now : Nat}
    (hun : (CookieAuth.handle w.gen w.auth now (sessionAuth w t0 (setting U P R ++ requests steps)) m).1 = .unauthorized) :
    Denied w (go w s0 steps) now m := by
  intro cfg m0 hcl hmax lc
  rw [kept_out hup hv (by rw [hun]; rfl) lc]
  refine ⟨rfl, _, rfl, fun _ tail bufs hcut => ?_, False.elim⟩
  have hpage : (page cookieUnauthorized).length ≤ 1000 := by decide +kernel
  obtain ⟨r, k1, k2, k3, k4, k5⟩ := Responses.reply_received_partial cfg hcl.isResponse m0 hcl.blank hcl.order hcl.wholeMessages hcl.noHandler
    w.table ht m lc _ (Responses.builtin_sendable .cookieUnauthorized) hcl.method hhead
    (by omega) (by omega) tail bufs hcut
  exact ⟨r, k1, k2, k3, k4, k5.code⟩

theorem login_works (hw : FilesOk w) (ht : w.table.Ok) (hbyte : ∀ x, w.byte (some x) = x) (hb : Spec.Users.Digests w.auth.build)
    (hup : SetsUp w fs (dirCalls R ds) (.cookie t0 (setting U P R)) s0) (hR : noSlash (noSlash R) = noSlash R)
    (h0 : ds ≠ []) (hd : ∀ n ∈ ds, Plain n) {x : Bool} (hx : fs ds = some (.dir x)) : LoginWorks w s0 t0 U P R ds := by
  intro scfg ccfg ct wire before now m body p hl hp hnew hwm hq login hlogin ka
  have hord : Http.OrderOk w.auth.ord := by rw [wire.order]; exact wire.toServer.order
  have hu : (Users.getUserPw w.auth.build (Spec.Auth.usersOf w.auth (Spec.CookieAuth.history (setting U P R ++ requests before))) U p).isSome = true := by
    rw [history_users, user_fits hb]
    exact ⟨rfl, hp⟩
  have hstart : Arrives scfg ct ka login fun r => CookieSession.SessionStarts w.gen w.auth scfg ccfg w.table ct {} t0 t0
      (setting U P R ++ requests before) now r U ∧ r.isValid = true := by
    cases hlogin with
    | query hmax hf hs =>
      exact CookieSession.Arrives.and (CookieSession.login_by_query w.gen w.auth scfg ccfg w.table ct wire {} t0 t0 _ now m body U p ka hl hu hnew hwm hmax hf hq hs)
        ((arrives_valid scfg wire.server ct wire.toServer ka _ body (query_line_writable ct m body hwm hs) hmax).mono fun _ h => h.1)
    | form hline hs =>
      exact CookieSession.Arrives.and (CookieSession.login_by_form w.gen w.auth scfg ccfg w.table ct wire {} t0 t0 _ now m body U p ka hl hu hnew hwm hline hq hs)
        ((arrives_valid scfg wire.server ct wire.toServer ka _ _ (postForm_writable ct m body hwm (by have := wire.toServer.max; omega)) hs).mono fun _ h => h.1)
  refine hstart.mono ?_
  rintro r ⟨⟨reply, hreply, harr⟩, hv⟩ lc
  refine ⟨reply.writer w.table r lc, by rw [kept_out hup hv hreply lc], fun old tail bufs hcut => ?_⟩
  obtain ⟨o, g1, g2, g3, g4, hid, later⟩ := harr lc old tail bufs hcut
  refine ⟨o, g1, g2, g3, g4, hid, ?_⟩
  intro after now' hstay hclock htime ns f hthere q qbody ka' hask hck hnoc hwq hfit
  have hall : requests (before ++ .request now r lc :: after) = requests before ++ .request now r :: requests after := by
    rw [requests_append]; rfl
  have hsteps : setting U P R ++ requests (before ++ .request now r lc :: after) =
      (setting U P R ++ requests before) ++ .request now r :: requests after := by rw [hall, List.append_assoc]
  have hcov : Covers (noSlash R) (noSlash q.resource) := by
    obtain ⟨enc, he, -⟩ := hask.path
    rw [he]; exact covers_below _ _
  have huser := later (requests after) now' q qbody ka' (fun c hc => no_logout (hstay c hc))
    (by rw [← hsteps]; exact history_clock U P R hclock) htime hwq hfit hnoc hck
    (by rw [← hsteps]; exact history_protected hb hask.noLogin hask.noLogout hcov)
  refine (CookieSession.Arrives.and huser (arrives_valid scfg wire.server ct wire.toServer ka' q qbody hwq hfit)).mono ?_
  rintro r' ⟨h1, h2, h3⟩
  have hline : r'.method = q.method ∧ r'.resource = q.resource := ⟨h3.firstLine.1, h3.firstLine.2.1⟩
  refine passed_file hw ht hbyte hord hup hR h0 hd hx hthere h2
    ⟨hline.1.trans hask.get, by rw [hline.2]; exact hask.path, by rw [hline.2]; exact hask.noLogin, by rw [hline.2]; exact hask.noLogout, ?_⟩ ?_
  · intro v hvv
    refine hask.noCopy v ?_
    rw [values_eq] at hvv ⊢
    exact ((h3.others (b! "If-Modified-Since") (by decide +kernel) (by decide +kernel) (by decide +kernel)).map _).subset hvv
  · unfold sessionAuth
    rw [hsteps, Verif.Lemmas.CookieSession.after_append, h1]
    rfl

/-- The authenticator's view of a request that has no session. -/
theorem unauthorized {o : Auth.Opts} {e : Auth.Env} {h : List Auth.Event} {now : Nat} {rand : Bytes} {m : Msg} (ho : o.redirect = [])
    (hl : noSlash m.resource ≠ o.login) (hl2 : noSlash m.resource ≠ o.logout)
    (hp : (Auth.cookie e o now rand (Auth.cookieAfter e o t0 h) m).1.pass = false) :
    (Auth.cookie e o now rand (Auth.cookieAfter e o t0 h) m).1 = .unauthorized := by
  revert hp
  unfold Auth.cookie Auth.processLogin Auth.cookieCheck Auth.cookieRefuse
  dsimp only
  rw [Verif.Server.stripSlash_eq, if_pos ⟨hl, hl2⟩, ho]
  dsimp only
  repeat' split
  all_goals first | exact fun _ => rfl | (intro h; cases h; done) | exact absurd rfl ‹¬ ([] : Bytes).isEmpty = true›

/-- The login page answers itself. -/
theorem login_page {o : Auth.Opts} {e : Auth.Env} {m : Msg} (ho : o.redirect = []) (hl : noSlash m.resource = o.login) (now : Nat) (rand : Bytes)
    (s : Auth.St) : (Auth.cookie e o now rand s m).1 = .unauthorized ∨ ∃ c, (Auth.cookie e o now rand s m).1 = .loggedIn c := by
  unfold Auth.cookie Auth.processLogin Auth.cookieRefuse
  dsimp only
  rw [Verif.Server.stripSlash_eq, if_neg (fun h => h.1 hl), if_pos hl, ho]
  cases Users.getUserPw e.build s.users (m.queries.get e.ord (b! "user")) (m.queries.get e.ord (b! "pass")) with
  | none => exact .inl rfl
  | some u => exact .inr ⟨_, rfl⟩

theorem others_denied (ht : w.table.Ok) (hb : Spec.Users.Digests w.auth.build)
    (hup : SetsUp w fs (dirCalls R ds) (.cookie t0 (setting U P R)) s0) : OthersDenied w s0 t0 U P R := by
  intro steps scfg sm hs q hq hhead now
  obtain ⟨h0, h1⟩ := Conversation.request_reads scfg sm hs.blank hs.order hs.isRequest hs.wholeMessages hs.noHandler q hq
  refine ⟨h0, fun tail bufs hcut => ?_⟩
  obtain ⟨o, ho, g1, g2, g3, g4⟩ := h1 tail bufs hcut
  refine ⟨o, ho, g1, g2, g3, ?_, ?_⟩
  all_goals
    have l1 : o.message.method = q.method := g4.line.1
    have l2 : o.message.resource = q.resource := g4.line.2.1
    rw [← l2]
    have hst : ∀ m, (CookieAuth.handle w.gen w.auth now (sessionAuth w t0 (setting U P R ++ requests steps)) m).1 =
        (Auth.cookie w.auth {} now (CookieAuth.draw w.gen (sessionAuth w t0 (setting U P R ++ requests steps)))
          (Auth.cookieAfter w.auth {} t0 (Verif.Lemmas.CookieSession.events w.gen w.auth (CookieAuth.create t0 t0 {}) (setting U P R ++ requests steps))) m).1 := by
      intro m
      show (Auth.cookie w.auth (sessionAuth w t0 (setting U P R ++ requests steps)).opts now _ (sessionAuth w t0 (setting U P R ++ requests steps)).st m).1 = _
      unfold sessionAuth
      rw [(Verif.Lemmas.CookieSession.after_same w.gen w.auth _ _).1, Verif.Lemmas.CookieSession.after_create]
      rfl
  · intro hcov hn1 hn2 hno
    refine denied ht hup g4.valid (by rw [l1]; exact hhead) ?_
    rw [hst]
    refine unauthorized rfl hn1 hn2 (Props.Auth.cookie_no_session _ _ _ _ _ _ _ ?_ fun name hses => hno (session_real hb hses))
    exact (Verif.Lemmas.CookieSession.alike_events w.gen w.auth _ _).protected (history_protected hb hn1 hn2 hcov)
  · intro hlog hnot
    refine denied ht hup g4.valid (by rw [l1]; exact hhead) ?_
    rw [hst]
    cases hv : (Auth.cookie w.auth {} now (CookieAuth.draw w.gen (sessionAuth w t0 (setting U P R ++ requests steps)))
          (Auth.cookieAfter w.auth {} t0 (Verif.Lemmas.CookieSession.events w.gen w.auth (CookieAuth.create t0 t0 {}) (setting U P R ++ requests steps))) o.message).1 with
    | unauthorized => rfl
    | loggedIn c =>
      exfalso
      obtain ⟨-, name, hl⟩ := Props.Auth.login_correct _ _ _ _ _ _ _ _ hv
      have hl : Spec.Auth.LogsIn w.auth {} (Spec.CookieAuth.history (setting U P R ++ requests steps)) o.message name := by
        obtain ⟨k1, k2, k3⟩ := hl
        exact ⟨k1, k2, by rw [← (Verif.Lemmas.CookieSession.alike_events w.gen w.auth _ (CookieAuth.create t0 t0 {})).usersOf]; exact k3⟩
      exact hnot ((logs_in hb).1 hl).2
    | _ =>
      rcases login_page (e := w.auth) (o := {}) rfl hlog _ _ _ with h | ⟨c, h⟩ <;> rw [h] at hv <;> cases hv

/-- **C104 is violated: whoever knows when the server was started can have the files.** A request that carries the identifier of
    a session gets the file, whoever sent it. The identifier is a function of the second in which the server was started and of the
    number of logins before, so that it need not have been received from the server. -/
theorem guessed (hw : FilesOk w) (ht : w.table.Ok) (hbyte : ∀ x, w.byte (some x) = x) (hb : Spec.Users.Digests w.auth.build)
    (hord : Http.OrderOk w.auth.ord) (hup : SetsUp w fs (dirCalls R ds) (.cookie t0 (setting U P R)) s0) (hR : noSlash (noSlash R) = noSlash R)
    (h0 : ds ≠ []) (hd : ∀ n ∈ ds, Plain n) {x : Bool} (hx : fs ds = some (.dir x)) (before after : List Step) (now now' : Nat) (r m : Msg)
    (lc : Lifecycle) (hlog : Login w U P r) (hnew : Unrepeated w.gen t0 (opened w t0 U P R before))
    (hck : Auth.sessionCookie w.auth m = Spec.CookieAuth.identifier w.gen t0 (opened w t0 U P R before))
    (hstay : Stays w (Auth.sessionCookie w.auth m) after) (hclock : Forward t0 (before ++ .request now r lc :: after) now')
    (htime : now' ≤ now + 3600) {ns : Place} {f : File} (hthere : There w s0 (before ++ .request now r lc :: after) ds ns f)
    (hv : m.isValid = true) (hask : AsksFor w (noSlash R) ns f m) :
    SendsFile w (go w s0 (before ++ .request now r lc :: after)) now' m ns f := by
  have hsteps : setting U P R ++ requests (before ++ .request now r lc :: after) =
      (setting U P R ++ requests before) ++ .request now r :: requests after := by
    rw [requests_append, List.append_assoc]; rfl
  have hcov : Covers (noSlash R) (noSlash m.resource) := by
    obtain ⟨enc, he, -⟩ := hask.path
    rw [he]; exact covers_below _ _
  refine passed_file hw ht hbyte hord hup hR h0 hd hx hthere hv hask ?_
  unfold sessionAuth
  rw [hsteps, CookieSession.identifier_accepted w.gen w.auth {} t0 t0 (setting U P R ++ requests before) (requests after) now now' r m U
    ((logs_in hb).2 ⟨rfl, hlog⟩) hnew (by
      have := no_logout hstay
      rw [hck] at this
      exact this)
    (by rw [← hsteps]; exact history_clock U P R hclock) htime
    (by rw [← hsteps]; exact history_protected hb hask.noLogin hask.noLogout hcov) hck]
  rfl

/-- **C104 is violated: what has the name of the login page cannot be had.** A request for `/login` never gets to a service, whoever
    sends it and whatever happened: a file of that name in a directory that is served as `/` can be downloaded by nobody. -/
theorem login_hides (hup : SetsUp w fs (dirCalls R ds) (.cookie t0 (setting U P R)) s0) (steps : List Step) (now : Nat) (m : Msg)
    (hv : m.isValid = true) (hl : noSlash m.resource = b! "/login") : (go w s0 steps).receivers w now m = [.refused] := by
  rw [site_receivers hup steps now m hv, if_neg]
  show ¬ (Auth.cookie w.auth (sessionAuth w t0 (setting U P R ++ requests steps)).opts now _ _ m).1.pass = true
  have ho : (sessionAuth w t0 (setting U P R ++ requests steps)).opts = {} := (Verif.Lemmas.CookieSession.after_same w.gen w.auth _ _).1
  rw [ho]
  rcases login_page (e := w.auth) (o := {}) rfl hl now _ _ with h | ⟨c, h⟩ <;> rw [h] <;> exact fun h => nomatch h

end

/-- **C104 (a directory behind a login page; partial: `There`, `AsksFor` and `LoginParameters` say which files, requests and
    passwords; see `guessed` and `login_hides`).** With a configuration file that asks for cookies, has one user, restricts a resource and
    loads a file service with a directory for it: the server is set up. Whoever logs in with the name and the password of the
    user gets the files (`LoginWorks`), and whoever has not is denied (`OthersDenied`). -/
theorem piond_login_partial (w : World) (hw : FilesOk w) (ht : w.table.Ok) (hbyte : ∀ x, w.byte (some x) = x)
    (hopen : w.opens (b! "FileService") = true) (hb : Spec.Users.Digests w.auth.build) (args : Piond.World) (now : Nat) (fs : Fs)
    {ds : Place} (h0 : ds ≠ []) (hd : ∀ n ∈ ds, Plain n) {x : Bool} (hx : fs ds = some (.dir x)) (U P R : Bytes)
    (hok : ∀ c ∈ guarded .cookie U P R ds, c.Ok) (hR : noSlash (noSlash R) = noSlash R)
    (file : Bytes) (hfile : file ≠ []) (htext : w.configs file = some (Spec.Config.written (guarded .cookie U P R ds))) :
    ∃ s0, piond w args now fs [b! "-c", file] = some s0 ∧ SetsUp w fs (dirCalls R ds) (.cookie now (setting U P R)) s0 ∧
      LoginWorks w s0 now U P R ds ∧ OthersDenied w s0 now U P R := by
  obtain ⟨s0, hs0⟩ := dir_sets_up w hopen fs h0 hd hx R (guardOf now (some { kind := .cookie, users := [(U, P)], restrict := [R] }))
  refine ⟨s0, (piond_sets_up ..).2 ⟨Spec.Piond.meaning [.config file] .nothing, (Piond.understood ..).2 ⟨[.config file], .nothing, ?_, trivial, rfl, rfl,
    .inl hfile⟩, .inr ⟨hfile, _, _, _, htext, guarded_loads .cookie hs0 hok, hs0⟩⟩, hs0, ?_, ?_⟩
  · intro f hf; cases List.mem_singleton.1 hf; trivial
  · exact login_works hw ht hbyte hb hs0 hR h0 hd hx
  · exact others_denied ht hb hs0

/-! ### The conditions are met -/

def loginText : Bytes :=
  b! "auth cookie\nuser bob s3 cret\nrestrict /files\nservice /files FileService\noption /files directory=/var/www\n"

/-- The world of C91's example, with another configuration file. -/
def loginWorld : World := { exampleWorld with configs := fun f => if f = b! "/etc/pion.conf" then some loginText else none }

theorem loginText_written : loginText = Spec.Config.written (guarded .cookie (b! "bob") (b! "s3 cret") (b! "/files") [b! "var", b! "www"]) := by
  decide +kernel

/-- bob's login: `/login/?user=bob&pass=s3+cret`. -/
def bobsLogin : Msg := { resource := b! "/login/", queries := [(b! "user", b! "bob"), (b! "pass", b! "s3 cret")] }

/-- A request for the example's file, with one of its letters escaped. -/
def askPage (cookies : Dict) : Msg := { resource := b! "/files/ind%65x.html", cookies := cookies }

private theorem login_writable : Writable true bobsLogin [] where
  headOk := (⟨⟨by decide +kernel, by decide +kernel, by decide +kernel⟩, by unfold Http.uriChar; decide +kernel,
    by decide +kernel, by unfold Http.queryChar; decide +kernel, by decide +kernel, by decide +kernel, by decide +kernel⟩ :
    Http.RequestLineOk bobsLogin.method bobsLogin.resource bobsLogin.queryString bobsLogin.verMajor bobsLogin.verMinor)
  headersOk := nofun
  cookiesOk := nofun
  content := rfl
  contentLength := rfl
  size := by decide +kernel
  sendsLength := rfl
  notChunked := nofun
  bodyAllowed := nofun

private theorem page_writable : Writable true (askPage [(b! "pion_session_id", Spec.CookieAuth.identifier loginWorld.gen 0 0)]) [] where
  headOk := (⟨⟨by decide +kernel, by decide +kernel, by decide +kernel⟩, by unfold Http.uriChar; decide +kernel,
    by decide +kernel, by unfold Http.queryChar; decide +kernel, by decide +kernel, by decide +kernel, by decide +kernel⟩ :
    Http.RequestLineOk (askPage []).method (askPage []).resource (askPage []).queryString (askPage []).verMajor (askPage []).verMinor)
  headersOk := nofun
  cookiesOk := by
    intro e he
    cases List.mem_singleton.1 he
    exact ⟨⟨by decide +kernel, by decide +kernel, by decide +kernel⟩, by unfold Http.valueChar; decide +kernel, by decide +kernel⟩
  content := rfl
  contentLength := rfl
  size := by decide +kernel
  sendsLength := rfl
  notChunked := nofun
  bodyAllowed := nofun

private theorem login_commands : ∀ c ∈ guarded .cookie (b! "bob") (b! "s3 cret") (b! "/files") [b! "var", b! "www"], c.Ok := by
  intro c hc
  simp only [guarded, List.mem_cons, List.not_mem_nil, or_false] at hc
  rcases hc with rfl | rfl | rfl | rfl | rfl
  · trivial
  · exact ⟨⟨by decide +kernel, by decide +kernel⟩, ⟨_, _, rfl, by decide +kernel⟩, by decide +kernel⟩
  · exact ⟨⟨_, _, rfl, by decide +kernel⟩, by decide +kernel⟩
  · exact ⟨⟨by decide +kernel, by decide +kernel⟩, ⟨_, _, rfl, by decide +kernel⟩, by decide +kernel⟩
  · exact ⟨⟨by decide +kernel, by decide +kernel⟩, ⟨⟨_, _, rfl, by decide +kernel⟩, by decide +kernel⟩, by decide +kernel⟩

/-- The file of the example. -/
def indexFile : File := { content := b! "hello", mtime := 1000 }

private theorem refused_fs {w : World} {fs : Fs} {s0 : Site} {t0 : Nat} {U P R : Bytes} {ds : Place}
    (hup : SetsUp w fs (dirCalls R ds) (.cookie t0 (setting U P R)) s0) (r : Msg) (hr : noSlash r.resource = b! "/login") (now : Nat) (lc : Lifecycle) :
    (s0.request w now r lc).2.fs = s0.fs := by
  by_cases hv : r.isValid = true
  · have := login_hides hup [] now r hv hr
    rw [show go w s0 [] = s0 from rfl] at this
    unfold Site.request
    simp only [this]
  · have : s0.receivers w now r = [.finish] := by
      unfold Site.receivers
      rw [site_guard hup]
      dsimp only
      unfold handleRequest
      rw [if_pos (by simp [hv])]
    unfold Site.request
    simp only [this]

private theorem example_there {s0 : Site} (hup : SetsUp loginWorld FileService.exampleFs (dirCalls (b! "/files") [b! "var", b! "www"])
      (.cookie 0 (setting (b! "bob") (b! "s3 cret") (b! "/files"))) s0) (r : Msg) (hres : r.resource = b! "/login/") (lc : Lifecycle) :
    There loginWorld s0 ([] ++ [.request 10 r lc]) [b! "var", b! "www"] [b! "index.html"] indexFile := by
  have hfs0 : s0.fs = FileService.exampleFs := start_fs hup
  have hfs : (s0.request loginWorld 10 r lc).2.fs = FileService.exampleFs := by
    rw [refused_fs hup r (by rw [hres]; decide +kernel), hfs0]
  have hstates : states loginWorld s0 ([] ++ [.request 10 r lc]) = [FileService.exampleFs, FileService.exampleFs] := by
    show [s0.fs, (s0.request loginWorld 10 r lc).2.fs] = _
    rw [hfs, hfs0]
  refine ⟨by simp, by intro n hn; cases List.mem_singleton.1 hn; decide +kernel, by
      show (s0.request loginWorld 10 r lc).2.fs _ = _
      rw [hfs]; decide +kernel, ?_, ?_,
    Verif.Props.Responses.headerOk_of (by decide +kernel) (Verif.Props.Responses.valueChar_of (by decide +kernel)) (by decide +kernel),
    by show b! "Thu, 01 Jan 1970 00:16:40 GMT" ≠ []; decide, by decide +kernel⟩
  · rw [hstates]
    intro fs hfs
    exact example_readable rfl fs (by simpa using hfs)
  · rw [hstates]
    intro fs hfs g hg _ _
    have : fs = FileService.exampleFs := by simpa using hfs
    subst this
    have : FileService.exampleFs ([b! "var", b! "www"] ++ [b! "index.html"]) = some (.file indexFile) := by decide +kernel
    cases this.symm.trans hg; rfl

/-- `piond -c /etc/pion.conf`: bob logs in in the second 10, and in the second 3000 bob has the file; somebody who has not logged
    in does not get it. -/
theorem example_session (args : Piond.World) : ∃ s0,
    piond loginWorld args 0 FileService.exampleFs [b! "-c", b! "/etc/pion.conf"] = some s0 ∧
    (Arrives { isRequest := true } {} true (bobsLogin.useQueriesForQueryString {}) fun r => ∀ lc, ∃ answer,
      (s0.request loginWorld 10 r lc).1 = some answer ∧ AnswerArrives { isRequest := false } answer fun ans =>
        Arrives { isRequest := true } {} true (askPage ans.cookies) fun r' =>
          SendsFile loginWorld (s0.request loginWorld 10 r lc).2 3000 r' [b! "index.html"] indexFile) ∧
    Conversation.Reads Conversation.scfg {} (askIndex []).bytes fun m => Auth.sessionCookie loginWorld.auth m = [] →
      Denied loginWorld s0 3000 m := by
  obtain ⟨s0, h1, hup, h2, h3⟩ := piond_login_partial loginWorld nofun (fun d => .refl d) (fun _ => rfl) (by decide +kernel) (Users.toy_digests false)
    args 0 FileService.exampleFs (ds := [b! "var", b! "www"]) (by simp) (by decide +kernel) (x := true) (by decide +kernel)
    (b! "bob") (b! "s3 cret") (b! "/files") login_commands
    (by decide) (b! "/etc/pion.conf") (by decide) (by
      show some loginText = _
      rw [loginText_written])
  refine ⟨s0, h1, ?_, ?_⟩
  · have hlog := h2 _ _ _ CookieSession.wire [] 10 bobsLogin [] (b! "s3 cret")
      ⟨by decide +kernel, by decide +kernel, by decide +kernel, by
        have : bobsLogin.queries.values (b! "url") = [] := by decide +kernel
        rw [this]; nofun⟩
      (by unfold Right Spec.Users.ofPassword; split <;> rfl) (fun k hk => absurd hk (by
        have : opened loginWorld 0 (b! "bob") (b! "s3 cret") (b! "/files") [] = 0 := by decide +kernel
        rw [this]; omega)) login_writable (by
        intro x hx
        simp only [bobsLogin, List.mem_cons, List.not_mem_nil, or_false] at hx
        rcases hx with rfl | rfl <;> exact ⟨by decide +kernel, by decide +kernel, by decide +kernel, by decide +kernel, by decide +kernel⟩) _ (.query (by simp) nofun (by decide +kernel)) true
    have hres := (arrives_valid { isRequest := true } rfl {} CookieSession.wire.toServer true (bobsLogin.useQueriesForQueryString {}) []
      (query_line_writable {} _ _ login_writable (by decide +kernel)) (by simp)).mono fun r h => (h.2.firstLine.2.1 : r.resource = b! "/login/")
    refine (CookieSession.Arrives.and hlog hres).mono ?_
    rintro r ⟨hr, hres⟩ lc
    obtain ⟨answer, k1, k2⟩ := hr lc
    refine ⟨answer, k1, fun old tail bufs hcut => ?_⟩
    obtain ⟨o, g1, g2, g3, g4, hck, later⟩ := k2 old tail bufs hcut
    refine ⟨o, g1, g2, g3, g4, ?_⟩
    have hid : next loginWorld 0 (b! "bob") (b! "s3 cret") (b! "/files") [] = Spec.CookieAuth.identifier loginWorld.gen 0 0 := by decide +kernel
    rw [hid] at hck
    exact later [] 3000 (fun _ _ _ _ _ h => nomatch h) (by show List.Pairwise _ [0, 10, 3000]; decide) (by omega) [b! "index.html"] indexFile
      (example_there hup r hres lc) (askPage o.message.cookies) [] true
      ⟨rfl, ⟨b! "ind%65x.html", by show b! "/files/ind%65x.html" = _; decide +kernel, by decide +kernel⟩,
        (by decide +kernel : noSlash (b! "/files/ind%65x.html") ≠ b! "/login"), (by decide +kernel : noSlash (b! "/files/ind%65x.html") ≠ b! "/logout"), nofun⟩
      rfl rfl (by rw [hck]; exact page_writable) (by simp)
  · obtain ⟨k0, k⟩ := h3 [] _ _ (show Server loginWorld Conversation.scfg {} from ⟨⟨rfl, rfl, rfl, rfl⟩, fun l => .refl l, rfl, rfl, rfl, rfl⟩) (askIndex []) askIndex_ok.1 (by show b! "GET" ≠ _; decide) 3000
    refine ⟨k0, fun tail bufs hcut => ?_⟩
    obtain ⟨o, ho, g1, g2, g3, g4, -⟩ := k tail bufs hcut
    refine ⟨o, ho, g1, g2, g3, fun hno => g4 (.inr ⟨b! "ind%65x.html", by decide +kernel⟩) (by decide +kernel) (by decide +kernel) ?_⟩
    rintro ⟨before, now, m, lc, after, h, -⟩
    exact absurd h (by simp)

/-- What the server reads of bob's login, and of the request of somebody who was not told the identifier of bob's session. -/
def bobsRequest : Msg := { bobsLogin with isValid := true }
def thiefsRequest : Msg := { askPage [(b! "pion_session_id", b! "AAAAAAAAAAAAAAAAAAAAAAAAAAA=")] with isValid := true }

/-- The thief has the file. (The random numbers of the example are all 0.) -/
theorem example_guessed (args : Piond.World) (lc : Lifecycle) : ∃ s0,
    piond loginWorld args 0 FileService.exampleFs [b! "-c", b! "/etc/pion.conf"] = some s0 ∧
    SendsFile loginWorld (s0.request loginWorld 10 bobsRequest lc).2 3000 thiefsRequest [b! "index.html"] indexFile := by
  obtain ⟨s0, h1, hup, -, -⟩ := piond_login_partial loginWorld nofun (fun d => .refl d) (fun _ => rfl) (by decide +kernel) (Users.toy_digests false)
    args 0 FileService.exampleFs (ds := [b! "var", b! "www"]) (by simp) (by decide +kernel) (x := true) (by decide +kernel)
    (b! "bob") (b! "s3 cret") (b! "/files") login_commands
    (by decide) (b! "/etc/pion.conf") (by decide) (by
      show some loginText = _
      rw [loginText_written])
  have hopened : opened loginWorld 0 (b! "bob") (b! "s3 cret") (b! "/files") [] = 0 := by decide +kernel
  refine ⟨s0, h1, guessed (w := loginWorld) nofun (fun d => .refl d) (fun _ => rfl) (Users.toy_digests false) (fun l => .refl l) hup (by decide) (by simp)
    (by decide +kernel) (x := true) (by decide +kernel) [] [] 10 3000 bobsRequest thiefsRequest lc
    ⟨by decide +kernel, by decide +kernel, ?_⟩ (fun k hk => absurd hk (by rw [hopened]; omega)) (by rw [hopened]; decide +kernel)
    (fun _ _ _ h => nomatch h) (by show List.Pairwise _ [0, 10, 3000]; decide) (by omega) (example_there hup bobsRequest rfl lc) rfl
    ⟨rfl, ⟨b! "ind%65x.html", by decide +kernel, by decide +kernel⟩, by decide +kernel, by decide +kernel, nofun⟩⟩
  have : bobsRequest.queries.get loginWorld.auth.ord (b! "pass") = b! "s3 cret" := by decide +kernel
  rw [this]
  unfold Right Spec.Users.ofPassword; split <;> rfl

end Verif.Props.CookieSite
