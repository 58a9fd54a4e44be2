import Verif.Lemmas.CookieSession
import Verif.Props.MessageBuild
import Verif.Props.Responses
/-
C88: a session over the wire, and which session identifiers there are.
-/
namespace Verif.Props.CookieSession
open Verif.Auth hiding after
open Verif.CookieAuth Verif.Spec.CookieAuth Verif.Spec.Auth Verif.Spec.Paths Verif.Lemmas.CookieSession
open Verif.Http hiding run
open Verif.Responses Verif.Spec.Writer Verif.Writer Verif.Props.Writer Verif.Props.Responses Verif.Props.MessageBuild Verif.Spec.MessageBuild Verif.Props.Message
open Verif.Spec.Cookie Verif.Spec.Dispatch Verif.Props.Dict Verif.Props.HttpBody Verif.UrlCodec Verif.Query Verif.Props.Query Verif.Props.HttpFraming Verif.Server

/-- However the connection cuts the answer `r` to the request `req` and whatever follows, the client (which does not wait for
    the answer to a HEAD request) gets a message with `P`. -/
def AnswerArrives (ccfg : Cfg) (t : TableOrder) (req : Msg) (lc : Lifecycle) (r : Reply) (P : Msg → Prop) : Prop :=
  ∀ (old : Msg) (tail : Bytes) (bufs : List Bytes), Cuts bufs ((r.writer t req lc).wire ++ tail) →
    ∃ o, outcome ccfg (fresh ccfg (old.clear ccfg.isRequest)) bufs = some o ∧ o.result = .yes ∧ o.error = none ∧
      o.unread = tail ∧ P o.message

/-- Server and client: how they parse, and in which order their tables keep entries. -/
structure Wire (e : Env) (cfg ccfg : Cfg) (t ct : TableOrder) : Prop where
  server : cfg.isRequest = true
  client : ccfg.isRequest = false
  toServer : Link cfg ct
  toClient : Link ccfg t
  order : e.ord = cfg.ord
  room : 1000 ≤ ccfg.maxContent

/-- The answer with one cookie. -/
theorem answer_cookie {ccfg : Cfg} (hc : ccfg.isRequest = false) {t : TableOrder} (l : Link ccfg t) (req : Msg) (lc : Lifecycle)
    (r : Reply) (hr : Sendable r) (hs : (page r).length ≤ ccfg.maxContent) (h0 : Dict) (hno : h0.values (b! "Set-Cookie") = [])
    (c : SetCookie) (ok : c.Ok)
    (hh : r.headers = h0 ++ [(b! "Set-Cookie", Msg.setCookieHeader c.name c.value c.path c.maxAge)]) :
    AnswerArrives ccfg t req lc r fun a => a.statusCode = r.code ∧ a.content = (page r).map some ∧
      a.cookies = [(c.name, c.value)] := by
  obtain ⟨h1, h2, h3, h4, h5⟩ := responseTo_facts req
  let w : W := { newResponseWriterFor req lc with
    msg := { responseTo req with statusCode := r.code, statusMessage := r.text, headers := r.headers } }
  have hi : Initial w [] := ⟨⟨rfl, fun _ => rfl⟩, rfl, rfl, rfl, rfl, rfl⟩
  obtain ⟨m', htr⟩ := send_eq_transmit t w [] hi r.writes hr.writes (.inr h1)
  rw [List.nil_append] at htr
  let m0 : Msg := { responseTo req with
    statusCode := r.code, statusMessage := r.text, headers := h0, contentLength := (page r).length, content := (page r).map some }
  have hm : ({ w.msg with contentLength := (written r.writes).length, content := (written r.writes).map some } : Msg) =
      setAll m0 [c] := by
    rw [setAll_eq]
    show ({ responseTo req with
      statusCode := r.code, statusMessage := r.text, headers := r.headers, contentLength := (page r).length, content := (page r).map some } : Msg) = _
    rw [hh]
    rfl
  have hmem : ∀ x ∈ h0, x ∈ r.headers := fun x hx => by rw [hh]; exact List.mem_append_left _ hx
  have hw : Writable false m0 (page r) := by
    refine ⟨⟨hr.text, hr.textSize, h4, h5, hr.code⟩, fun x hx => hr.headers x (hmem x hx), ?_, rfl, rfl, ?_, h3, ?_, ?_⟩
    · show ∀ c ∈ (responseTo req).cookies, _
      rw [h2]; simp
    · have := l.max; omega
    · intro x hx
      exact hr.notChunked x (List.mem_filter.2 ⟨hmem x (List.mem_filter.1 hx).1, (List.mem_filter.1 hx).2⟩)
    · intro h
      exact hr.allowed ((bodyless_response _ _ _ _ _).1 h |>.resolve_left (by decide))
  obtain ⟨m'', wire, ht, ha⟩ := response_cookies_received_partial ccfg hc t l (w.lifecycle != .close) m0 (page r) hw hs hno
    (by show ∀ c ∈ (responseTo req).cookies, _; rw [h2]; simp) [c] (by simpa using ok)
  rw [hc] at ht
  have hwire : (r.writer t req lc).wire = wire := by
    rw [hm] at htr
    have : w.isRequest = false := rfl
    rw [this, ht] at htr
    cases htr
    rfl
  intro old tail bufs hcut
  rw [hwire] at hcut
  obtain ⟨o, ho, a1, a2, a3, a4, a5⟩ := ha old tail bufs hcut
  refine ⟨o, ho, a1, a2, a3, a5.firstLine.1, a5.content, ?_⟩
  have hck : m0.cookies = [] := h2
  rw [hck, List.append_nil] at a4
  exact List.perm_singleton.1 a4

/-- The cookie of a session can be sent in both directions. -/
theorem identifier_cookie (x : Bytes) (hx : x.length ≤ 1000) :
    SetCookie.Ok { name := b! "pion_session_id", value := Base64.encode x, path := [] } ∧
    RequestCookie (b! "pion_session_id", Base64.encode x) := by
  obtain ⟨hlen, data, he, hd⟩ := Base64.base64_encode_shape x
  have hmem : ∀ c ∈ Base64.encode x, c ∈ Spec.Base64.alphabet ++ b! "=" := by
    intro c hc
    rw [he] at hc
    rcases List.mem_append.1 hc with h | h
    · exact List.mem_append_left _ (hd c h)
    · obtain ⟨-, rfl⟩ := List.mem_replicate.1 h
      exact List.mem_append_right _ (by decide +kernel)
  have hl : (Base64.encode x).length ≤ 2000 := by omega
  have hn : NameOk (b! "pion_session_id") := ⟨by decide, by decide +kernel, by decide +kernel⟩
  have hnl : (b! "pion_session_id").length = 15 := by decide +kernel
  refine ⟨⟨hn, ⟨?_, base64_valueChar x⟩, ⟨by dsimp only; decide +kernel, nofun, nofun⟩, by dsimp only; decide +kernel, nofun, ?_⟩,
    ⟨hn, ⟨?_, ?_, ?_⟩, by dsimp only; decide +kernel, ?_⟩⟩
  · intro h
    have := hmem _ h
    revert this; decide +kernel
  · simp only [hnl, List.length_nil]; omega
  · show (Base64.encode x).length ≤ 1048576
    omega
  · intro c hc
    have h := hmem c hc
    have all : ∀ c ∈ Spec.Base64.alphabet ++ b! "=", c ∉ b! ";," ∧ ctl c = false := by decide +kernel
    exact all c h
  · intro c hc
    have h := hmem c (List.mem_of_mem_head? (by simpa using hc))
    have all : ∀ c ∈ Spec.Base64.alphabet ++ b! "=", c ∉ b! " '\"" := by decide +kernel
    exact all c h
  · simp only [hnl]; omega

theorem Arrives.and {cfg : Cfg} {t : TableOrder} {ka : Bool} {m : Msg} {P Q : Msg → Prop} (h : Arrives cfg t ka m P)
    (h' : Arrives cfg t ka m Q) : Arrives cfg t ka m fun r => P r ∧ Q r := by
  obtain ⟨m1, w1, h1, h2⟩ := h
  obtain ⟨m2, w2, h3, h4⟩ := h'
  rw [h1] at h3
  cases h3
  refine ⟨m1, w1, h1, fun old tail bufs hc => ?_⟩
  obtain ⟨o, a, b, c, d, e⟩ := h2 old tail bufs hc
  obtain ⟨o', a', _, _, _, e'⟩ := h4 old tail bufs hc
  rw [a] at a'
  cases a'
  exact ⟨o, a, b, c, d, e, e'⟩

/-- What `u` gets who has logged in with the request `r`, which a server with these settings and this history received in the
    second `now`: an answer with the identifier as its cookie; and this, put into later requests for protected pages, makes the
    server recognise `u` for an hour, whatever others do, unless somebody logs this session out. -/
def SessionStarts (g : Gen) (e : Env) (cfg ccfg : Cfg) (t ct : TableOrder) (o : Opts) (start time : Nat) (calls : List Call)
    (now : Nat) (r : Msg) (u : Bytes) : Prop :=
  let a := after g e (create start time o) calls
  ∃ reply, cookieReply e o r (handle g e now a r).1 = some reply ∧ ∀ lc, AnswerArrives ccfg t r lc reply fun ans =>
    ans.cookies = [(b! "pion_session_id", identifier g time (sessions g e (create start time o) calls))] ∧
    ∀ (others : List Call) (now' : Nat) (q : Msg) (body : Bytes) (ka : Bool),
      (∀ c ∈ ans.cookies, NoLogout e o (history others) c.2) →
      Clock start (history (calls ++ .request now r :: others)) now' → now' ≤ now + 3600 →
      Writable true q body → body.length ≤ cfg.maxContent → q.headers.values (b! "Cookie") = [] → q.cookies = ans.cookies →
      Protected e o (history (calls ++ .request now r :: others)) q →
      Arrives cfg ct ka q fun r' => (handle g e now' (after g e a (.request now r :: others)) r').1 = .user u

theorem found_value {a b : Dict} (h : a.Perm b) (ord : Dict.Order) (ho : Http.OrderOk ord) (k v : Bytes)
    (hone : b.values k = [v]) : a.get ord k = v := by
  rw [values_eq] at hone
  obtain ⟨⟨n, v'⟩, hm, hv⟩ := List.map_eq_singleton_iff.1 hone
  cases hv
  exact found h ord ho k n v' hm

theorem protected_resource {e : Env} {o : Opts} {h : List Event} {q r : Msg} (hr : r.resource = q.resource)
    (hp : Protected e o h q) : Protected e o h r := by
  unfold Protected Needs at hp ⊢
  rw [hr]; exact hp

/-- The parameters of a login, and where to go afterwards. -/
structure LoginParameters (o : Opts) (m : Msg) (u p : Bytes) : Prop where
  page : noSlash m.resource = o.login
  user : m.queries.values (b! "user") = [u]
  pass : m.queries.values (b! "pass") = [p]
  /-- the page for afterwards, if there is one, can be written into a header -/
  url : ∀ v ∈ m.queries.values (b! "url"), (∀ c ∈ v, valueChar c) ∧ v.length ≤ 1048576

/-- **C88, whoever presents the identifier.** A request that carries the identifier of a session is taken for one of the user
    who has opened it, during the first hour and if the session was not logged out. Nothing else is looked at; the identifier
    is that of `identifiers_known`. -/
theorem identifier_accepted (g : Gen) (e : Env) (o : Opts) (start time : Nat) (calls others : List Call) (now now' : Nat)
    (r r' : Msg) (u : Bytes) (hlog : LogsIn e o (history calls) r u)
    (hnew : Unrepeated g time (sessions g e (create start time o) calls))
    (hno : NoLogout e o (history others) (identifier g time (sessions g e (create start time o) calls)))
    (hclock : Clock start (history (calls ++ .request now r :: others)) now') (htime : now' ≤ now + 3600)
    (hp : Protected e o (history (calls ++ .request now r :: others)) r')
    (hck : sessionCookie e r' = identifier g time (sessions g e (create start time o) calls)) :
    (handle g e now' (after g e (create start time o) (calls ++ .request now r :: others)) r').1 = .user u := by
  set a := after g e (create start time o) calls with ha
  set hist := events g e (create start time o) calls with hhist
  have hst : a.st = cookieAfter e o start hist := after_create g e start time o calls
  have hopts : a.opts = o := (after_same g e calls _).1
  have hlog' : LogsIn e o hist r u := by
    obtain ⟨h1, h2, h3⟩ := hlog
    exact ⟨h1, h2, by rw [(alike_events g e calls _).usersOf]; exact h3⟩
  have hv : (handle g e now a r).1 = .loggedIn (Base64.encode (draw g a)) := by
    show (cookie e a.opts now (draw g a) a.st r).1 = _
    rw [hopts, hst]
    exact Props.Auth.login_answered e o start hist now (draw g a) r u hlog'
  have hid := draw_after g e start time o calls
  rw [← ha] at hid
  rw [← hid] at hno hck
  have hev : events g e (create start time o) (calls ++ .request now r :: others) =
      hist ++ .request now (draw g a) r :: events g e (call g e a (.request now r)) others := by
    rw [events_append, ← hhist]
    show hist ++ events g e a (.request now r :: others) = _
    rw [events]
    rw [if_pos (by rw [hv]; rfl)]
  have hal := alike_events g e (calls ++ .request now r :: others) (create start time o)
  rw [hev] at hal
  show (cookie e (after g e (create start time o) (calls ++ .request now r :: others)).opts now' _ _ r').1 = _
  rw [(after_same g e _ _).1, after_create, hev]
  refine Props.Auth.session_usable e o start hist _ now (draw g a) r r' u now' _ hlog' (draw_ne g a) ?_
    ((alike_events g e others _).noLogout hno) (hal.clock hclock) htime (hal.protected hp) hck
  intro t' req' hmem
  rcases events_drawn g e calls (create start time o) t' _ req' hmem with h | ⟨k, hk, h⟩
  · exact draw_ne g a h
  · refine hnew k hk ?_
    rw [← hid, h]
    rfl

theorem session_starts {g : Gen} {e : Env} {cfg ccfg : Cfg} {t ct : TableOrder} (w : Wire e cfg ccfg t ct) {o : Opts}
    (start time : Nat) (calls : List Call) (now : Nat) (m r : Msg) (u p : Bytes)
    (hl : LoginParameters o m u p) (hu : (Users.getUserPw e.build (usersOf e (history calls)) u p).isSome = true)
    (hnew : Unrepeated g time (sessions g e (create start time o) calls))
    (hq : r.queries.Perm m.queries) (hr : r.resource = m.resource) :
    SessionStarts g e cfg ccfg t ct o start time calls now r u := by
  unfold SessionStarts
  intro a
  have hord : Http.OrderOk e.ord := by rw [w.order]; exact w.toServer.order
  set hist := events g e (create start time o) calls with hhist
  have hst : a.st = cookieAfter e o start hist := after_create g e start time o calls
  have hopts : a.opts = o := (after_same g e calls _).1
  have hlog : LogsIn e o hist r u := by
    refine ⟨by rw [hr]; exact hl.page, found_value hq _ hord _ _ hl.user, ?_⟩
    rw [found_value hq _ hord _ _ hl.pass, (alike_events g e calls _).usersOf]
    exact hu
  have hrand := draw_length g a
  have hv : (handle g e now a r).1 = .loggedIn (Base64.encode (draw g a)) := by
    show (cookie e a.opts now (draw g a) a.st r).1 = _
    rw [hopts, hst]
    exact Props.Auth.login_answered e o start hist now (draw g a) r u hlog
  have hne : Base64.encode (draw g a) ≠ [] := by
    intro h0
    exact draw_ne g a (Base64.base64_encode_injective _ [] (by rw [h0]; rfl))
  obtain ⟨ok, ok'⟩ := identifier_cookie (draw g a) (by omega)
  have hclen : (Base64.encode (draw g a)).length ≤ 900000 := by
    have := (Base64.base64_encode_shape (draw g a)).1
    omega
  set c := Base64.encode (draw g a) with hc
  have hurl : (∀ x ∈ r.queries.get e.ord (b! "url"), valueChar x) ∧ (r.queries.get e.ord (b! "url")).length ≤ 1048576 := by
    unfold Dict.get
    cases hf : Dict.find? e.ord r.queries (b! "url") with
    | none => exact ⟨nofun, by simp⟩
    | some v =>
      obtain ⟨n, hn⟩ := find?_mem hord hf
      have := (matching_perm hq _).subset hn
      exact hl.url v (by rw [values_eq]; exact List.mem_map.2 ⟨_, this, rfl⟩)
  -- what the client does with the cookie
  have later : ∀ ans : Msg, ans.cookies = [(b! "pion_session_id", c)] →
      ∀ (others : List Call) (now' : Nat) (q : Msg) (body : Bytes) (ka : Bool),
      (∀ c ∈ ans.cookies, NoLogout e o (history others) c.2) →
      Clock start (history (calls ++ .request now r :: others)) now' → now' ≤ now + 3600 →
      Writable true q body → body.length ≤ cfg.maxContent → q.headers.values (b! "Cookie") = [] → q.cookies = ans.cookies →
      Protected e o (history (calls ++ .request now r :: others)) q →
      Arrives cfg ct ka q fun r' => (handle g e now' (after g e a (.request now r :: others)) r').1 = .user u := by
    intro ans hans others now' q body ka hno hclock htime hwq hmq hnoc hqc hp
    have hno : NoLogout e o (history others) c := hno (b! "pion_session_id", c) (by rw [hans]; simp)
    rw [hans] at hqc
    refine (request_cookies_received_partial cfg w.server ct w.toServer ka q body hwq hmq hnoc (by
      rw [hqc]; simpa using ok')).mono ?_
    rintro r' ⟨h1, h2⟩
    rw [hqc] at h1
    have h1 : r'.cookies = [(b! "pion_session_id", c)] := List.perm_singleton.1 h1
    have hres : r'.resource = q.resource := h2.firstLine.2.1
    have hck : sessionCookie e r' = c := by
      unfold sessionCookie
      rw [h1]
      exact found (.refl _) e.ord hord (b! "pion_session_id") (b! "pion_session_id") c (by
        unfold matching; simp [iequals])
    have hall : after g e a (.request now r :: others) = after g e (create start time o) (calls ++ .request now r :: others) :=
      (after_append g e _ calls _).symm
    rw [hall]
    refine identifier_accepted g e o start time calls others now now' r r' u ?_ hnew ?_ hclock htime (protected_resource hres hp) ?_
    · obtain ⟨h1, h2, h3⟩ := hlog
      exact ⟨h1, h2, by rw [← (alike_events g e calls (create start time o)).usersOf]; exact h3⟩
    · rw [← draw_after]; exact hno
    · rw [← draw_after]; exact hck
  rw [hv]
  by_cases hu0 : r.queries.get e.ord (b! "url") = []
  · refine ⟨cookieOk c false, ?_, fun lc old tail bufs hcut => ?_⟩
    · unfold cookieReply
      dsimp only
      rw [hu0]; rfl
    · obtain ⟨out, h1, h2, h3, h4, _, _, h5⟩ := answer_cookie w.client w.toClient r lc (cookieOk c false)
        (cookieOk_sendable (base64_valueChar _) hclen)
        (by show 0 ≤ _; omega) [] rfl _ ok (by
          unfold cookieOk sessionHeader
          dsimp only
          rw [if_neg (by decide), if_neg (by simpa using hne)]; rfl) old tail bufs hcut
      exact ⟨out, h1, h2, h3, h4, by rw [h5, ← draw_after, ← hc], later _ h5⟩
  · refine ⟨redirection (r.queries.get e.ord (b! "url")) c false, ?_, fun lc old tail bufs hcut => ?_⟩
    · unfold cookieReply
      dsimp only
      rw [if_neg (by simpa using hu0)]
    · obtain ⟨out, h1, h2, h3, h4, _, _, h5⟩ := answer_cookie w.client w.toClient r lc (redirection (r.queries.get e.ord (b! "url")) c false)
        (redirection_sendable hurl.1 hurl.2 (base64_valueChar _) hclen)
        (by
          have h1 : (page (redirection (r.queries.get e.ord (b! "url")) c false)).length = FOUND_PAGE.length := by
            simp [page, redirection, written]
          have h2 : FOUND_PAGE.length ≤ 1000 := by decide +kernel
          have := w.room
          omega) [(b! "Location", r.queries.get e.ord (b! "url"))] (by
          rw [values_eq]; unfold matching; rw [List.filter_cons, if_neg (by dsimp only; decide +kernel)]; rfl) _ ok (by
          unfold redirection sessionHeader
          dsimp only
          rw [if_neg (by decide), if_neg (by simpa using hne)]; rfl) old tail bufs hcut
      exact ⟨out, h1, h2, h3, h4, by rw [h5, ← draw_after, ← hc], later _ h5⟩

/-- **C88 (login with a query string).** A client asks for the login page with the name and password of a user. The server
    answers, and the cookie of the answer makes it recognise this user (`SessionStarts`). -/
theorem login_by_query (g : Gen) (e : Env) (cfg ccfg : Cfg) (t ct : TableOrder) (w : Wire e cfg ccfg t ct) (o : Opts)
    (start time : Nat) (calls : List Call) (now : Nat) (m : Msg) (body u p : Bytes) (ka : Bool)
    (hl : LoginParameters o m u p) (hu : (Users.getUserPw e.build (usersOf e (history calls)) u p).isSome = true)
    (hnew : Unrepeated g time (sessions g e (create start time o) calls))
    (hw : Writable true m body) (hmax : body.length ≤ cfg.maxContent) (hf : NotForm m.headers)
    (hq : ∀ p ∈ m.queries, PairOk p) (hs : (makeQueryString (ct.iter m.queries)).length ≤ 1048576) :
    Arrives cfg ct ka (m.useQueriesForQueryString ct) fun r =>
      SessionStarts g e cfg ccfg t ct o start time calls now r u := by
  refine (parameters_received_partial cfg w.server ct w.toServer ka m body hw hmax hf hq hs).mono ?_
  rintro r ⟨h1, h2⟩
  exact session_starts w start time calls now m r u p hl hu hnew h1 h2.firstLine.2.1

/-- **C88 (login with a form).** The same if the client posts name and password as a form. -/
theorem login_by_form (g : Gen) (e : Env) (cfg ccfg : Cfg) (t ct : TableOrder) (w : Wire e cfg ccfg t ct) (o : Opts)
    (start time : Nat) (calls : List Call) (now : Nat) (m : Msg) (body u p : Bytes) (ka : Bool)
    (hl : LoginParameters o m u p) (hu : (Users.getUserPw e.build (usersOf e (history calls)) u p).isSome = true)
    (hnew : Unrepeated g time (sessions g e (create start time o) calls))
    (hw : Writable true m body) (hline : m.queryString = [])
    (hq : ∀ p ∈ m.queries, PairOk p) (hs : (makeQueryString (ct.iter m.queries)).length ≤ cfg.maxContent) :
    Arrives cfg ct ka (m.useQueriesForContent ct) fun r =>
      SessionStarts g e cfg ccfg t ct o start time calls now r u := by
  have hw' := postForm_writable ct m body hw (by have := w.toServer.max; omega)
  refine (Arrives.and (form_received_partial cfg w.server ct w.toServer ka m body hw hline hq hs)
    (arrives_dictionaries cfg ct w.toServer ka _ _ (by rw [w.server]; exact hw') hs)).mono ?_
  rintro r ⟨⟨h1, -⟩, h2, -⟩
  rw [w.server] at h2
  exact session_starts w start time calls now m r u p hl hu hnew h1 h2.firstLine.2.1

/-- **C88 (logout).** A client asks for the logout page with the cookie of a session, whatever happened before. The server
    answers with the cookie emptied, and from then on the value is worth nothing to anybody, unless a later login is given
    the same value. -/
theorem logout_over_wire (g : Gen) (e : Env) (cfg ccfg : Cfg) (t ct : TableOrder) (w : Wire e cfg ccfg t ct) (o : Opts)
    (start time : Nat) (calls : List Call) (now : Nat) (m : Msg) (body c : Bytes) (ka : Bool)
    (hpage : noSlash m.resource = o.logout) (hne : o.login ≠ o.logout)
    (hw : Writable true m body) (hmax : body.length ≤ cfg.maxContent) (hf : NotForm m.headers) (hline : m.queryString = [])
    (hno : m.headers.values (b! "Cookie") = []) (hck : m.cookies = [(b! "pion_session_id", c)])
    (hc : RequestCookie (b! "pion_session_id", c)) (hcne : c ≠ []) :
    let a := after g e (create start time o) calls
    Arrives cfg ct ka m fun r =>
      (∃ reply, cookieReply e o r (handle g e now a r).1 = some reply ∧ ∀ lc, AnswerArrives ccfg t r lc reply fun ans =>
        ans.statusCode = 204 ∧ ans.cookies = [(b! "pion_session_id", [])]) ∧
      ∀ (others : List Call) (now' : Nat) (r' : Msg), .loggedIn c ∉ verdicts g e (handle g e now a r).2 others →
        sessionCookie e r' = c → Protected e o (history (calls ++ .request now r :: others)) r' →
        (handle g e now' (after g e a (.request now r :: others)) r').1.pass = false := by
  intro a
  have hord : Http.OrderOk e.ord := by rw [w.order]; exact w.toServer.order
  refine (Arrives.and (request_cookies_received_partial cfg w.server ct w.toServer ka m body hw hmax hno (by
      rw [hck]; simpa using hc)) (arrives_dictionaries cfg ct w.toServer ka m body (by rw [w.server]; exact hw) hmax)).mono ?_
  rintro r ⟨⟨h1, h2⟩, -, hd⟩
  rw [hck] at h1
  have h1 : r.cookies = [(b! "pion_session_id", c)] := List.perm_singleton.1 h1
  have hres : r.resource = m.resource := h2.firstLine.2.1
  have hqs : r.queries = [] := by
    rw [hd.plain hf, w.server]
    show Http.Text.lineQueries [] (.request m.method m.resource m.queryString m.verMajor m.verMinor) = []
    rw [Http.Text.lineQueries, hline]; rfl
  have hsc : sessionCookie e r = c := by
    unfold sessionCookie
    rw [h1]
    exact found (.refl _) e.ord hord (b! "pion_session_id") (b! "pion_session_id") c (by
      unfold matching; simp [iequals])
  have hopts : a.opts = o := (after_same g e calls _).1
  have hstrip : Server.stripSlash r.resource = o.logout := by rw [stripSlash_eq, hres]; exact hpage
  have hv : (handle g e now a r).1 = .loggedOut := by
    show (cookie e a.opts now _ a.st r).1 = _
    rw [hopts]
    unfold cookie processLogin
    dsimp only
    rw [hstrip, if_neg (by simp), if_neg (fun h => hne h.symm)]
  refine ⟨⟨cookieOk [] true, ?_, fun lc old tail bufs hcut => ?_⟩, ?_⟩
  · rw [hv]
    unfold cookieReply
    dsimp only
    rw [hqs]
    unfold Dict.get
    cases hfd : Dict.find? e.ord [] (b! "url") with
    | none => rfl
    | some v => exact absurd (find?_mem hord hfd) (by rintro ⟨n, hn⟩; cases hn)
  · obtain ⟨out, g1, g2, g3, g4, g5, _, g6⟩ := answer_cookie w.client w.toClient r lc (cookieOk [] true)
      (cookieOk_sendable nofun (by simp)) (by show 0 ≤ _; omega) [] rfl
      { name := b! "pion_session_id", value := [], path := [], maxAge := some 0 }
      ⟨⟨by decide, by decide +kernel, by decide +kernel⟩, ⟨by decide, nofun⟩, ⟨by decide +kernel, nofun, nofun⟩,
        by decide +kernel, by rintro n ⟨⟩; decide, by decide +kernel⟩ rfl old tail bufs hcut
    exact ⟨out, g1, g2, g3, g4, g5, g6⟩
  · intro others now' r' hnever hck' hp
    have hev : events g e (create start time o) (calls ++ .request now r :: others) =
        events g e (create start time o) calls ++ .request now [] r :: events g e (call g e a (.request now r)) others := by
      rw [events_append]
      show _ ++ events g e a (.request now r :: others) = _
      rw [events, if_neg (by rw [hv]; decide)]
    have hall : after g e a (.request now r :: others) = after g e (create start time o) (calls ++ .request now r :: others) :=
      (after_append g e _ calls _).symm
    have hal := alike_events g e (calls ++ .request now r :: others) (create start time o)
    show (cookie e (after g e a (.request now r :: others)).opts now' _ _ r').1.pass = false
    rw [(after_same g e _ a).1, hopts, hall, after_create]
    refine Props.Auth.cookie_no_session e o start _ now' _ r' (hal.protected hp) ?_
    intro name hs
    rw [hck'] at hs
    obtain ⟨t', rr, req', hm, he⟩ := session_after_logout hs _ _ now [] r hev
      ⟨by rw [← stripSlash_eq]; exact hstrip, by rw [← stripSlash_eq, hstrip]; exact fun h => hne h.symm, hsc, hcne⟩
    rcases events_verdict g e others _ t' rr req' hm with h | h
    · rw [h] at he
      exact hcne he.symm
    · rw [he] at h
      exact hnever h

/-! ### Which identifiers there are -/

/-- **C88, what an identifier is made of.** After any history, the identifier that a login is given depends on nothing but
    the second in which the object was created and the number of sessions opened before. -/
theorem identifiers_known (g : Gen) (e : Env) (o : Opts) (start time : Nat) (calls : List Call) (now : Nat) (req : Msg) (c : Bytes)
    (h : (handle g e now (after g e (create start time o) calls) req).1 = .loggedIn c) :
    c = identifier g time (sessions g e (create start time o) calls) := by
  have h' : (cookie e (after g e (create start time o) calls).opts now (draw g (after g e (create start time o) calls))
    (after g e (create start time o) calls).st req).1 = .loggedIn c := h
  rw [(after_same g e calls _).1, after_create] at h'
  rw [(Props.Auth.login_correct e o start _ now _ req c h').1, draw_after]

/-- **C88 is violated: identifiers can be guessed.** Who knows to `count` seconds when the server was started and that no more
    than `n` sessions have been opened has a list of `count * n` values which contains the identifier of every session:
    whatever the generator, the users and the history are. Nothing secret goes into it. -/
theorem identifiers_guessable (g : Gen) (e : Env) (o : Opts) (start time : Nat) (calls : List Call) (now : Nat) (req : Msg) (c : Bytes)
    (h : (handle g e now (after g e (create start time o) calls) req).1 = .loggedIn c)
    (first count n : Nat) (h1 : first ≤ time) (h2 : time < first + count)
    (h3 : sessions g e (create start time o) calls < n) :
    c ∈ guesses g first count n ∧ (guesses g first count n).length = count * n := by
  constructor
  · rw [identifiers_known g e o start time calls now req c h]
    refine List.mem_flatMap.2 ⟨time - first, List.mem_range.2 (by omega), List.mem_map.2 ⟨_, List.mem_range.2 h3, ?_⟩⟩
    rw [show first + (time - first) = time by omega]
  · unfold guesses
    rw [List.length_flatMap]
    simp only [List.length_map, List.length_range, List.map_const', List.sum_replicate_nat]

/-- **C88 is violated: servers give the same identifiers.** Two servers that were started in the same second give the same
    identifiers, one after the other, to whoever logs in. -/
theorem same_second (g : Gen) (e e' : Env) (o o' : Opts) (start start' time : Nat) (calls calls' : List Call) (now now' : Nat)
    (req req' : Msg) (c c' : Bytes) (h : (handle g e now (after g e (create start time o) calls) req).1 = .loggedIn c)
    (h' : (handle g e' now' (after g e' (create start' time o') calls') req').1 = .loggedIn c')
    (hn : sessions g e (create start time o) calls = sessions g e' (create start' time o') calls') : c = c' := by
  rw [identifiers_known g e o start time calls now req c h, identifiers_known g e' o' start' time calls' now' req' c' h', hn]

/-! ### Options -/

/-- C88: `set_option` takes the names `login`, `logout` and `redirect`, and changes that option and nothing else; basic
    authentication takes `realm`. Every other name is refused. -/
theorem options (a : Object) (v : Bytes) :
    setOption a (b! "login") v = some { a with opts := { a.opts with login := v } } ∧
    setOption a (b! "logout") v = some { a with opts := { a.opts with logout := v } } ∧
    setOption a (b! "redirect") v = some { a with opts := { a.opts with redirect := v } } ∧
    (∀ name, (setOption a name v).isSome = true ↔ name ∈ [b! "login", b! "logout", b! "redirect"]) ∧
    ∀ realm name r, setRealm realm name v = some r ↔ name = b! "realm" ∧ r = v := by
  refine ⟨rfl, rfl, rfl, fun name => ?_, fun realm name r => ?_⟩
  swap
  · unfold setRealm
    split <;> simp [*, eq_comm]
  unfold setOption
  simp only [List.mem_cons, List.not_mem_nil, or_false]
  split
  · simp [*]
  · split
    · simp [*]
    · split <;> simp [*]

/-- **Finding: a login page with a slash at its end is no login page.** The slash is taken off requests, not off options. No
    request for the page that the option names is ever answered as a login. -/
theorem login_page_with_slash (g : Gen) (e : Env) (now : Nat) (a : Object) (req : Msg) (c p : Bytes) (hp : a.opts.login = p ++ b! "/")
    (hr : req.resource = a.opts.login) : (handle g e now a req).1 ≠ .loggedIn c := by
  intro h
  have hs : Server.stripSlash req.resource = p := by
    rw [hr, hp]
    simp [stripSlash]
  have hne : p ≠ a.opts.login := by
    rw [hp]
    intro h
    have := congrArg List.length h
    simp at this
  have hrefuse : cookieRefuse a.opts ≠ .loggedIn c := by unfold cookieRefuse; split <;> simp
  have h : (cookie e a.opts now (draw g a) a.st req).1 = .loggedIn c := h
  unfold cookie processLogin at h
  dsimp only at h
  rw [hs, if_neg hne] at h
  split at h
  · rename_i x hx
    split at hx
    · cases hx
    · cases hx; cases h
  · split at h
    · split at h
      · cases h
      · unfold cookieCheck at h
        dsimp only at h
        split at h
        · exact hrefuse h
        · split at h
          · cases h
          · exact hrefuse h
    · cases h

/-! ### A concrete server -/

/-- A generator, a server that protects "/private" of ann and bob, and ann's login with a password that must be encoded. -/
def gen : Gen := fun seed i => UInt8.ofNat (seed * 31 + i * i + i / 20)
def setup : List Call :=
  [.users (.add (b! "ann") (b! "x &=y")), .users (.add (b! "bob") (b! "z")), .restrict (b! "/private/")]
def login : Msg :=
  { resource := b! "/login/", queries := [(b! "user", b! "ann"), (b! "pass", b! "x &=y"), (b! "url", b! "/private/start")] }
def private_ : Msg := { resource := b! "/private/start" }

theorem login_writable : Writable true login [] where
  headOk := (⟨⟨by decide +kernel, by decide +kernel, by decide +kernel⟩, by unfold uriChar; decide +kernel,
    by decide +kernel, by unfold queryChar; decide +kernel, by decide +kernel, by decide +kernel, by decide +kernel⟩ :
    RequestLineOk login.method login.resource login.queryString login.verMajor login.verMinor)
  headersOk := nofun
  cookiesOk := nofun
  content := rfl
  contentLength := rfl
  size := by decide +kernel
  sendsLength := rfl
  notChunked := nofun
  bodyAllowed := nofun

theorem login_pairs : ∀ p ∈ login.queries, PairOk p := by
  intro p hp
  rw [show login.queries = [(b! "user", b! "ann"), (b! "pass", b! "x &=y"), (b! "url", b! "/private/start")] by rfl] at hp
  simp only [List.mem_cons, List.not_mem_nil, or_false] at hp
  rcases hp with rfl | rfl | rfl <;> exact ⟨by decide, by decide +kernel, by decide +kernel, by decide +kernel, by decide +kernel⟩

theorem wire : Wire Props.Auth.env { isRequest := true } { isRequest := false } {} {} :=
  ⟨rfl, rfl, defaultLink true, defaultLink false, rfl, by decide⟩

theorem login_parameters : LoginParameters {} login (b! "ann") (b! "x &=y") := by
  refine ⟨by decide +kernel, by decide +kernel, by decide +kernel, ?_⟩
  intro v hv
  rw [show Dict.values login.queries (b! "url") = [b! "/private/start"] by decide +kernel, List.mem_singleton] at hv
  subst hv
  exact ⟨by unfold valueChar; decide +kernel, by decide +kernel⟩

theorem no_session : Unrepeated gen 1000 (sessions gen Props.Auth.env (create 5 1000 {}) setup) := by
  rw [show sessions gen Props.Auth.env (create 5 1000 {}) setup = 0 by decide +kernel]
  intro k hk
  omega

-- the hypotheses of the theorems about logins are met
example : Arrives { isRequest := true } {} true (login.useQueriesForQueryString {}) fun r =>
    SessionStarts gen Props.Auth.env { isRequest := true } { isRequest := false } {} {} {} 5 1000 setup 10 r (b! "ann") :=
  login_by_query gen Props.Auth.env _ _ _ _ wire {} 5 1000 setup 10 login [] (b! "ann") (b! "x &=y") true login_parameters
    (by decide +kernel) no_session login_writable (by simp) nofun login_pairs (by decide +kernel)
example : Arrives { isRequest := true } {} true (login.useQueriesForContent {}) fun r =>
    SessionStarts gen Props.Auth.env { isRequest := true } { isRequest := false } {} {} {} 5 1000 setup 10 r (b! "ann") :=
  login_by_form gen Props.Auth.env _ _ _ _ wire {} 5 1000 setup 10 login [] (b! "ann") (b! "x &=y") true login_parameters
    (by decide +kernel) no_session login_writable rfl login_pairs (by decide +kernel)

/-- ann's logout. -/
def logout : Msg := { resource := b! "/logout", cookies := [(b! "pion_session_id", identifier gen 1000 0)] }

theorem logout_writable : Writable true logout [] where
  headOk := (⟨⟨by decide +kernel, by decide +kernel, by decide +kernel⟩, by unfold uriChar; decide +kernel,
    by decide +kernel, by unfold queryChar; decide +kernel, by decide +kernel, by decide +kernel, by decide +kernel⟩ :
    RequestLineOk logout.method logout.resource logout.queryString logout.verMajor logout.verMinor)
  headersOk := nofun
  cookiesOk := by
    intro e he
    rw [show logout.cookies = [(b! "pion_session_id", identifier gen 1000 0)] by rfl, List.mem_singleton] at he
    subst he
    exact ⟨⟨by decide +kernel, by decide +kernel, by decide +kernel⟩, by unfold valueChar; decide +kernel, by decide +kernel⟩
  content := rfl
  contentLength := rfl
  size := by decide +kernel
  sendsLength := rfl
  notChunked := nofun
  bodyAllowed := nofun

-- the hypotheses of the theorem about logouts are met
example (calls : List Call) (now : Nat) :=
  logout_over_wire gen Props.Auth.env _ _ _ _ wire {} 5 1000 calls now logout [] (identifier gen 1000 0) true (by decide +kernel)
    (by decide) logout_writable (by simp) nofun rfl rfl rfl (identifier_cookie _ (by simp)).2 (by decide +kernel)

/-- What a server with default settings reads of a message that a client sends; what a client reads of an answer. -/
def sent (m : Msg) : Option Msg := (receive true m).map (·.message)
def answered (r : Msg) (reply : Reply) : Option Msg :=
  (outcome { isRequest := false } (fresh { isRequest := false } {}) [(reply.writer {} r .keepAlive).wire]).map (·.message)

/-- The whole conversation: login, a protected page, logout, the page again. -/
def conversation : Option (Nat × Dict × Verdict × Verdict × Verdict) :=
  let a := after gen Props.Auth.env (create 5 1000 {}) setup
  (sent (login.useQueriesForQueryString {})).bind fun r =>
  let (v, a) := handle gen Props.Auth.env 10 a r
  (cookieReply Props.Auth.env {} r v).bind fun reply =>
  (answered r reply).bind fun ans =>
  (sent { private_ with cookies := ans.cookies }).bind fun r2 =>
  let (v2, a) := handle gen Props.Auth.env 3000 a r2
  (sent { ({ resource := b! "/logout" } : Msg) with cookies := ans.cookies }).bind fun r3 =>
  let (v3, a) := handle gen Props.Auth.env 3001 a r3
  some (ans.statusCode, ans.cookies, v2, v3, (handle gen Props.Auth.env 3002 a r2).1)

example : conversation = some (302, [(b! "pion_session_id", identifier gen 1000 0)], .user (b! "ann"), .loggedOut, .unauthorized) := by
  decide +kernel

/-- What the server reads of ann's login. -/
def received : Msg := { resource := b! "/login/", queries := login.queries, isValid := true }
theorem received_login : LogsIn Props.Auth.env {} (history setup) received (b! "ann") :=
  ⟨by decide +kernel, by decide +kernel, by decide +kernel⟩

/-- **C88 is violated: a stolen session.** ann logs in at a server that was started in the second `time`. A request with a
    value that anybody can compute from `time` is served as ann, whatever the generator is. -/
theorem stolen_session (g : Gen) (time : Nat) :
    (handle g Props.Auth.env 20 (after g Props.Auth.env (create 5 time {}) (setup ++ [.request 10 received]))
      { private_ with cookies := [(b! "pion_session_id", identifier g time 0)] }).1 = .user (b! "ann") := by
  refine identifier_accepted g Props.Auth.env {} 5 time setup [] 10 20 received _ (b! "ann") received_login
    (fun k hk => absurd hk (by show ¬ k < 0; omega)) nofun ?_ (by omega) ?_ ?_
  · unfold Clock; decide +kernel
  · exact protected_resource (q := private_) rfl ⟨by decide +kernel, by decide +kernel,
      (Props.Auth.needs_cookie Props.Auth.env {} 5 (history (setup ++ [.request 10 received])) _).1 (by decide +kernel),
      fun h => h.1 rfl⟩
  · rfl

-- an hour in which the server may have been started, and ten sessions: 36000 values
example (c : Bytes) (h : (handle gen Props.Auth.env 10 (after gen Props.Auth.env (create 5 1000 {}) setup) received).1 = .loggedIn c) :
    c ∈ guesses gen 0 3600 10 ∧ (guesses gen 0 3600 10).length = 36000 :=
  identifiers_guessable gen Props.Auth.env {} 5 1000 setup 10 received c h 0 3600 10 (by omega) (by omega) (by decide +kernel)
example : (handle gen Props.Auth.env 10 (after gen Props.Auth.env (create 5 1000 {}) setup) received).1 = .loggedIn (identifier gen 1000 0) := by
  decide +kernel

-- identifiers of this generator do not repeat at once, and options
example : identifier gen 1000 0 ≠ identifier gen 1000 1 ∧ identifier gen 1000 0 ≠ identifier gen 1001 0 := by decide +kernel
example : ((setOption (create 5 1000 {}) (b! "login") (b! "/in/")).bind fun a =>
    some (handle gen Props.Auth.env 10 (after gen Props.Auth.env a setup) { received with resource := b! "/in/" }).1,
    (setOption (create 5 1000 {}) (b! "loginn") (b! "/in/")).isNone) = (some .open_, true) := by decide +kernel

end Verif.Props.CookieSession
