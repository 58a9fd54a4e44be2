import Verif.Props.Auth
import Verif.Props.Base64
import Verif.Props.CookieSession
import Verif.Spec.BasicSession
/-
C90: a page behind a password, from the request to the answer.
-/
namespace Verif.Props.BasicSession
open Verif.Auth hiding after
open Verif.BasicSite Verif.Spec.BasicSession Verif.Spec.Auth Verif.Spec.Paths Verif.Spec.Responses
open Verif.Http hiding run
open Verif.Responses Verif.Spec.Writer Verif.Writer Verif.Props.Writer Verif.Props.Responses Verif.Props.MessageBuild Verif.Spec.MessageBuild Verif.Props.Message
open Verif.Spec.Dispatch Verif.Props.Dict Verif.Props.HttpBody Verif.Props.HttpFraming Verif.Server
open Verif.Props.CookieSession (found_value)

/-- However the connection cuts the answer `r` to the request `req` and whatever follows, a client that waits for the answer to
    a request with this method gets a message with `P`. -/
def Answered (ccfg : Cfg) (t : TableOrder) (req : Msg) (lc : Lifecycle) (r : Reply) (P : Msg → Prop) : Prop :=
  ∀ (m0 : Msg), Blank m0 → m0.requestMethod = req.method → ∀ (tail : Bytes) (bufs : List Bytes),
    Cuts bufs ((r.writer t req lc).wire ++ tail) →
    ∃ o, outcome ccfg (fresh ccfg m0) bufs = some o ∧ o.result = .yes ∧ o.error = none ∧ o.unread = tail ∧ P o.message

/-- Server and client: how they parse, and in which order their tables keep entries. -/
structure Ends (e : Env) (cfg ccfg : Cfg) (t ct : TableOrder) : Prop where
  server : cfg.isRequest = true
  client : ccfg.isRequest = false
  toServer : Link cfg ct
  toClient : Link ccfg t
  order : e.ord = cfg.ord
  room : 1000 ≤ ccfg.maxContent

/-- A request that a client sends: it can be written, is not too large and no HEAD request. -/
structure Asks (cfg : Cfg) (m : Msg) (body : Bytes) : Prop where
  writable : Writable true m body
  size : body.length ≤ cfg.maxContent
  method : m.method ≠ b! "HEAD"

private theorem received {e : Env} {cfg ccfg : Cfg} {t ct : TableOrder} (w : Ends e cfg ccfg t ct) (ka : Bool) {m : Msg}
    {body : Bytes} (ha : Asks cfg m body) :
    Arrives cfg ct ka m fun r => r.isValid = true ∧ r.method = m.method ∧ r.resource = m.resource ∧ r.content = body.map some ∧
      (matching r.headers (b! "Authorization")).Perm (matching m.headers (b! "Authorization")) := by
  have hw : Writable cfg.isRequest m body := by rw [w.server]; exact ha.writable
  refine ⟨_, _, transmit_eq ct cfg.isRequest ka m body hw.content hw.contentLength, fun old tail bufs hcut => ?_⟩
  obtain ⟨m', wire, htr, hall⟩ := transmit_parse cfg (old.clear cfg.isRequest) (blank_clear _ _) w.toServer.order
    w.toServer.whole w.toServer.buffered ct w.toServer.tables ka m body hw (by rw [clear_requestMethod]; exact hw.bodyAllowed) ha.size tail
  have e := htr.symm.trans (transmit_eq ct cfg.isRequest ka m body hw.content hw.contentLength)
  simp only [Option.some.injEq, Prod.mk.injEq] at e
  obtain ⟨rfl, rfl⟩ := e
  obtain ⟨o, ho, h1, h2, h3, h4, -, -, h5⟩ := hall bufs hcut
  refine ⟨o, ho, h1, h2, h3, h4, ?_⟩
  have hh := h5.firstLine
  have ho := h5.others (b! "Authorization") (by decide +kernel) (by decide +kernel) (by cases cfg.isRequest <;> decide +kernel)
  rw [w.server] at hh
  exact ⟨hh.1, hh.2.1, h5.content, ho⟩

private theorem answered {e : Env} {cfg ccfg : Cfg} {t ct : TableOrder} (w : Ends e cfg ccfg t ct) {req : Msg}
    (hm : req.method ≠ b! "HEAD") (lc : Lifecycle) {r : Reply} (hr : Sendable r) (hs : (page r).length ≤ ccfg.maxContent) :
    Answered ccfg t req lc r fun a => Holds a r.code r.text r.headers (page r) := by
  intro m0 hb hrm tail bufs hcut
  have := w.toClient.max
  exact reply_received_partial ccfg w.client m0 hb w.toClient.order w.toClient.whole w.toClient.buffered t w.toClient.tables req lc
    r hr hrm hm (by omega) hs tail bufs hcut

private theorem needs_resource {e : Env} {h : List Event} {q r : Msg} (hr : r.resource = q.resource) : Needs e h r ↔ Needs e h q := by
  unfold Needs; rw [hr]

theorem loop_here {H : Type} {ops : List (Op H)} {req : Msg} (hr : redirects ops (noSlash req.resource) = none) :
    redirectLoop (build ops).redirects MAX_REDIRECTS (stripSlash req.resource) req = some (noSlash req.resource, req) :=
  (Props.Dispatch.loop_ends ops req _ _).2 ⟨0, ⟨Nat.zero_le _, .stay _, hr⟩, rfl⟩

private theorem answer_refused {H : Type} {w : Site H} {start : Nat} {hist : List Event} {now : Nat} {req : Msg} (hv : req.isValid = true)
    (hr : redirects w.ops (noSlash req.resource) = none) (hb : (basic w.env now (basicAfter w.env start hist) req).1.pass = false) :
    answer w start hist now req = some (basicUnauthorized w.realm) := by
  unfold answer handleRequest
  rw [if_neg (by simp [hv]), loop_here hr]
  simp only [authenticator, hb]
  rfl

private theorem answer_passed {H : Type} {w : Site H} {start : Nat} {hist : List Event} {now : Nat} {req : Msg} (hv : req.isValid = true)
    {h : H} (hp : PageOf w.ops req.resource h) (hrun : w.run h = .returns)
    (hb : (basic w.env now (basicAfter w.env start hist) req).1.pass = true) :
    answer w start hist now req = some (w.reply h req) := by
  unfold answer handleRequest
  rw [if_neg (by simp [hv]), loop_here hp.1]
  simp only [authenticator, hb, if_true]
  unfold dispatch
  rw [(Props.Dispatch.find_longest w.ops _ h).2 hp.2]
  simp only [hrun]
  rfl

private theorem page_length : (UNAUTHORIZED_PAGE ++ []).length ≤ 1000 := by decide +kernel

theorem page_size (realm : Bytes) : (page (basicUnauthorized realm)).length ≤ 1000 := by
  unfold page basicUnauthorized
  exact page_length

theorem own_values {d : Dict} {k : Bytes} (h1 : iequals k (b! "Connection") = false) (h2 : iequals k (b! "Content-Length") = false) :
    matching (ownHeaders d) k = matching d k := by
  unfold matching ownHeaders
  rw [List.filter_filter]
  refine List.filter_congr fun e _ => ?_
  cases hk : iequals e.1 k with
  | false => simp
  | true =>
    have h3 : iequals e.1 (b! "Connection") = false := by
      rw [← Bool.not_eq_true] at h1 ⊢
      exact fun hc => h1 (iequals_trans (by rw [iequals_symm]; exact hk) hc)
    have h4 : iequals e.1 (b! "Content-Length") = false := by
      rw [← Bool.not_eq_true] at h2 ⊢
      exact fun hc => h2 (iequals_trans (by rw [iequals_symm]; exact hk) hc)
    simp only [h3, h4]
    rfl

private theorem refusal_reaches {e : Env} {cfg ccfg : Cfg} {t ct : TableOrder} (w : Ends e cfg ccfg t ct) {req : Msg}
    (hm : req.method ≠ b! "HEAD") (lc : Lifecycle) {realm : Bytes} (hr : HeaderOk (b! "WWW-Authenticate", challenge realm)) :
    Answered ccfg t req lc (basicUnauthorized realm) fun a =>
      a.statusCode = 401 ∧ a.headers.values (b! "WWW-Authenticate") = [challenge realm] := by
  have hs := answered w hm lc (builtin_sendable (.basicUnauthorized realm hr)) (by
    have := w.room
    have : (page (basicUnauthorized realm)).length ≤ 1000 := page_size realm
    omega)
  intro m0 hb hrm tail bufs hcut
  obtain ⟨o, h1, h2, h3, h4, h5⟩ := hs m0 hb hrm tail bufs hcut
  refine ⟨o, h1, h2, h3, h4, h5.code, ?_⟩
  have hp := matching_perm h5.headers (b! "WWW-Authenticate")
  rw [own_values (by decide +kernel) (by decide +kernel), own_values (by decide +kernel) (by decide +kernel)] at hp
  have hone : matching (basicUnauthorized realm).headers (b! "WWW-Authenticate") = [(b! "WWW-Authenticate", challenge realm)] := by
    unfold matching basicUnauthorized
    exact List.filter_eq_self.2 (by intro e he; rw [List.mem_singleton.1 he]; dsimp only; decide +kernel)
  rw [hone, List.perm_singleton] at hp
  rw [values_eq, hp]
  rfl

/-- **C90: the question.** A client that asks for a protected page without credentials is told the realm to give a password
    for. -/
theorem challenged {H : Type} (w : Site H) (cfg ccfg : Cfg) (t ct : TableOrder) (ends : Ends w.env cfg ccfg t ct)
    (hrealm : HeaderOk (b! "WWW-Authenticate", challenge w.realm)) (start : Nat) (hist : List Event) (now : Nat)
    (m : Msg) (body : Bytes) (ka : Bool) (ha : Asks cfg m body) (hneeds : Needs w.env hist m)
    (hplain : redirects w.ops (noSlash m.resource) = none) (hno : m.headers.values (b! "Authorization") = []) :
    Arrives cfg ct ka m fun r => ∃ reply, answer w start hist now r = some reply ∧ ∀ lc, Answered ccfg t r lc reply fun a =>
      a.statusCode = 401 ∧ a.headers.values (b! "WWW-Authenticate") = [challenge w.realm] := by
  refine (received ends ka ha).mono ?_
  rintro r ⟨hv, hmeth, hres, -, hau⟩
  have hnone : matching r.headers (b! "Authorization") = [] := by
    rw [values_eq, List.map_eq_nil_iff] at hno
    rw [hno] at hau; exact hau.eq_nil
  have hb : (basic w.env now (basicAfter w.env start hist) r).1 = .unauthorized := by
    refine Props.Auth.basic_no_credentials w.env start hist now r ((needs_resource hres).2 hneeds) fun cred hp => ?_
    have h0 : r.headers.get w.env.ord (b! "Authorization") = [] := by
      have ho : Http.OrderOk w.env.ord := by rw [ends.order]; exact ends.toServer.order
      unfold Dict.get
      cases hf : Dict.find? w.env.ord r.headers (b! "Authorization") with
      | none => rfl
      | some v =>
        obtain ⟨n, hn⟩ := find?_mem ho hf
        rw [hnone] at hn
        cases hn
    exact absurd (h0.symm.trans hp.1) (by simp)
  exact ⟨_, answer_refused hv (by rw [hres]; exact hplain) (by rw [hb]; rfl), fun lc =>
    refusal_reaches ends (by rw [hmeth]; exact ha.method) lc hrealm⟩

private theorem presents {e : Env} (ho : Http.OrderOk e.ord) {m r : Msg} {u p : Bytes}
    (hm : m.headers.values (b! "Authorization") = [authorization u p])
    (hau : (matching r.headers (b! "Authorization")).Perm (matching m.headers (b! "Authorization"))) :
    Presents e r (credentials u p) := by
  refine ⟨?_, ?_⟩
  · rw [values_eq] at hm
    obtain ⟨⟨n, v⟩, hmm, hv⟩ := List.map_eq_singleton_iff.1 hm
    cases hv
    rw [hmm] at hau
    unfold Dict.get
    rw [find?_single ho (List.perm_singleton.1 hau)]
    rfl
  · unfold credentials
    rw [← Base64.base64_encode_is_rfc4648]
    intro h0
    have := Base64.base64_encode_injective _ [] (by rw [h0]; rfl)
    simp at this

theorem decode_credentials (e : Env) (u p : Bytes) : decodeCredentials e (credentials u p) = some (u ++ c! ":" :: p) := by
  unfold credentials decodeCredentials
  rw [← Base64.base64_encode_is_rfc4648, Base64.base64_roundtrip]
  simp

/-- **C90: the answer.** A client that gives the name and the password of a user gets what the handler of the page answers,
    as this user. Passwords are any bytes; names are those that RFC 7617 allows, without a colon, and not empty. -/
theorem password_opens {H : Type} (w : Site H) (cfg ccfg : Cfg) (t ct : TableOrder) (ends : Ends w.env cfg ccfg t ct)
    (start : Nat) (hist : List Event) (now : Nat) (m : Msg) (body : Bytes) (ka : Bool) (ha : Asks cfg m body)
    (hneeds : Needs w.env hist m) (u p : Bytes) (hu : u ≠ []) (hc : c! ":" ∉ u)
    (hm : m.headers.values (b! "Authorization") = [authorization u p])
    (hpw : (Users.getUserPw w.env.build (usersOf w.env hist) u p).isSome = true)
    (h : H) (hp : PageOf w.ops m.resource h) (hrun : w.run h = .returns) :
    Arrives cfg ct ka m fun r => r.content = body.map some ∧
      (basic w.env now (basicAfter w.env start hist) r).1 = .user u ∧ answer w start hist now r = some (w.reply h r) ∧
      (Sendable (w.reply h r) → (page (w.reply h r)).length ≤ ccfg.maxContent → ∀ lc, Answered ccfg t r lc (w.reply h r) fun a =>
        Holds a (w.reply h r).code (w.reply h r).text (w.reply h r).headers (page (w.reply h r))) := by
  refine (received ends ka ha).mono ?_
  rintro r ⟨hv, hmeth, hres, hcon, hau⟩
  have ho : Http.OrderOk w.env.ord := by rw [ends.order]; exact ends.toServer.order
  have hb : (basic w.env now (basicAfter w.env start hist) r).1 = .user u :=
    Props.Auth.basic_complete w.env start hist now r (credentials u p) u ((needs_resource hres).2 hneeds) (presents ho hm hau)
      ⟨p, decode_credentials _ _ _, hu, hc, hpw⟩
  exact ⟨hcon, hb, answer_passed hv (by rw [hres]; exact hp) hrun (by rw [hb]; rfl), fun hs hsize lc =>
    answered ends (by rw [hmeth]; exact ha.method) lc hs hsize⟩

/-- **C90: pages that need no password** are answered without. -/
theorem open_page {H : Type} (w : Site H) (cfg ccfg : Cfg) (t ct : TableOrder) (ends : Ends w.env cfg ccfg t ct)
    (start : Nat) (hist : List Event) (now : Nat) (m : Msg) (body : Bytes) (ka : Bool) (ha : Asks cfg m body)
    (hneeds : ¬ Needs w.env hist m) (h : H) (hp : PageOf w.ops m.resource h) (hrun : w.run h = .returns) :
    Arrives cfg ct ka m fun r => answer w start hist now r = some (w.reply h r) ∧
      (Sendable (w.reply h r) → (page (w.reply h r)).length ≤ ccfg.maxContent → ∀ lc, Answered ccfg t r lc (w.reply h r) fun a =>
        Holds a (w.reply h r).code (w.reply h r).text (w.reply h r).headers (page (w.reply h r))) := by
  refine (received ends ka ha).mono ?_
  rintro r ⟨hv, hmeth, hres, hcon, hau⟩
  have hb : (basic w.env now (basicAfter w.env start hist) r).1 = .open_ :=
    (Props.Auth.basic_open_iff w.env start hist now r).2 fun hn => hneeds ((needs_resource hres).1 hn)
  exact ⟨answer_passed hv (by rw [hres]; exact hp) hrun (by rw [hb]; rfl), fun hs hsize lc =>
    answered ends (by rw [hmeth]; exact ha.method) lc hs hsize⟩

private theorem never_correct {e : Env} {W : Nat → Nat → Prop} {hist : List Event} {now : Nat} {cred name : Bytes}
    (h : BasicOk e W hist now cred name) (hno : ∀ time rand q, .request time rand q ∈ hist → ¬ Presents e q cred) :
    Correct e hist cred name := by
  cases h with
  | correct h => exact h
  | remembered _ hp _ _ => exact absurd hp (hno _ _ _ (List.mem_append_right _ List.mem_cons_self))

/-- A name without a colon is what stands before the first one. -/
theorem split_colon : ∀ {a b x y : Bytes}, c! ":" ∉ a → c! ":" ∉ b → a ++ c! ":" :: x = b ++ c! ":" :: y → a = b ∧ x = y
  | [], [], _, _, _, _, h => ⟨rfl, by simpa using h⟩
  | [], d :: b, _, _, _, hb, h => by simp at h hb; exact absurd h.1 hb.1
  | c :: a, [], _, _, ha, _, h => by simp at h ha; exact absurd h.1.symm ha.1
  | c :: a, d :: b, _, _, ha, hb, h => by
    simp at h ha hb
    obtain ⟨h1, h2⟩ := split_colon ha.2 hb.2 h.2
    exact ⟨by rw [h.1, h1], h2⟩

/-- **C90: a wrong password** that nobody has used before (it might have been right then, see C34) is refused like none, and
    no handler sees the request. -/
theorem wrong_password {H : Type} (w : Site H) (cfg ccfg : Cfg) (t ct : TableOrder) (ends : Ends w.env cfg ccfg t ct)
    (hrealm : HeaderOk (b! "WWW-Authenticate", challenge w.realm)) (start : Nat) (hist : List Event) (now : Nat)
    (m : Msg) (body : Bytes) (ka : Bool) (ha : Asks cfg m body) (hneeds : Needs w.env hist m)
    (hplain : redirects w.ops (noSlash m.resource) = none) (u p : Bytes) (hc : c! ":" ∉ u)
    (hm : m.headers.values (b! "Authorization") = [authorization u p])
    (hpw : (Users.getUserPw w.env.build (usersOf w.env hist) u p).isSome = false)
    (hnew : ∀ time rand q, .request time rand q ∈ hist → ¬ Presents w.env q (credentials u p)) :
    Arrives cfg ct ka m fun r => ∃ reply, answer w start hist now r = some reply ∧ ∀ lc, Answered ccfg t r lc reply fun a =>
      a.statusCode = 401 ∧ a.headers.values (b! "WWW-Authenticate") = [challenge w.realm] := by
  refine (received ends ka ha).mono ?_
  rintro r ⟨hv, hmeth, hres, -, hau⟩
  have ho : Http.OrderOk w.env.ord := by rw [ends.order]; exact ends.toServer.order
  have hpr := presents ho hm hau
  have hb : (basic w.env now (basicAfter w.env start hist) r).1 = .unauthorized := by
    refine Props.Auth.basic_never_correct w.env start hist now r ((needs_resource hres).2 hneeds) fun cred name hp hok => ?_
    have : cred = credentials u p := by
      have := hp.1.symm.trans hpr.1
      exact List.append_cancel_left this
    subst this
    obtain ⟨pw, hd, -, hcn, hok⟩ := never_correct hok hnew
    rw [decode_credentials, Option.some.injEq] at hd
    obtain ⟨rfl, rfl⟩ := split_colon hc hcn hd
    rw [hpw] at hok
    cases hok
  exact ⟨_, answer_refused hv (by rw [hres]; exact hplain) (by rw [hb]; rfl), fun lc =>
    refusal_reaches ends (by rw [hmeth]; exact ha.method) lc hrealm⟩

/-- **C90, violated for names with a colon** (and the empty name), which the user manager accepts: whatever the history, no
    request is ever taken for one of such a user. -/
theorem colon_never (e : Env) (start : Nat) (hist : List Event) (now : Nat) (req : Msg) (u : Bytes) (hu : u = [] ∨ c! ":" ∈ u) :
    (basic e now (basicAfter e start hist) req).1 ≠ .user u := by
  intro hv
  obtain ⟨-, cred, -, hok⟩ := Props.Auth.basic_sound e start hist now req u hv
  clear hv
  induction hok with
  | correct h => obtain ⟨_, _, h1, h2, _⟩ := h; exact hu.elim h1 h2
  | remembered _ _ _ _ ih => exact ih hu

/-- The name and the password of a user with a colon are those of another one. -/
theorem colon_ambiguous (u v p : Bytes) : authorization (u ++ b! ":" ++ v) p = authorization u (v ++ b! ":" ++ p) := by
  unfold authorization credentials
  simp only [List.append_assoc]

/-- **C90, violated for the scheme in another case.** RFC 7235 (section 2.1) says that case does not matter; a request with
    the correct name and password after `basic` is refused. -/
theorem scheme_case_sensitive (e : Env) (start : Nat) (hist : List Event) (now : Nat) (r : Msg) (u p : Bytes) (hn : Needs e hist r)
    (h : r.headers.get e.ord (b! "Authorization") = b! "basic " ++ credentials u p) :
    (basic e now (basicAfter e start hist) r).1 = .unauthorized := by
  refine Props.Auth.basic_no_credentials e start hist now r hn fun cred hp => ?_
  have := h.symm.trans hp.1
  simp at this

/-! ### A site -/

/-- One page, behind a password: `/private`, answered with the path asked for. -/
def site : Site Unit where
  env := Props.Auth.env
  ops := [.addResource (b! "/private") ()]
  run := fun _ => .returns
  reply := fun _ q => { writes := [.buffer q.resource] }
  realm := b! "PION:NET"

theorem ends : Ends site.env { isRequest := true } { isRequest := false } {} {} :=
  ⟨rfl, rfl, defaultLink true, defaultLink false, rfl, by decide⟩

/-- A question with the value of the header `Authorization`, if any. -/
def ask (resource : Bytes) (headers : Dict) : Msg := { resource := resource, headers := headers }

def anonymous : Msg := ask (b! "/private/a") []
def ann : Msg := ask (b! "/private/a") [(b! "Authorization", b! "Basic YW5uOng=")]
def eve : Msg := ask (b! "/private/a") [(b! "Authorization", b! "Basic YW5uOnk=")]
def free : Msg := ask (b! "/private/pub") []

private theorem writable (resource : Bytes) (headers : Dict) (h1 : RequestLineOk (b! "GET") resource [] 1 1)
    (h2 : ∀ e ∈ headers, HeaderOk e) (h3 : Message.NotChunked headers) : Asks { isRequest := true } (ask resource headers) [] where
  writable :=
    { headOk := h1
      headersOk := h2
      cookiesOk := nofun
      content := rfl
      contentLength := rfl
      size := by decide +kernel
      sendsLength := rfl
      notChunked := h3
      bodyAllowed := nofun }
  size := by decide
  method := by show b! "GET" ≠ b! "HEAD"; decide +kernel

private theorem line_private : RequestLineOk (b! "GET") (b! "/private/a") [] 1 1 :=
  ⟨⟨by decide +kernel, by decide +kernel, by decide +kernel⟩, by unfold uriChar; decide +kernel,
    by decide +kernel, by unfold queryChar; decide +kernel, by decide +kernel, by decide +kernel, by decide +kernel⟩
private theorem line_free : RequestLineOk (b! "GET") (b! "/private/pub") [] 1 1 :=
  ⟨⟨by decide +kernel, by decide +kernel, by decide +kernel⟩, by unfold uriChar; decide +kernel,
    by decide +kernel, by unfold queryChar; decide +kernel, by decide +kernel, by decide +kernel, by decide +kernel⟩

private theorem one_header {v : Bytes} (hv : HeaderOk (b! "Authorization", v)) :
    (∀ e ∈ [(b! "Authorization", v)], HeaderOk e) ∧ Message.NotChunked [(b! "Authorization", v)] := by
  refine ⟨fun e he => by rw [List.mem_singleton.1 he]; exact hv, ?_⟩
  intro e he
  have : matching [(b! "Authorization", v)] (b! "Transfer-Encoding") = [] :=
    List.filter_eq_nil_iff.2 fun x hx => by rw [List.mem_singleton.1 hx]; dsimp only; decide +kernel
  rw [this] at he
  cases he

theorem anonymous_asks : Asks { isRequest := true } anonymous [] := writable _ _ line_private nofun nofun
theorem free_asks : Asks { isRequest := true } free [] := writable _ _ line_free nofun nofun
theorem ann_asks : Asks { isRequest := true } ann [] :=
  have h := one_header (v := b! "Basic YW5uOng=")
    ⟨⟨by decide +kernel, by decide +kernel, by decide +kernel⟩, by dsimp only; unfold valueChar; decide +kernel, by decide +kernel⟩
  writable _ _ line_private h.1 h.2
theorem eve_asks : Asks { isRequest := true } eve [] :=
  have h := one_header (v := b! "Basic YW5uOnk=")
    ⟨⟨by decide +kernel, by decide +kernel, by decide +kernel⟩, by dsimp only; unfold valueChar; decide +kernel, by decide +kernel⟩
  writable _ _ line_private h.1 h.2

theorem realm_ok : HeaderOk (b! "WWW-Authenticate", challenge site.realm) :=
  ⟨⟨by decide +kernel, by decide +kernel, by decide +kernel⟩, by dsimp only; unfold valueChar; decide +kernel, by decide +kernel⟩

theorem needs_private (h : Dict) : Needs site.env Props.Auth.setup (ask (b! "/private/a") h) :=
  (needs_resource (q := Props.Auth.get (b! "/private/a")) rfl).2 ((Props.Auth.needs_basic Props.Auth.env 0 Props.Auth.setup _).1 (by decide +kernel))
theorem needs_not : ¬ Needs site.env Props.Auth.setup free := by
  rw [show site.env = Props.Auth.env from rfl, ← Props.Auth.needs_basic Props.Auth.env 0]; decide +kernel

theorem page_private : PageOf site.ops (b! "/private/a") () :=
  ⟨by decide +kernel, (Props.Dispatch.find_longest site.ops _ ()).1 (by decide +kernel)⟩
theorem page_free : PageOf site.ops (b! "/private/pub") () :=
  ⟨by decide +kernel, (Props.Dispatch.find_longest site.ops _ ()).1 (by decide +kernel)⟩

theorem site_sendable (q : Msg) : Sendable (site.reply () q) where
  code := by show 200 < 65536; decide
  text := by show ∀ c ∈ b! "OK", textChar c; unfold textChar; decide +kernel
  textSize := by show (b! "OK").length ≤ 1024; decide +kernel
  headers := nofun
  notChunked := nofun
  writes := by
    intro o ho
    rw [List.mem_singleton.1 ho]
    exact ⟨_, .inr rfl⟩
  allowed := fun h => absurd h (by show ¬ (Head.response 1 1 200 (b! "OK")).Bodyless []; unfold Head.Bodyless; decide +kernel)

-- the hypotheses of the theorems are met
example (now : Nat) := challenged site _ _ _ _ ends realm_ok 0 Props.Auth.setup now anonymous [] true anonymous_asks (needs_private _)
  page_private.1 rfl
example (now : Nat) := password_opens site _ _ _ _ ends 0 Props.Auth.setup now ann [] true ann_asks (needs_private _) (b! "ann") (b! "x")
  (by decide) (by decide +kernel) (by decide +kernel) (by decide +kernel) () page_private rfl
example (now : Nat) := open_page site _ _ _ _ ends 0 Props.Auth.setup now free [] true free_asks needs_not () page_free rfl
example (now : Nat) := wrong_password site _ _ _ _ ends realm_ok 0 Props.Auth.setup now eve [] true eve_asks (needs_private _)
  page_private.1 (b! "ann") (b! "y") (by decide +kernel) (by decide +kernel) (by decide +kernel) (by
    intro time rand q hq
    exact absurd hq (by simp [Props.Auth.setup]))

/-- What a client with default settings is told: the status and the page. -/
def told (m : Msg) : Option (Nat × List (Option UInt8)) :=
  (Props.CookieSession.sent m).bind fun r => (answer site 0 Props.Auth.setup 5 r).bind fun reply =>
    (Props.CookieSession.answered r reply).map fun a => (a.statusCode, a.content)

example : told ann = some (200, (b! "/private/a").map some) ∧ told free = some (200, (b! "/private/pub").map some) := by
  decide +kernel
example : (told anonymous).map (·.1) = some 401 ∧ (told eve).map (·.1) = some 401 := by decide +kernel
example : (told (ask (b! "/private/a") [(b! "Authorization", b! "basic YW5uOng=")])).map (·.1) = some 401 := by decide +kernel

/-- The witness for names with a colon: the user manager takes a user `a:b` with the password `c`; who gives this name and
    password is refused, or taken for `a` if the password of `a` is `b:c`. -/
def colons : List Event := [.users (.add (b! "a:b") (b! "c")), .restrict (b! "/private")]
def twoUsers : List Event := .users (.add (b! "a") (b! "b:c")) :: colons

theorem colon_mistaken :
    (Users.getUserPw site.env.build (usersOf site.env colons) (b! "a:b") (b! "c")).isSome = true ∧
    (basic site.env 5 (basicAfter site.env 0 colons) (ask (b! "/private/a")
      [(b! "Authorization", authorization (b! "a:b") (b! "c"))])).1 = .unauthorized ∧
    (basic site.env 5 (basicAfter site.env 0 twoUsers) (ask (b! "/private/a")
      [(b! "Authorization", authorization (b! "a:b") (b! "c"))])).1 = .user (b! "a") := by
  refine ⟨?_, ?_, ?_⟩ <;> decide +kernel

end Verif.Props.BasicSession
