import Verif.Lemmas.HttpServer
import Verif.Props.Auth
/-
C75: an HTTP server handles exactly the requests in the bytes of a connection, and no bytes get past the authentication.
-/
namespace Verif.Props.HttpServer
open Verif.Http Verif.Http.Text Verif.Server Verif.HttpServer Verif.Spec.HttpServer
open Verif.Reader (Conn Ok pending)
open Verif.Props.Dispatch

/-- What the server does with each request: `handle_request` is called with it, in the state of the server at that moment. If
    the stream goes on with something else than a complete request, it is refused, or the connection is finished. -/
inductive Handled {H σ : Type} (ord : Dict.Order) (max : Nat) (turn : Nat → Turn H σ) : Nat → List Part → End → List (List (Call H)) → Prop
  | none {i : Nat} {e : End} : Handled ord max turn i [] e []
  | faulty {i : Nat} {calls : List (Call H)} : calls = [.badRequest] ∨ calls = [.finish] → Handled ord max turn i [] .over [calls]
  | request {i : Nat} {p : Part} {ps : List Part} {e : End} {msg : Msg} {more : List (List (Call H))} : p.Is ord max msg →
      Handled ord max turn (i + 1) ps e more →
      Handled ord max turn i (p :: ps) e
        ((handleRequest (turn i).run (turn i).auth (turn i).tables (turn i).state .ok msg).1 :: more)

theorem handled_fails {H σ : Type} (t : Turn H σ) (e : Bool) (s : S) (h : e = true ∨ s.msg.isValid = false) :
    handled t e s = [.badRequest] ∨ handled t e s = [.finish] := by
  unfold handled handleRequest
  rw [if_pos]
  · split
    · exact .inl rfl
    · exact .inr rfl
  · rcases h with rfl | h
    · left; unfold readResult; rw [if_pos rfl]; split <;> simp
    · exact .inr h

theorem exactly_from {H σ : Type} (cfg : Cfg) (m : Msg) (hs : Serving cfg m) (turn : Nat → Turn H σ) :
    ∀ (n i : Nat) (c : Conn), Ok c → ∀ (reads : List Reader.Read),
    ∃ ps e calls, Serves (reading cfg m) (fun i => (turn i).listening) n i ((pending c).flatten ++ delivered reads) ps e ∧
      session cfg m turn n i c reads = some calls ∧ Handled cfg.ord cfg.maxContent turn i ps e calls := by
  intro n
  induction n with
  | zero => intro i c _ reads; exact ⟨[], .limit, [], .limit, rfl, .none⟩
  | succ n ih =>
    intro i c hc reads
    rw [session]
    rcases receive_cases cfg m hs c hc reads with ⟨p, rest, c', s', reads', hp, he, hr, g⟩ | ⟨hno, x, hr, hx⟩
    · have hh : handled (turn i) false s' =
          (handleRequest (turn i).run (turn i).auth (turn i).tables (turn i).state .ok s'.msg).1 := rfl
      rw [he, hr]
      dsimp only
      by_cases hl : ¬ p.Persistent cfg.ord ∨ (turn i).listening = false
      · refine ⟨[p], .closed, [_], .last hp hl, ?_, .request g.is .none⟩
        rw [if_pos (by rw [g.close]; exact .inr (.inr hl)), hh]
      · have hl' := not_or.1 hl
        obtain ⟨ps, e, calls, h1, h2, h3⟩ := ih (i + 1) c' g.ok reads'
        rw [g.left (not_not.1 hl'.1)] at h1
        refine ⟨p :: ps, e, _ :: calls, .next hp (not_not.1 hl'.1) (by simpa using hl'.2) h1, ?_, .request g.is h3⟩
        rw [if_neg, h2, hh]
        · rfl
        · rw [g.close, g.is.valid]
          rintro (h | h | h | h)
          · cases h
          · cases h
          · exact hl'.1 h
          · exact hl'.2 h
    · rw [hr]
      obtain ⟨c', s', st, reads'⟩ := x
      cases st with
      | waiting => exact ⟨[], .over, [], .over hno, rfl, .none⟩
      | done e =>
        refine ⟨[], .over, [_], .over hno, ?_, .faulty (handled_fails (turn i) e s' hx)⟩
        dsimp only
        rw [if_pos (by rcases hx with h | h <;> simp [h])]

/-- **C75.** Whatever bytes arrive on a new connection, in whatever pieces, and however the connection ends: the requests that
    are handled are exactly the requests that the stream consists of, in their order, each once and intact. -/
theorem handles_exactly {H σ : Type} (cfg : Cfg) (m : Msg) (hs : Serving cfg m) (turn : Nat → Turn H σ) (n : Nat)
    (reads : List Reader.Read) : ∃ ps e calls,
      Serves (reading cfg m) (fun i => (turn i).listening) n 0 (delivered reads) ps e ∧
      session cfg m turn n 0 {} reads = some calls ∧ Handled cfg.ord cfg.maxContent turn 0 ps e calls :=
  exactly_from cfg m hs turn n 0 {} (by intro h; cases h) reads

theorem serves_inv {r : Reading} {listening : Nat → Bool} {n i : Nat} {stream : Bytes} {ps : List Part} {e : End}
    (h : Serves r listening (n + 1) i stream ps e) :
    ((∀ (p : Part) rest, p.Before r rest → stream ≠ p.text ++ rest) ∧ ps = [] ∧ e = .over) ∨
    ∃ (p : Part) (rest : Bytes) (qs : List Part), p.Before r rest ∧ stream = p.text ++ rest ∧
      (((¬ p.Persistent r.ord ∨ listening i = false) ∧ ps = [p] ∧ e = .closed) ∨
        (p.Persistent r.ord ∧ listening i = true ∧ Serves r listening n (i + 1) rest qs e ∧ ps = p :: qs)) := by
  cases h with
  | over h => exact .inl ⟨h, rfl, rfl⟩
  | last h1 h2 => exact .inr ⟨_, _, [], h1, rfl, .inl ⟨h2, rfl, rfl⟩⟩
  | next h1 h2 h3 h4 => exact .inr ⟨_, _, _, h1, rfl, .inr ⟨h2, h3, h4, rfl⟩⟩

/-- **C75, the requests of a stream are determined by the stream.** -/
theorem requests_unique (r : Reading) (hord : OrderOk r.ord) (hmax : r.max + 1 < 2 ^ 64) (listening : Nat → Bool) {n i : Nat}
    {stream : Bytes} {ps ps' : List Part} {e e' : End} (h : Serves r listening n i stream ps e)
    (h' : Serves r listening n i stream ps' e') : ps = ps' ∧ e = e' := by
  have one : ∀ {p p' : Part} {rest rest' : Bytes}, p.Before r rest → p'.Before r rest' → p.text ++ rest = p'.text ++ rest' →
      p = p' ∧ rest = rest' := by
    intro p p' rest rest' hp hp' he
    obtain ⟨h1, h2, h3, h4, h5, h6⟩ := HttpFraming.message_unique r hord hmax hp.2 hp'.2 he (hp.1.trans hp'.1.symm)
    cases p; cases p'; simp_all
  induction h generalizing ps' e' with
  | limit => cases h'; exact ⟨rfl, rfl⟩
  | over hno =>
    rcases serves_inv h' with ⟨_, rfl, rfl⟩ | ⟨p, rest, q, hp, hst, _⟩
    · exact ⟨rfl, rfl⟩
    · exact absurd hst (hno p rest hp)
  | @last n i p rest hp hl =>
    rcases serves_inv h' with ⟨hno, _⟩ | ⟨p', rest', q, hp', hst, hcase⟩
    · exact absurd rfl (hno p rest hp)
    · obtain ⟨rfl, rfl⟩ := one hp hp' hst
      rcases hcase with ⟨_, rfl, rfl⟩ | ⟨h1, h2, _⟩
      · exact ⟨rfl, rfl⟩
      · rcases hl with hl | hl
        · exact absurd h1 hl
        · rw [h2] at hl; cases hl
  | @next n i p ps rest e hp hl hi _ ih =>
    rcases serves_inv h' with ⟨hno, _⟩ | ⟨p', rest', q, hp', hst, hcase⟩
    · exact absurd rfl (hno p rest hp)
    · obtain ⟨rfl, rfl⟩ := one hp hp' hst
      rcases hcase with ⟨h1, rfl, rfl⟩ | ⟨h1, h2, h3, rfl⟩
      · rcases h1 with h1 | h1
        · exact absurd hl h1
        · rw [hi] at h1; cases h1
      · obtain ⟨rfl, rfl⟩ := ih h3
        exact ⟨rfl, rfl⟩

/-! ### No bytes get past the authentication -/

/-- The calls made for the request with number `k` are those of `handle_request` for that request of the stream. -/
theorem handled_get {H σ : Type} {ord : Dict.Order} {max : Nat} {turn : Nat → Turn H σ} {i : Nat} {ps : List Part} {e : End}
    {calls : List (List (Call H))} (h : Handled ord max turn i ps e calls) {k : Nat} {cs : List (Call H)}
    (hk : calls[k]? = some cs) :
    (∃ p msg, ps[k]? = some p ∧ p.Is ord max msg ∧ cs = (handleRequest (turn (i + k)).run (turn (i + k)).auth
      (turn (i + k)).tables (turn (i + k)).state .ok msg).1) ∨
    (ps[k]? = none ∧ (cs = [.badRequest] ∨ cs = [.finish])) := by
  induction h generalizing k with
  | none => simp at hk
  | faulty hc =>
    cases k with
    | zero => simp at hk; subst hk; exact .inr ⟨rfl, hc⟩
    | succ k => simp at hk
  | @request i p ps e msg more his _ ih =>
    cases k with
    | zero => simp at hk; exact .inl ⟨p, msg, rfl, his, hk.symm⟩
    | succ k =>
      have := ih (k := k) (by simpa using hk)
      rw [show i + 1 + k = i + (k + 1) by omega] at this
      simpa using this

/-- The request that a handler is given differs from the one that was read only in its resource. -/
theorem handler_request {H σ : Type} (run : H → Ret) (a : Option (Auth σ)) (ops : List (Op H)) (st : σ) (rd : Server.ReadResult)
    (req : Msg) (h : H) (q : Msg) (hm : .handler h q ∈ (handleRequest run a (build ops) st rd req).1) :
    ∃ n t, Ends ops req n t ∧ q = redirected req n t ∧ Spec.Paths.Longest (Spec.Dispatch.handlers ops) t h := by
  unfold handleRequest at hm
  split at hm
  · split at hm <;> simp at hm
  · split at hm
    · simp at hm
    · rename_i t q' hl
      obtain ⟨n, h1, h2⟩ := (loop_ends ops req t q').1 hl
      have : .handler h q ∈ dispatch run (build ops).resources t q' := by
        cases a with
        | none => exact hm
        | some a =>
          simp only at hm
          split at hm
          · exact hm
          · simp at hm
      rw [mem_dispatch_handler, Dispatch.find_longest] at this
      exact ⟨n, t, h1, this.2.trans h2, this.1⟩

/-- **C75, every handler call comes from a request of the stream.** If a handler is called for the request with number `k` of
    the connection, that request stands in the stream at that place; the handler is the one of the longest path covering the
    resource in its first line, or the end of the redirects from there. -/
theorem handler_called {H σ : Type} (cfg : Cfg) (m : Msg) (hs : Serving cfg m) (turn : Nat → Turn H σ) (n : Nat)
    (reads : List Reader.Read) (calls : List (List (Call H))) (hcalls : session cfg m turn n 0 {} reads = some calls)
    (k : Nat) (cs : List (Call H)) (hk : calls[k]? = some cs) (h : H) (q : Msg) (hq : .handler h q ∈ cs)
    (ops : List (Op H)) (ht : (turn k).tables = build ops) :
    ∃ ps e p msg, Serves (reading cfg m) (fun i => (turn i).listening) n 0 (Spec.HttpServer.delivered reads) ps e ∧
      ps[k]? = some p ∧ p.Is cfg.ord cfg.maxContent msg ∧
      ∃ j t, Ends ops msg j t ∧ q = redirected msg j t ∧ Spec.Paths.Longest (Spec.Dispatch.handlers ops) t h := by
  obtain ⟨ps, e, calls', h1, h2, h3⟩ := handles_exactly cfg m hs turn n reads
  rw [hcalls] at h2
  cases h2
  rcases handled_get h3 hk with ⟨p, msg, g1, g2, rfl⟩ | ⟨_, rfl | rfl⟩
  · rw [Nat.zero_add, ht] at hq
    exact ⟨ps, e, p, msg, h1, g1, g2, handler_request _ _ _ _ _ _ _ _ hq⟩
  · simp at hq
  · simp at hq

theorem redirected_headers (req : Msg) (n : Nat) (t : Bytes) : (redirected req n t).headers = req.headers := by
  unfold redirected; split <;> rfl

/-- **C75, basic authentication cannot be bypassed.** Whatever bytes arrive in whatever pieces: if the server, with a basic
    authenticator in any state it can have, calls a handler for the request with number `k`, then that request of the stream
    asks for a resource that needs no authentication, or it has an Authorization header with credentials that are correct or
    were accepted before. -/
theorem basic_not_bypassed {H : Type} (cfg : Cfg) (m : Msg) (hs : Serving cfg m) (turn : Nat → Turn H Auth.St) (n : Nat)
    (reads : List Reader.Read) (calls : List (List (Call H))) (hcalls : session cfg m turn n 0 {} reads = some calls)
    (k : Nat) (cs : List (Call H)) (hk : calls[k]? = some cs) (h : H) (q : Msg) (hq : .handler h q ∈ cs)
    (ops : List (Op H)) (ht : (turn k).tables = build ops) (env : Auth.Env) (t0 now : Nat) (hist : List Auth.Event)
    (ha : (turn k).auth = some (Props.Auth.asBasic env now)) (hst : (turn k).state = Auth.basicAfter env t0 hist) :
    ∃ ps e p msg, Serves (reading cfg m) (fun i => (turn i).listening) n 0 (Spec.HttpServer.delivered reads) ps e ∧
      ps[k]? = some p ∧ p.Is cfg.ord cfg.maxContent msg ∧ ∃ j t, Ends ops msg j t ∧ q = redirected msg j t ∧
      (¬ Verif.Spec.Auth.Needs env hist q ∨ ∃ cred name,
        (p.headers ++ p.trailers).get env.ord (b! "Authorization") = b! "Basic " ++ cred ∧
        Verif.Spec.Auth.BasicOk env (fun _ _ => True) hist now cred name) := by
  obtain ⟨ps, e, calls', h1, h2, h3⟩ := handles_exactly cfg m hs turn n reads
  rw [hcalls] at h2
  cases h2
  rcases handled_get h3 hk with ⟨p, msg, g1, g2, rfl⟩ | ⟨_, rfl | rfl⟩
  · rw [Nat.zero_add, ht, ha, hst] at hq
    obtain ⟨j, t, e1, e2, _⟩ := handler_request _ _ _ _ _ _ _ _ hq
    refine ⟨ps, e, p, msg, h1, g1, g2, j, t, e1, e2, ?_⟩
    rcases Props.Auth.basic_gate _ env t0 now hist _ _ _ _ _ hq with hn | ⟨cred, name, hp, hok⟩
    · exact .inl hn
    · refine .inr ⟨cred, name, ?_, hok⟩
      have := hp.1
      rw [e2, redirected_headers, g2.headers] at this
      exact this
  · simp at hq
  · simp at hq

theorem redirected_cookies (req : Msg) (n : Nat) (t : Bytes) : (redirected req n t).cookies = req.cookies := by
  unfold redirected; split <;> rfl

/-- **C75, cookie authentication cannot be bypassed.** As before, with a cookie authenticator: the request asks for a resource
    that is not protected, or the session cookie in the `Cookie` headers of its head is that of a session of a user. -/
theorem cookie_not_bypassed {H : Type} (cfg : Cfg) (m : Msg) (hs : Serving cfg m) (turn : Nat → Turn H Auth.St) (n : Nat)
    (reads : List Reader.Read) (calls : List (List (Call H))) (hcalls : session cfg m turn n 0 {} reads = some calls)
    (k : Nat) (cs : List (Call H)) (hk : calls[k]? = some cs) (h : H) (q : Msg) (hq : .handler h q ∈ cs)
    (ops : List (Op H)) (ht : (turn k).tables = build ops) (env : Auth.Env) (o : Auth.Opts) (t0 now : Nat) (rand : Bytes)
    (hist : List Auth.Event) (ha : (turn k).auth = some (Props.Auth.asCookie env o now rand))
    (hst : (turn k).state = Auth.cookieAfter env o t0 hist) :
    ∃ ps e p msg, Serves (reading cfg m) (fun i => (turn i).listening) n 0 (Spec.HttpServer.delivered reads) ps e ∧
      ps[k]? = some p ∧ p.Is cfg.ord cfg.maxContent msg ∧ ∃ j t, Ends ops msg j t ∧ q = redirected msg j t ∧
      (¬ Spec.Auth.Protected env o hist q ∨ ∃ name, Spec.Auth.SessionOk env o (fun _ _ => True) hist now
        ((addCookies false [] (cfg.ord (p.headers.values (b! "Cookie")))).get env.ord (b! "pion_session_id")) name) := by
  obtain ⟨ps, e, calls', h1, h2, h3⟩ := handles_exactly cfg m hs turn n reads
  rw [hcalls] at h2
  cases h2
  rcases handled_get h3 hk with ⟨p, msg, g1, g2, rfl⟩ | ⟨_, rfl | rfl⟩
  · rw [Nat.zero_add, ht, ha, hst] at hq
    obtain ⟨j, t, e1, e2, _⟩ := handler_request _ _ _ _ _ _ _ _ hq
    refine ⟨ps, e, p, msg, h1, g1, g2, j, t, e1, e2, ?_⟩
    rcases Props.Auth.cookie_gate _ env o t0 now rand hist _ _ _ _ _ hq with hn | ⟨name, hok⟩
    · exact .inl hn
    · refine .inr ⟨name, ?_⟩
      rw [Auth.sessionCookie, e2, redirected_cookies, g2.cookies] at hok
      exact hok
  · simp at hq
  · simp at hq

/-- Every request of the stream is given to `handle_request`. -/
theorem handled_of_part {H σ : Type} {ord : Dict.Order} {max : Nat} {turn : Nat → Turn H σ} {i : Nat} {ps : List Part} {e : End}
    {calls : List (List (Call H))} (h : Handled ord max turn i ps e calls) {k : Nat} {p : Part} (hk : ps[k]? = some p) :
    ∃ msg, p.Is ord max msg ∧ calls[k]? = some (handleRequest (turn (i + k)).run (turn (i + k)).auth (turn (i + k)).tables
      (turn (i + k)).state .ok msg).1 := by
  induction h generalizing k with
  | none => simp at hk
  | faulty hc => simp at hk
  | @request i p' ps e msg more his _ ih =>
    cases k with
    | zero => simp at hk; subst hk; exact ⟨msg, his, rfl⟩
    | succ k =>
      obtain ⟨msg', h1, h2⟩ := ih (k := k) (by simpa using hk)
      rw [show i + 1 + k = i + (k + 1) by omega] at h2
      exact ⟨msg', h1, by simpa using h2⟩

/-- **C75, requests are refused without credentials.** If the request with number `k` of the stream asks for a resource that
    needs authentication and has no Authorization header with Basic credentials, the authenticator refuses it, and nothing
    else is called. -/
theorem refused_without_credentials {H : Type} (cfg : Cfg) (m : Msg) (hs : Serving cfg m) (turn : Nat → Turn H Auth.St)
    (n : Nat) (reads : List Reader.Read) (calls : List (List (Call H)))
    (hcalls : session cfg m turn n 0 {} reads = some calls) {ps : List Part} {e : End}
    (hps : Serves (reading cfg m) (fun i => (turn i).listening) n 0 (Spec.HttpServer.delivered reads) ps e)
    (k : Nat) (p : Part) (hk : ps[k]? = some p) (ops : List (Op H)) (ht : (turn k).tables = build ops)
    (env : Auth.Env) (t0 now : Nat) (hist : List Auth.Event) (ha : (turn k).auth = some (Props.Auth.asBasic env now))
    (hst : (turn k).state = Auth.basicAfter env t0 hist)
    (hnone : ∀ cred, (p.headers ++ p.trailers).get env.ord (b! "Authorization") = b! "Basic " ++ cred → cred = [])
    (hneeds : ∀ msg, p.Is cfg.ord cfg.maxContent msg → ∃ j t, Ends ops msg j t ∧ Verif.Spec.Auth.Needs env hist (redirected msg j t)) :
    calls[k]? = some [.refused] := by
  obtain ⟨ps', e', calls', h1, h2, h3⟩ := handles_exactly cfg m hs turn n reads
  rw [hcalls] at h2
  cases h2
  obtain ⟨rfl, rfl⟩ := requests_unique _ hs.order hs.max _ hps h1
  obtain ⟨msg, g1, g2⟩ := handled_of_part h3 hk
  obtain ⟨j, t, e1, e2⟩ := hneeds msg g1
  rw [g2, Nat.zero_add, ht, ha, hst, refused_nothing_runs _ _ ops _ msg g1.valid e1]
  have := Props.Auth.basic_no_credentials env t0 hist now (redirected msg j t) e2 (by
    rintro cred ⟨c1, c2⟩
    rw [redirected_headers, g1.headers] at c1
    exact c2 (hnone cred c1))
  unfold Props.Auth.asBasic
  simp only [this]
  rfl

/-! ### A server -/

def serverCfg : Cfg := { isRequest := true }

/-- Handlers for `/pub` and `/private`; `/private` needs authentication. -/
def exampleOps : List (Op Nat) := [.addResource (b! "/pub") 1, .addResource (b! "/private") 2, .addRedirect (b! "/in") (b! "/private")]

def exampleTurn (_ : Nat) : Turn Nat Auth.St where
  tables := build exampleOps
  auth := some (Props.Auth.asBasic Props.Auth.env 5)
  state := Auth.basicAfter Props.Auth.env 0 Props.Auth.setup
  run _ := .returns

theorem exampleServing : Serving serverCfg {} where
  blank := ⟨rfl, rfl, rfl, rfl⟩
  noCookies := rfl
  noQueries := rfl
  request := rfl
  whole := rfl
  stored := rfl
  order := fun l => List.Perm.refl l
  max := by decide +kernel

/-- Which calls are made, with the resource a handler sees. -/
def sees : Call Nat → Option (Nat × Bytes)
  | .handler h q => some (h, q.resource)
  | .refused => some (0, [])
  | _ => none

def serves (reads : List Bytes) (last : List Reader.Read) : Option (List (List (Option (Nat × Bytes)))) :=
  (session serverCfg {} exampleTurn 9 0 {} (reads.map .data ++ last)).map (·.map (·.map sees))

def pubRequest : Bytes := b! "GET /pub/a HTTP/1.1\r\n\r\n"
def plainRequest : Bytes := b! "GET /private HTTP/1.1\r\n\r\n"
def goodRequest : Bytes := b! "GET /in HTTP/1.1\r\nAuthorization: Basic YW5uOng=\r\n\r\n"

/-- Three requests, cut in the middle, and then the connection fails: two are answered by handlers, one is refused; the beginning
    of a fourth is not handled. -/
example : serves [pubRequest ++ plainRequest ++ goodRequest.take 9, goodRequest.drop 9 ++ b! "GET /pr"] [.error] =
    some [[some (1, b! "/pub/a")], [some (0, [])], [some (2, b! "/private")], [none]] := by decide +kernel

/-- After a request that closes the connection nothing is handled. -/
example : serves [b! "GET /pub HTTP/1.0\r\n\r\n" ++ goodRequest] [] = some [[some (1, b! "/pub")]] := by decide +kernel

/-- The example is an instance of `basic_not_bypassed`. -/
example : (exampleTurn 2).tables = build exampleOps ∧ (exampleTurn 2).auth = some (Props.Auth.asBasic Props.Auth.env 5) ∧
    (exampleTurn 2).state = Auth.basicAfter Props.Auth.env 0 Props.Auth.setup ∧
    Spec.Auth.Needs Props.Auth.env Props.Auth.setup (Props.Auth.get (b! "/private")) :=
  ⟨rfl, rfl, rfl, (Auth.needs_basic Props.Auth.env 0 Props.Auth.setup _).1 (by decide +kernel)⟩

def trailerRequest : Bytes :=
  b! "GET /private HTTP/1.1\r\nTransfer-Encoding: chunked\r\n\r\n0\r\nAuthorization: Basic YW5uOng=\r\n\r\n"

/-- **Finding.** The credentials of a request may stand after its body: the headers in the trailers are added to those of the
    head without any check, although Authorization must not be taken from there (RFC 7230, 4.1.2). -/
theorem trailer_credentials : serves [trailerRequest] [] = some [[some (2, b! "/private")]] := by decide +kernel

end Verif.Props.HttpServer
