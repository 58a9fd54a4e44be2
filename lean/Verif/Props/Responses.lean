import Mathlib.Tactic.Common
import Verif.Model.Responses
import Verif.Spec.Responses
import Verif.Props.Writer
import Verif.Props.XmlEncode
import Verif.Props.Base64
/-
C56 (pages the library makes up itself), C57 (headers made from request text), C58 (the echo service).
-/
namespace Verif.Props.Responses
open Verif.Http hiding run
open Verif.Writer Verif.Spec.Writer Verif.Spec.Responses Verif.Responses Verif.Props.Dict Verif.Props.HttpBody Verif.Props.Writer

/-- The page of a reply: everything written. -/
def page (r : Reply) : Bytes := written r.writes

/-- A reply that can be sent: the status line and the headers satisfy the HTTP grammar, the handler only writes, and there
    is a page only if the status allows it. -/
structure Sendable (r : Reply) : Prop where
  code : r.code < 65536
  text : ∀ c ∈ r.text, textChar c
  textSize : r.text.length ≤ 1024
  headers : ∀ e ∈ r.headers, HeaderOk e
  notChunked : Message.NotChunked r.headers
  writes : OnlyWrites r.writes
  allowed : (Head.response 1 1 r.code r.text).Bodyless [] → page r = []

theorem holds_of_same {ka : Bool} {m r : Msg} {body : Bytes} (h : Message.SameMessage false ka m body r)
    (hck : m.cookies = []) : Holds r m.statusCode m.statusMessage m.headers body where
  code := h.firstLine.1
  text := h.firstLine.2.1
  content := h.content
  length := h.contentLength
  headers := by
    rw [List.perm_iff_count]
    intro a
    by_cases ha : (!iequals a.1 (b! "Connection") && !iequals a.1 (b! "Content-Length")) = true
    · have hc : ∀ d : Dict, List.count a (ownHeaders d) = List.count a (matching d a.1) := by
        intro d
        unfold ownHeaders matching
        rw [List.count_filter (p := fun e : Bytes × Bytes => !iequals e.1 (b! "Connection") && !iequals e.1 (b! "Content-Length")) ha,
          List.count_filter (p := fun e : Bytes × Bytes => iequals e.1 a.1) (iequals_refl _)]
      rw [hc, hc]
      rw [Bool.and_eq_true, Bool.not_eq_true', Bool.not_eq_true'] at ha
      by_cases hk : iequals a.1 (b! "Set-Cookie") = true
      · have := h.cookies
        rw [hck] at this
        simp only [Bool.false_eq_true, if_false, List.map_nil, List.append_nil] at this
        rw [matching_congr hk, matching_congr hk]
        exact this.count_eq a
      · exact (h.others a.1 ha.1 ha.2 (by simpa using hk)).count_eq a
    · have hc : ∀ d : Dict, List.count a (ownHeaders d) = 0 := by
        intro d
        apply List.count_eq_zero_of_not_mem
        intro hm
        exact ha (List.mem_filter.1 hm).2
      rw [hc, hc]

theorem responseTo_facts (req : Msg) : (responseTo req).contentLength = 0 ∧ (responseTo req).cookies = [] ∧
    (responseTo req).doNotSendContentLength = false ∧ (responseTo req).verMajor < 65536 ∧ (responseTo req).verMinor < 65536 := by
  unfold responseTo
  split
  · exact ⟨rfl, rfl, rfl, by dsimp only; omega, by dsimp only; omega⟩
  · split <;> exact ⟨rfl, rfl, rfl, by dsimp only; omega, by dsimp only; omega⟩

/-- A response is the answer to a request without body if it answers HEAD or its status is one of those without body. -/
theorem bodyless_response (rm : Bytes) (a b c : Nat) (x : Bytes) : (Head.response a b c x).Bodyless rm ↔
    rm = b! "HEAD" ∨ (Head.response 1 1 c x).Bodyless [] := by
  constructor
  · rintro (h | h)
    · exact .inl h
    · exact .inr (.inr h)
  · rintro (h | h | h)
    · exact .inl h
    · exact absurd h (by decide)
    · exact .inr h

/-- The answer to a request, received by a client that does not wait for the answer to a HEAD request (or there is no page):
    one response, the message the handler has made up. -/
theorem reply_same (cfg : Cfg) (hk : cfg.isRequest = false) (m0 : Msg) (hb : Blank m0) (hord : Http.OrderOk cfg.ord)
    (hho : cfg.headersOnly = false) (hhand : cfg.handler = false) (t : TableOrder) (ht : t.Ok) (req : Msg)
    (lc : Lifecycle) (r : Reply) (hr : Sendable r) (hhead : m0.requestMethod ≠ b! "HEAD" ∨ page r = [])
    (hsize : (page r).length + 1 < 2 ^ 64) (hmax : (page r).length ≤ cfg.maxContent)
    (tail : Bytes) (bufs : List Bytes) (hcut : Cuts bufs ((r.writer t req lc).wire ++ tail)) :
    ∃ o, outcome cfg (fresh cfg m0) bufs = some o ∧ o.result = .yes ∧ o.error = none ∧ o.unread = tail ∧
      o.message.isValid = true ∧ Message.SameMessage false (lc != .close)
        { responseTo req with statusCode := r.code, statusMessage := r.text, headers := r.headers } (page r) o.message := by
  obtain ⟨h1, h2, h3, h4, h5⟩ := responseTo_facts req
  unfold Reply.writer at hcut
  generalize hw : ({ newResponseWriterFor req lc with
    msg := { responseTo req with statusCode := r.code, statusMessage := r.text, headers := r.headers } } : W) = w at hcut
  have hmsg : w.msg = { responseTo req with statusCode := r.code, statusMessage := r.text, headers := r.headers } := by
    rw [← hw]
  have hreq : w.isRequest = false := by rw [← hw]; rfl
  have hlc : w.lifecycle = lc := by rw [← hw]; rfl
  have hi : Initial w [] := by
    rw [← hw]; exact ⟨⟨rfl, fun _ => rfl⟩, rfl, rfl, rfl, rfl, rfl⟩
  have hhd : w.msg.head w.isRequest = .response (responseTo req).verMajor (responseTo req).verMinor r.code r.text := by
    rw [hreq, hmsg]; rfl
  obtain ⟨o, ho, g1, g2, g3, g4, g5⟩ := send_received_partial cfg m0 hb hord hho hhand t ht w [] hi (by rw [hk, hreq])
    r.writes hr.writes (page r) (by simp [page]) (by rw [hhd]; exact ⟨hr.text, hr.textSize, h4, h5, hr.code⟩)
    (by rw [hmsg]; exact hr.headers) (by rw [hmsg]; dsimp only; rw [h2]; simp) (by rw [hmsg]; exact hr.notChunked)
    (by rw [hmsg]; exact h3) (.inr (by rw [hmsg]; exact h1)) hsize hmax
    (by
      rw [hhd, bodyless_response]
      rintro (h | h)
      · exact hhead.resolve_left fun hn => hn h
      · exact hr.allowed h) tail bufs hcut
  refine ⟨o, ho, g1, g2, g3, g4, ?_⟩
  rw [hreq, hlc, hmsg] at g5
  exact g5

/-- **C56 (every reply; partial: see `head_answer_unread`).** The answer to a request that is not a HEAD request is received
    by the client as one response with the status, the headers and the page of the reply, however the stream is cut into
    buffers; nothing is left over. -/
theorem reply_received_partial (cfg : Cfg) (hk : cfg.isRequest = false) (m0 : Msg) (hb : Blank m0) (hord : Http.OrderOk cfg.ord)
    (hho : cfg.headersOnly = false) (hhand : cfg.handler = false) (t : TableOrder) (ht : t.Ok) (req : Msg)
    (lc : Lifecycle) (r : Reply) (hr : Sendable r) (hm : m0.requestMethod = req.method) (hhead : req.method ≠ b! "HEAD")
    (hsize : (page r).length + 1 < 2 ^ 64) (hmax : (page r).length ≤ cfg.maxContent)
    (tail : Bytes) (bufs : List Bytes) (hcut : Cuts bufs ((r.writer t req lc).wire ++ tail)) :
    ∃ o, outcome cfg (fresh cfg m0) bufs = some o ∧ o.result = .yes ∧ o.error = none ∧ o.unread = tail ∧
      Holds o.message r.code r.text r.headers (page r) := by
  obtain ⟨o, ho, g1, g2, g3, _, g5⟩ := reply_same cfg hk m0 hb hord hho hhand t ht req lc r hr (.inl (by rw [hm]; exact hhead))
    hsize hmax tail bufs hcut
  exact ⟨o, ho, g1, g2, g3, holds_of_same g5 (responseTo_facts req).2.1⟩

/-- C56 (the version): the answer to a request without a version, or of version 0, says that it is of version 0.0, all others
    say 1.1; an answer for which no status is set has status 0 without a text then, otherwise 200. (The code expects no head to
    be sent then, response.hpp:100; but it is sent.) -/
theorem version_told (cfg : Cfg) (hk : cfg.isRequest = false) (m0 : Msg) (hb : Blank m0) (hord : Http.OrderOk cfg.ord)
    (hho : cfg.headersOnly = false) (hhand : cfg.handler = false) (t : TableOrder) (ht : t.Ok) (req : Msg)
    (lc : Lifecycle) (r : Reply) (hr : Sendable r) (hhead : m0.requestMethod ≠ b! "HEAD" ∨ page r = [])
    (hsize : (page r).length + 1 < 2 ^ 64) (hmax : (page r).length ≤ cfg.maxContent)
    (tail : Bytes) (bufs : List Bytes) (hcut : Cuts bufs ((r.writer t req lc).wire ++ tail)) :
    ∃ o, outcome cfg (fresh cfg m0) bufs = some o ∧
      (o.message.verMajor, o.message.verMinor) = if req.verMajor = 0 then (0, 0) else (1, 1) := by
  obtain ⟨o, ho, _, _, _, _, g5⟩ := reply_same cfg hk m0 hb hord hho hhand t ht req lc r hr hhead hsize hmax tail bufs hcut
  refine ⟨o, ho, ?_⟩
  obtain ⟨_, _, h1, h2⟩ : _ ∧ _ ∧ o.message.verMajor = (responseTo req).verMajor ∧ o.message.verMinor = (responseTo req).verMinor :=
    g5.firstLine
  rw [h1, h2]
  unfold responseTo
  by_cases h0 : req.verMajor = 0
  · simp [h0]
  · rw [if_neg h0, if_neg h0]
    split <;> rfl

theorem status_unset (req : Msg) (headers : Dict) (writes : List Op) :
    ((Reply.plain req headers writes).code, (Reply.plain req headers writes).text) =
      if req.verMajor = 0 then (0, []) else (200, b! "OK") := by
  unfold Reply.plain responseTo
  by_cases h0 : req.verMajor = 0
  · simp [h0]
  · rw [if_neg h0, if_neg h0]
    split <;> rfl

/-- **C56 is violated for HEAD requests.** Whatever the reply is: if it has a page, the page is sent although the request
    was HEAD; a client, which knows that there is no body, takes the page for the start of the next response. -/
theorem head_answer_unread (cfg : Cfg) (hk : cfg.isRequest = false) (m0 : Msg) (hb : Blank m0) (hord : Http.OrderOk cfg.ord)
    (hho : cfg.headersOnly = false) (t : TableOrder) (ht : t.Ok) (req : Msg)
    (lc : Lifecycle) (r : Reply) (hr : Sendable r) (hm : m0.requestMethod = req.method) (hhead : req.method = b! "HEAD")
    (hsize : (page r).length + 1 < 2 ^ 64) (tail : Bytes) (bufs : List Bytes)
    (hcut : Cuts bufs ((r.writer t req lc).wire ++ tail)) :
    ∃ o, outcome cfg (fresh cfg m0) bufs = some o ∧ o.result = .yes ∧ o.message.contentLength = 0 ∧
      o.unread = page r ++ tail := by
  obtain ⟨h1, h2, h3, h4, h5⟩ := responseTo_facts req
  unfold Reply.writer at hcut
  generalize hw : ({ newResponseWriterFor req lc with
    msg := { responseTo req with statusCode := r.code, statusMessage := r.text, headers := r.headers } } : W) = w at hcut
  have hmsg : w.msg = { responseTo req with statusCode := r.code, statusMessage := r.text, headers := r.headers } := by
    rw [← hw]
  have hreq : w.isRequest = false := by rw [← hw]; rfl
  have hi : Initial w [] := by
    rw [← hw]; exact ⟨⟨rfl, fun _ => rfl⟩, rfl, rfl, rfl, rfl, rfl⟩
  obtain ⟨m', htr⟩ := send_eq_transmit t w [] hi r.writes hr.writes (.inr (by rw [hmsg]; exact h1))
  rw [List.nil_append] at htr
  change Msg.transmit t w.isRequest (w.lifecycle != .close) false
      { w.msg with contentLength := (page r).length, content := (page r).map some } = _ at htr
  generalize hmm : ({ w.msg with contentLength := (page r).length, content := (page r).map some } : Msg) = m at htr
  rw [Message.transmit_eq t w.isRequest _ m (page r) (by rw [← hmm]) (by rw [← hmm])] at htr
  obtain ⟨-, hwire⟩ := Prod.mk.inj (Option.some.inj htr)
  rw [← hwire, List.append_assoc] at hcut
  have hhd : m.head w.isRequest = .response (responseTo req).verMajor (responseTo req).verMinor r.code r.text := by
    rw [hreq, ← hmm, hmsg]; rfl
  have hset : Setting cfg m0 (m.head w.isRequest) (t.iter (m.sentHeaders t w.isRequest (w.lifecycle != .close) false)) :=
    ⟨hb, hord, by rw [hhd, hk]; rfl, by rw [hhd]; exact ⟨hr.text, hr.textSize, h4, h5, hr.code⟩,
     fun e he => sentHeaders_ok t ht _ _ _ m (by rw [← hmm, hmsg]; exact hr.headers)
       (by rw [← hmm, hmsg]; dsimp only; rw [h2]; simp) (by rw [← hmm]; dsimp only; omega) e
       ((ht _).subset he), hho⟩
  have hnc : ¬ AnnouncesChunks cfg.ord (t.iter (m.sentHeaders t w.isRequest (w.lifecycle != .close) false)) := by
    rintro ⟨v, hv, hch⟩
    obtain ⟨name, hmem⟩ := find?_mem hord hv
    have := (matching_perm (ht _) _).subset hmem
    rw [matching_sent_te, ← hmm, hmsg] at this
    exact hr.notChunked _ this hch
  obtain ⟨o, ho, hcomp, hcon, hclen, hcnt⟩ := bodyless_complete_partial cfg m0 _ _ hset hnc
    (by rw [hhd, bodyless_response]; exact .inl (hm.trans hhead)) (page r ++ tail) bufs hcut
  exact ⟨o, ho, hcomp.result, hclen, hcomp.unread⟩

/-! ### The replies -/

/-- The replies of `http::server` and of the authenticators. Headers made from parameters must be legal. -/
inductive Builtin : Reply → Prop where
  | badRequest : Builtin badRequest
  | notFound (req) : Builtin (notFound req)
  | serverError (error) : Builtin (serverError error)
  | forbidden (req error) : Builtin (forbidden req error)
  | methodNotAllowed (req allowed) (h : allowed = [] ∨ HeaderOk (b! "Allow", allowed)) : Builtin (methodNotAllowed req allowed)
  | basicUnauthorized (realm) (h : HeaderOk (b! "WWW-Authenticate", b! "Basic realm=\"" ++ realm ++ b! "\"")) :
      Builtin (basicUnauthorized realm)
  | cookieUnauthorized : Builtin cookieUnauthorized
  | hello (req) (h : req.verMajor ≠ 0) : Builtin (hello req)
  | allowNothing : Builtin allowNothing

theorem onlyWrites_iff (ops : List Op) : OnlyWrites ops ↔ ops.all (fun op => match op with | .text _ => true | .buffer _ => true | _ => false) = true := by
  unfold OnlyWrites
  rw [List.all_eq_true]
  constructor
  · intro h op hop
    obtain ⟨d, rfl | rfl⟩ := h op hop <;> rfl
  · intro h op hop
    have := h op hop
    cases op with
    | text d => exact ⟨d, .inl rfl⟩
    | buffer d => exact ⟨d, .inr rfl⟩
    | _ => simp at this

theorem notChunked_of {hs : Dict} (h : ∀ e ∈ hs, iequals e.1 (b! "Transfer-Encoding") = false) : Message.NotChunked hs := by
  intro e he
  obtain ⟨h1, h2⟩ := List.mem_filter.1 he
  rw [h e h1] at h2
  cases h2

/-- A status line that is legal and allows a body. -/
def statusOk (code : Nat) (text : Bytes) : Bool :=
  decide (code < 65536) && text.all (fun c => !isControl c) && decide (text.length ≤ 1024) &&
    decide (200 ≤ code ∧ code ≠ 204 ∧ code ≠ 205 ∧ code ≠ 304)

theorem sendable_of {r : Reply} (code : Nat) (text : Bytes) (h1 : r.code = code) (h2 : r.text = text)
    (hs : statusOk code text = true) (hw : OnlyWrites r.writes)
    (hh : ∀ e ∈ r.headers, HeaderOk e ∧ iequals e.1 (b! "Transfer-Encoding") = false) : Sendable r := by
  subst h1 h2
  simp only [statusOk, Bool.and_eq_true, decide_eq_true_eq, List.all_eq_true, Bool.not_eq_true'] at hs
  refine ⟨hs.1.1.1, hs.1.1.2, hs.1.2, fun e he => (hh e he).1, notChunked_of fun e he => (hh e he).2, hw, ?_⟩
  rintro (h | h | h | h | h)
  · exact absurd h (by decide)
  all_goals omega

theorem status_plain (req : Msg) (h : req.verMajor ≠ 0) :
    (responseTo req).statusCode = 200 ∧ (responseTo req).statusMessage = b! "OK" := by
  unfold responseTo
  rw [if_neg h]
  split <;> exact ⟨rfl, rfl⟩

theorem builtin_sendable {r : Reply} (h : Builtin r) : Sendable r := by
  cases h with
  | badRequest => exact sendable_of 400 (b! "Bad Request") rfl rfl (by decide +kernel) ((onlyWrites_iff _).2 rfl) nofun
  | notFound req => exact sendable_of 404 (b! "Not Found") rfl rfl (by decide +kernel) ((onlyWrites_iff _).2 rfl) nofun
  | serverError e => exact sendable_of 500 (b! "Server Error") rfl rfl (by decide +kernel) ((onlyWrites_iff _).2 rfl) nofun
  | forbidden req e => exact sendable_of 403 (b! "Forbidden") rfl rfl (by decide +kernel) ((onlyWrites_iff _).2 rfl) nofun
  | cookieUnauthorized => exact sendable_of 401 (b! "Unauthorized") rfl rfl (by decide +kernel) ((onlyWrites_iff _).2 rfl) nofun
  | methodNotAllowed req allowed h =>
    refine sendable_of 405 (b! "Method Not Allowed") rfl rfl (by decide +kernel) ((onlyWrites_iff _).2 rfl) ?_
    intro e he
    unfold Responses.methodNotAllowed at he
    dsimp only at he
    split at he
    · simp at he
    · rename_i hne
      rw [List.mem_singleton] at he
      subst he
      rcases h with rfl | h
      · exact absurd rfl hne
      · exact ⟨h, show iequals (b! "Allow") (b! "Transfer-Encoding") = false by decide +kernel⟩
  | basicUnauthorized realm h =>
    refine sendable_of 401 (b! "Unauthorized") rfl rfl (by decide +kernel) ((onlyWrites_iff _).2 rfl) ?_
    intro e he
    obtain rfl := List.mem_singleton.1 he
    exact ⟨h, show iequals (b! "WWW-Authenticate") (b! "Transfer-Encoding") = false by decide +kernel⟩
  | hello req h =>
    exact sendable_of 200 (b! "OK") (status_plain req h).1 (status_plain req h).2 (by decide +kernel) ((onlyWrites_iff _).2 rfl) nofun
  | allowNothing =>
    refine sendable_of 405 (b! "Method Not Allowed") rfl rfl (by decide +kernel) ((onlyWrites_iff _).2 rfl) ?_
    intro e he
    obtain rfl := List.mem_singleton.1 he
    exact ⟨⟨⟨by decide +kernel, by decide +kernel, by decide +kernel⟩, by unfold valueChar; decide +kernel, by decide +kernel⟩,
      by decide +kernel⟩


/-- **C56 (the error pages and the authenticators' answers; partial: see `head_answer_unread`).** -/
theorem builtin_received_partial (cfg : Cfg) (hk : cfg.isRequest = false) (m0 : Msg) (hb : Blank m0) (hord : Http.OrderOk cfg.ord)
    (hho : cfg.headersOnly = false) (hhand : cfg.handler = false) (t : TableOrder) (ht : t.Ok) (req : Msg)
    (lc : Lifecycle) (r : Reply) (hr : Builtin r) (hm : m0.requestMethod = req.method) (hhead : req.method ≠ b! "HEAD")
    (hsize : (page r).length + 1 < 2 ^ 64) (hmax : (page r).length ≤ cfg.maxContent)
    (tail : Bytes) (bufs : List Bytes) (hcut : Cuts bufs ((r.writer t req lc).wire ++ tail)) :
    ∃ o, outcome cfg (fresh cfg m0) bufs = some o ∧ o.result = .yes ∧ o.error = none ∧ o.unread = tail ∧
      Holds o.message r.code r.text r.headers (page r) :=
  reply_received_partial cfg hk m0 hb hord hho hhand t ht req lc r (builtin_sendable hr) hm hhead hsize hmax tail bufs hcut

/-- The answer of `AllowNothingService`, whatever the request: 405, and `GET` is named as allowed, although it is not: the same
    answer is given to a `GET`. -/
theorem allowNothing_page : allowNothing.code = 405 ∧ allowNothing.text = b! "Method Not Allowed" ∧
    allowNothing.headers = [(b! "Allow", b! "GET")] ∧ page allowNothing = b! "<html><body>No, you can't.</body></html>\r\n\r\n" := by
  decide +kernel

/-- The sizes: escaped text is at most six times as long. -/
theorem escape_length (s : Bytes) : (escape s).length ≤ 6 * s.length := by
  obtain ⟨e, h, hp⟩ := XmlEncode.encode_induction (fun s e => e.length ≤ 6 * s.length) (by simp) (by
    intro s o rest e hs _ hp
    cases hs with
    | ascii c rest h =>
      have : (XmlEncode.ascii c).length ≤ 6 := by
        unfold XmlEncode.ascii
        repeat' split
        all_goals first | decide | simp
      simp only [List.length_append, List.length_cons]; omega
    | repl c rest h hu => simp only [XmlEncode.replacement, List.length_append, List.length_cons, List.length_nil]; omega
    | two c c1 rest h h1 => simp only [List.length_append, List.length_cons, List.length_nil]; omega
    | three c c1 c2 rest h h1 h2 => simp only [List.length_append, List.length_cons, List.length_nil]; omega
    | four c c1 c2 c3 rest h h1 h2 h3 => simp only [List.length_append, List.length_cons, List.length_nil]; omega) s
  unfold escape
  rw [h]
  exact hp

theorem notFound_size (req : Msg) : (page (notFound req)).length ≤ 200 + 6 * req.resource.length := by
  have := escape_length req.resource
  simp only [page, notFound, written, List.length_append, List.length_nil]
  rw [show (b! "<html><head>\n<title>404 Not Found</title>\n</head><body>\n<h1>Not Found</h1>\n<p>The requested URL ").length = 96 by decide +kernel,
    show (b! " was not found on this server.</p>\n</body></html>\n").length = 50 by decide +kernel]
  omega

theorem markup_of_safe {s : Bytes} (h : Spec.Xml.safe s = true) : markup s = [] := by
  induction s with
  | nil => rfl
  | cons c r ih =>
    rw [Spec.Xml.safe, Bool.and_eq_true, Bool.and_eq_true] at h
    have hc : Spec.Xml.forbidden.contains c = false := by
      have h1 := h.1.1
      split at h1
      · rename_i hc; rw [hc]; decide +kernel
      · simpa using h1
    unfold markup
    rw [List.filter_cons, hc]
    exact ih h.2

theorem markup_append (a b : Bytes) : markup (a ++ b) = markup a ++ markup b := List.filter_append ..

theorem markup_escape (s : Bytes) : markup (escape s) = [] := markup_of_safe (XmlEncode.xml_encode_safe s)

/-- **C56 (no markup from requests).** The tags and attributes of the error pages do not depend on the request or the error
    text: the pages for any request and error have the markup of the pages for an empty one. (The forbidden page is excepted,
    see `forbidden_markup_partial`.) -/
theorem pages_markup (req : Msg) (error allowed : Bytes) :
    markup (page (notFound req)) = markup (page (notFound {})) ∧
    markup (page (serverError error)) = markup (page (serverError [])) ∧
    markup (page (methodNotAllowed req allowed)) = markup (page (methodNotAllowed { method := [] } [])) := by
  refine ⟨?_, ?_, ?_⟩
  all_goals
    simp only [page, notFound, serverError, methodNotAllowed, written, markup_append, markup_escape]

/-- The part that holds of the forbidden page: error texts without markup characters add none. -/
theorem forbidden_markup_partial (req : Msg) (error : Bytes) (h : markup error = []) :
    markup (page (forbidden req error)) = markup (page (forbidden {} [])) := by
  simp only [page, forbidden, written, markup_append, markup_escape, h]
  rfl

/-- **C56 is violated by the forbidden page**: the error text is written as it is, so it can add tags. -/
theorem forbidden_markup_violated : ∃ error, markup (page (forbidden {} error)) ≠ markup (page (forbidden {} [])) :=
  ⟨b! "<script>", by decide +kernel⟩

/-- What is shown is what was asked for: if the resource is UTF-8 without control characters, reading the page back gives the
    resource. -/
theorem notFound_shows (req : Msg) (hu : Spec.Xml.utf8 req.resource = true) (hc : Spec.Xml.noControls req.resource = true) :
    ∃ pre post text, page (notFound req) = pre ++ text ++ post ∧ pre = b! "<html><head>\n<title>404 Not Found</title>\n</head><body>\n<h1>Not Found</h1>\n<p>The requested URL " ∧
      post = b! " was not found on this server.</p>\n</body></html>\n" ∧ Spec.Xml.unescape text = req.resource :=
  ⟨_, _, escape req.resource, by simp only [page, notFound, written, List.append_nil, List.append_assoc], rfl, rfl,
    XmlEncode.xml_encode_lossless _ hu hc⟩

example : (notFound { resource := b! "/a<b>" } |>.writer {} {} .keepAlive).wire = b! "HTTP/1.1 404 Not Found\r\nConnection: Keep-Alive\r\nContent-Length: 157\r\n\r\n<html><head>\n<title>404 Not Found</title>\n</head><body>\n<h1>Not Found</h1>\n<p>The requested URL /a&lt;b&gt; was not found on this server.</p>\n</body></html>\n" := by
  decide +kernel
example : Builtin (notFound { resource := b! "/a" }) ∧ (page (notFound { resource := b! "/a" })).length ≤ (respCfg).maxContent :=
  ⟨.notFound _, by decide +kernel⟩
example : (outcome respCfg (fresh respCfg { requestMethod := b! "HEAD" })
    [(notFound {}).writer {} { method := b! "HEAD" } .keepAlive |>.wire]).map (fun o => (o.result, o.message.statusCode, o.unread)) =
    some (.yes, 404, page (notFound {})) := by decide +kernel


/-! ### C57: headers made from request text -/

theorem valueChar_of {s : Bytes} (h : s.all (fun c => c = 0x09 || !isControl c) = true) : ∀ c ∈ s, valueChar c := by
  intro c hc
  have := List.all_eq_true.1 h c hc
  simpa [valueChar] using this

/-- A header made of a fixed name and a legal value. -/
theorem headerOk_of {k v : Bytes} (hk : k ≠ [] ∧ (k.all fun c => !badToken c) = true ∧ k.length ≤ 1024)
    (hv : ∀ c ∈ v, valueChar c) (hs : v.length ≤ 1048576) : HeaderOk (k, v) :=
  ⟨⟨hk.1, fun c hc => by simpa using List.all_eq_true.1 hk.2.1 c hc, hk.2.2⟩, hv, hs⟩

theorem setCookie_ok {name value path : Bytes} {age : Option Nat} (hn : ∀ c ∈ name, valueChar c)
    (hv : ∀ c ∈ value, valueChar c) (hp : ∀ c ∈ path, valueChar c) (ha : ∀ n ∈ age, n < 2 ^ 64)
    (hs : name.length + value.length + path.length ≤ 1000000) :
    HeaderOk (b! "Set-Cookie", Msg.setCookieHeader name value path age) := by
  have h1 := valueChar_of (s := b! "=\"") (by decide +kernel)
  have h2 := valueChar_of (s := b! "\"; Version=1") (by decide +kernel)
  have h3 := valueChar_of (s := b! "; Path=") (by decide +kernel)
  have h4 := valueChar_of (s := b! "; Max-Age=") (by decide +kernel)
  have hd : ∀ n c, c ∈ toDec n → valueChar c := by
    intro n c hc
    have := toDec_isDigit n c hc
    right
    revert this; clear hc; revert c; decide +kernel
  refine headerOk_of (by decide +kernel) ?_ ?_
  · intro c hc
    unfold Msg.setCookieHeader at hc
    simp only [List.mem_append] at hc
    rcases hc with (((((h | h) | h) | h) | h)) | h
    · exact hn c h
    · exact h1 c h
    · exact hv c h
    · exact h2 c h
    · split at h
      · cases h
      · rcases List.mem_append.1 h with h | h
        · exact h3 c h
        · exact hp c h
    · split at h
      · cases h
      · rcases List.mem_append.1 h with h | h
        · exact h4 c h
        · exact hd _ c h
  · unfold Msg.setCookieHeader
    have hp' : (if path.isEmpty then [] else b! "; Path=" ++ path).length ≤ 7 + path.length := by
      split
      · simp
      · rw [List.length_append, show (b! "; Path=").length = 7 by decide +kernel]
    cases age with
    | none =>
      simp only [List.length_append, List.length_nil]
      rw [show (b! "=\"").length = 2 by decide +kernel, show (b! "\"; Version=1").length = 12 by decide +kernel]
      omega
    | some n =>
      have := toDec_length (ha n rfl)
      simp only [List.length_append]
      rw [show (b! "=\"").length = 2 by decide +kernel, show (b! "\"; Version=1").length = 12 by decide +kernel,
        show (b! "; Max-Age=").length = 10 by decide +kernel]
      omega

theorem base64_valueChar (x : Bytes) : ∀ c ∈ Base64.encode x, valueChar c := by
  obtain ⟨-, data, he, hd⟩ := Base64.base64_encode_shape x
  intro c hc
  rw [he] at hc
  rcases List.mem_append.1 hc with h | h
  · exact valueChar_of (s := Spec.Base64.alphabet) (by decide +kernel) c (hd c h)
  · obtain ⟨-, rfl⟩ := List.mem_replicate.1 h
    exact .inr (by decide +kernel)

theorem sessionHeader_ok {newCookie : Bytes} {delete : Bool} (hv : ∀ c ∈ newCookie, valueChar c)
    (hs : newCookie.length ≤ 900000) : ∀ e ∈ sessionHeader newCookie delete, HeaderOk e ∧ iequals e.1 (b! "Transfer-Encoding") = false := by
  have hn := valueChar_of (s := b! "pion_session_id") (by decide +kernel)
  have hl : (b! "pion_session_id").length = 15 := by decide +kernel
  have hne : iequals (b! "Set-Cookie") (b! "Transfer-Encoding") = false := by decide +kernel
  intro e he
  unfold sessionHeader at he
  split at he
  · obtain rfl := List.mem_singleton.1 he
    exact ⟨setCookie_ok hn nofun nofun (by rintro n ⟨⟩; omega) (by rw [hl]; simp), hne⟩
  · split at he
    · cases he
    · obtain rfl := List.mem_singleton.1 he
      exact ⟨setCookie_ok hn hv nofun nofun (by rw [hl]; simp; omega), hne⟩

theorem redirection_sendable {url newCookie : Bytes} {delete : Bool} (hu : ∀ c ∈ url, valueChar c)
    (hul : url.length ≤ 1048576) (hv : ∀ c ∈ newCookie, valueChar c) (hs : newCookie.length ≤ 900000) :
    Sendable (redirection url newCookie delete) := by
  refine sendable_of 302 (b! "Found") rfl rfl (by decide +kernel) ((onlyWrites_iff _).2 rfl) ?_
  intro e he
  rcases List.mem_cons.1 he with rfl | he
  · exact ⟨headerOk_of (by decide +kernel) hu hul, show iequals (b! "Location") (b! "Transfer-Encoding") = false by decide +kernel⟩
  · exact sessionHeader_ok hv hs e he

theorem cookieOk_sendable {newCookie : Bytes} {delete : Bool} (hv : ∀ c ∈ newCookie, valueChar c)
    (hs : newCookie.length ≤ 900000) : Sendable (cookieOk newCookie delete) := by
  have h := sessionHeader_ok (delete := delete) hv hs
  exact ⟨by show 204 < 65536; omega, by
    have : ∀ c ∈ b! "No Content", textChar c := by unfold textChar; decide +kernel
    exact this, by show (b! "No Content").length ≤ 1024; decide +kernel,
    fun e he => (h e he).1, notChunked_of fun e he => (h e he).2, (onlyWrites_iff _).2 rfl, fun _ => rfl⟩

/-- **C57 for logins, logouts and refusals by cookie (partial: the redirection target must be a legal header value; see
    `response_splitting`).** The answer of the authenticator can be sent as it is meant: with `reply_received_partial` the
    client gets exactly the status, the `Location` and `Set-Cookie` headers of the reply. -/
theorem cookieReply_sendable_partial (e : Auth.Env) (o : Auth.Opts) (now : Nat) (rand : Bytes) (s : Auth.St) (req : Msg)
    (hrand : rand.length ≤ 600000) (hr : ∀ c ∈ o.redirect, valueChar c) (hrl : o.redirect.length ≤ 1048576)
    (hu : ∀ c ∈ req.queries.get e.ord (b! "url"), valueChar c)
    (hul : (req.queries.get e.ord (b! "url")).length ≤ 1048576)
    (r : Reply) (h : cookieReply e o req (Auth.cookie e o now rand s req).1 = some r) : Sendable r := by
  have hlen : (Base64.encode rand).length ≤ 900000 := by
    have := (Base64.base64_encode_shape rand).1; omega
  have hv := base64_valueChar rand
  have hcase : ∀ v, v = (Auth.cookie e o now rand s req).1 → ∀ c, v = .loggedIn c → c = Base64.encode rand := by
    rintro v hv c rfl
    have hrefuse : Auth.cookieRefuse o ≠ .loggedIn c := by unfold Auth.cookieRefuse; split <;> simp
    unfold Auth.cookie at hv
    cases hp : Auth.processLogin e o now rand s req with
    | some x =>
      rw [hp] at hv
      dsimp only at hv
      unfold Auth.processLogin at hp
      dsimp only at hp
      split at hp
      · cases hp
      · split at hp
        · split at hp
          · cases hp; exact absurd hv.symm hrefuse
          · cases hp; cases hv; rfl
        · cases hp; cases hv
    | none =>
      rw [hp] at hv
      dsimp only at hv
      split at hv
      · split at hv
        · cases hv
        · unfold Auth.cookieCheck at hv
          dsimp only at hv
          split at hv
          · exact absurd hv.symm hrefuse
          · split at hv
            · cases hv
            · exact absurd hv.symm hrefuse
      · cases hv
  generalize hvv : (Auth.cookie e o now rand s req).1 = v at h
  cases v with
  | open_ => cases h
  | user n => cases h
  | unauthorized => cases h; exact builtin_sendable .cookieUnauthorized
  | redirectLogin => cases h; exact redirection_sendable hr hrl nofun (by simp)
  | loggedIn c =>
    obtain rfl := hcase _ hvv.symm c rfl
    unfold cookieReply at h
    dsimp only at h
    split at h
    · cases h; exact cookieOk_sendable hv hlen
    · cases h; exact redirection_sendable hu hul hv hlen
  | loggedOut =>
    unfold cookieReply at h
    dsimp only at h
    split at h
    · cases h; exact cookieOk_sendable nofun (by simp)
    · cases h; exact redirection_sendable hu hul nofun (by simp)

/-- The redirection after a logout goes wherever the request says, and needs no authentication. -/
theorem open_redirect (e : Auth.Env) (o : Auth.Opts) (now : Nat) (rand : Bytes) (s : Auth.St) (req : Msg)
    (hlo : Server.stripSlash req.resource = o.logout) (hne : o.login ≠ o.logout) (hu : req.queries.get e.ord (b! "url") ≠ []) :
    cookieReply e o req (Auth.cookie e o now rand s req).1 = some (redirection (req.queries.get e.ord (b! "url")) [] true) := by
  unfold Auth.cookie Auth.processLogin
  dsimp only
  rw [hlo, if_neg (by simp), if_neg (fun h => hne h.symm)]
  unfold cookieReply
  dsimp only
  rw [if_neg (by simpa using hu)]

/-- What the answer of the cookie authenticator says: where to go next, and which cookie to keep. A login sets the session
    cookie, a logout deletes it (age 0), and a refusal changes nothing. -/
theorem session_headers (e : Auth.Env) (o : Auth.Opts) (req : Msg) (c : Bytes) (hc : c ≠ []) :
    let url := req.queries.get e.ord (b! "url")
    let location : Dict := if url = [] then [] else [(b! "Location", url)]
    let code := if url = [] then 204 else 302
    (∃ r, cookieReply e o req (.loggedIn c) = some r ∧ r.code = code ∧ r.headers =
      location ++ [(b! "Set-Cookie", b! "pion_session_id=\"" ++ c ++ b! "\"; Version=1")]) ∧
    (∃ r, cookieReply e o req .loggedOut = some r ∧ r.code = code ∧ r.headers =
      location ++ [(b! "Set-Cookie", b! "pion_session_id=\"\"; Version=1; Max-Age=0")]) ∧
    (∃ r, cookieReply e o req .redirectLogin = some r ∧ r.code = 302 ∧ r.headers = [(b! "Location", o.redirect)]) ∧
    (∃ r, cookieReply e o req .unauthorized = some r ∧ r.code = 401 ∧ r.headers = []) := by
  intro url location code
  have hdel : Msg.setCookieHeader (b! "pion_session_id") [] [] (some 0) = b! "pion_session_id=\"\"; Version=1; Max-Age=0" := by
    decide +kernel
  have hset : Msg.setCookieHeader (b! "pion_session_id") c [] none = b! "pion_session_id=\"" ++ c ++ b! "\"; Version=1" := by
    simp [Msg.setCookieHeader]
  refine ⟨?_, ?_, ⟨_, rfl, rfl, rfl⟩, ⟨_, rfl, rfl, rfl⟩⟩
  · by_cases hu : url = []
    · refine ⟨cookieOk c false, ?_, ?_, ?_⟩
      · show some (if url.isEmpty then _ else _) = _
        simp [hu]
      · simp [code, hu, cookieOk]
      · simp only [location, hu, if_true, cookieOk, sessionHeader, Bool.false_eq_true, if_false, List.isEmpty_iff, hc, hset,
          List.nil_append]
    · refine ⟨redirection url c false, ?_, ?_, ?_⟩
      · show some (if url.isEmpty then _ else _) = _
        rw [if_neg (by simpa using hu)]
      · simp [code, hu, redirection]
      · simp only [location, hu, redirection, sessionHeader, Bool.false_eq_true, if_false, List.isEmpty_iff, hc, hset,
          List.singleton_append]
  · by_cases hu : url = []
    · refine ⟨cookieOk [] true, ?_, ?_, ?_⟩
      · show some (if url.isEmpty then _ else _) = _
        simp [hu]
      · simp [code, hu, cookieOk]
      · simp only [location, hu, if_true, cookieOk, sessionHeader, hdel, List.nil_append]
    · refine ⟨redirection url [] true, ?_, ?_, ?_⟩
      · show some (if url.isEmpty then _ else _) = _
        rw [if_neg (by simpa using hu)]
      · simp [code, hu, redirection]
      · simp only [location, hu, if_true, if_false, redirection, sessionHeader, hdel, List.singleton_append]
-- a session cookie is never empty
example : Base64.encode (b! "0123456789abcdef") ≠ [] := by decide +kernel

/-- The request of an attack: the redirection target holds line ends. -/
def splitRequest : Bytes := b! "GET /logout?url=x%0d%0aContent-Length:%200%0d%0a%0d%0aHTTP/1.1%20200%20OK%0d%0aContent-Length:%204%0d%0a%0d%0aevil HTTP/1.1\r\n\r\n"

/-- An authenticator without users and paths. -/
def anyEnv : Auth.Env := { build := { ssl := false, sha256 := id, sha1 := id } }

/-- The bytes the server sends for `splitRequest`: the request is parsed, the authenticator decides and answers. -/
def splitWire : Option Bytes :=
  (outcome { isRequest := true } (fresh { isRequest := true } {}) [splitRequest]).bind fun o =>
    (cookieReply anyEnv {} o.message (Auth.cookie anyEnv {} 0 [] {} o.message).1).map fun r => (r.writer {} o.message .keepAlive).wire

/-- **C57 is violated (response splitting).** A request to the logout page, by anybody, makes the server send what the client
    reads as two responses; the second one is made up by whoever made the request. -/
theorem response_splitting : ∃ wire, splitWire = some wire ∧
    (outcome respCfg (fresh respCfg {}) [wire]).map (fun o => (o.result, o.message.statusCode, o.message.contentLength)) =
      some (.yes, 302, 0) ∧
    ((outcome respCfg (fresh respCfg {}) [wire]).bind fun o =>
      (outcome respCfg (fresh respCfg {}) [o.unread]).map fun o => (o.result, o.message.statusCode, o.message.contentBytes)) =
      some (.yes, 200, some (b! "evil")) :=
  ⟨splitWire.getD [], by decide +kernel, by decide +kernel, by decide +kernel⟩

/-! #### CookieService -/

theorem onlyWrites_append {a b : List Op} (ha : OnlyWrites a) (hb : OnlyWrites b) : OnlyWrites (a ++ b) := by
  intro op h
  rcases List.mem_append.1 h with h | h
  · exact ha op h
  · exact hb op h

theorem onlyWrites_flatten {l : List (List Op)} (h : ∀ a ∈ l, OnlyWrites a) : OnlyWrites l.flatten := by
  intro op hop
  obtain ⟨a, ha, hop⟩ := List.mem_flatten.1 hop
  exact h a ha op hop

theorem cookieAction_writes (ord : Dict.Order) (req : Msg) : OnlyWrites (cookieAction ord req).2 := by
  unfold cookieAction
  dsimp only
  repeat' split
  all_goals exact (onlyWrites_iff _).2 rfl

theorem cookieService_writes (ord : Dict.Order) (t : TableOrder) (req : Msg) : OnlyWrites (cookieService ord t req).writes := by
  have h1 : OnlyWrites (cookieHeaders ord req) := by
    unfold cookieHeaders
    split
    · rw [List.cons_append, ← List.singleton_append]
      refine onlyWrites_append ((onlyWrites_iff _).2 rfl) (onlyWrites_append (onlyWrites_flatten ?_) ((onlyWrites_iff _).2 rfl))
      intro a ha
      obtain ⟨x, -, rfl⟩ := List.mem_map.1 ha
      exact (onlyWrites_iff _).2 rfl
    · exact (onlyWrites_iff _).2 rfl
  have h2 : OnlyWrites (cookieList t req) := by
    unfold cookieList
    split
    · exact (onlyWrites_iff _).2 rfl
    · rw [List.cons_append, ← List.singleton_append]
      refine onlyWrites_append ((onlyWrites_iff _).2 rfl) (onlyWrites_append (onlyWrites_flatten ?_) ((onlyWrites_iff _).2 rfl))
      intro a ha
      obtain ⟨x, -, rfl⟩ := List.mem_map.1 ha
      exact (onlyWrites_iff _).2 rfl
  unfold cookieService Reply.plain
  dsimp only
  rw [List.cons_append, List.cons_append, List.cons_append, ← List.singleton_append]
  exact onlyWrites_append ((onlyWrites_iff _).2 rfl) (onlyWrites_append (onlyWrites_append
    (onlyWrites_append (cookieAction_writes ord req) h1) h2) ((onlyWrites_iff _).2 rfl))

/-- **C57 for the cookie service (partial: the name and the value of the cookie must be legal in a header).** -/
theorem cookieService_sendable_partial (ord : Dict.Order) (t : TableOrder) (req : Msg) (hver : req.verMajor ≠ 0)
    (hn : ∀ c ∈ req.queries.get ord (b! "cookie_name"), valueChar c)
    (hv : ∀ c ∈ req.queries.get ord (b! "cookie_value"), valueChar c)
    (hs : (req.queries.get ord (b! "cookie_name")).length + (req.queries.get ord (b! "cookie_value")).length ≤ 900000) :
    Sendable (cookieService ord t req) := by
  refine sendable_of 200 (b! "OK") (status_plain req hver).1 (status_plain req hver).2 (by decide +kernel)
    (cookieService_writes ord t req) ?_
  intro e he
  have hp := valueChar_of (s := b! "/") (by decide +kernel)
  have hpl : (b! "/").length = 1 := rfl
  have hne : iequals (b! "Set-Cookie") (b! "Transfer-Encoding") = false := by decide +kernel
  rcases List.mem_cons.1 he with rfl | he
  · exact ⟨headerOk_of (by decide +kernel) (valueChar_of (by decide +kernel)) (by decide +kernel),
      show iequals (b! "Content-Type") (b! "Transfer-Encoding") = false by decide +kernel⟩
  · unfold cookieAction at he
    dsimp only at he
    split at he
    · split at he
      · split at he
        · cases he
        · obtain rfl := List.mem_singleton.1 he
          exact ⟨setCookie_ok hn hv hp nofun (by rw [hpl]; omega), hne⟩
      · split at he
        · split at he
          · cases he
          · obtain rfl := List.mem_singleton.1 he
            exact ⟨setCookie_ok hn nofun hp (by rintro n ⟨⟩; omega) (by rw [hpl, List.length_nil]; omega), hne⟩
        · cases he
    · cases he

/-- The cookie service shows names, values and the resource as they are: a request can add tags to its page, and line ends to
    its headers. -/
theorem cookieService_injection :
    (∃ req : Msg, markup (page (cookieService id {} req)) ≠ markup (page (cookieService id {} {})) ∧ req.queries = [] ∧
      req.headers = [] ∧ req.cookies = []) ∧
    (∃ req : Msg, ¬ Sendable (cookieService id {} req) ∧ req.headers = [] ∧ req.cookies = []) := by
  refine ⟨⟨{ resource := b! "/c\"><script>" }, by decide +kernel, rfl, rfl, rfl⟩,
    ⟨{ queries := [(b! "action", b! "Add Cookie"), (b! "cookie_name", b! "a\r\nX: y"), (b! "cookie_value", b! "b")] }, ?_, rfl, rfl⟩⟩
  intro h
  have := (h.headers (b! "Set-Cookie", b! "a\r\nX: y=\"b\"; Version=1; Path=/") (by decide +kernel)).value 0x0d (by decide +kernel)
  revert this
  unfold valueChar
  decide +kernel

/-! ### C58: the echo service -/

/-- The lines the echo service writes for a table. -/
def termLines (d : Dict) : Bytes := (d.map fun e => e.1 ++ b! ": " ++ e.2 ++ b! "\r\n").flatten

theorem written_append (a b : List Op) : written (a ++ b) = written a ++ written b := by
  induction a with
  | nil => rfl
  | cons op a ih => cases op <;> simp only [List.cons_append, written, ih, List.append_assoc]

theorem echoTerms_writes (t : TableOrder) (d : Dict) : OnlyWrites (echoTerms t d) := by
  refine onlyWrites_flatten ?_
  intro a ha
  obtain ⟨x, -, rfl⟩ := List.mem_map.1 ha
  exact (onlyWrites_iff _).2 rfl

theorem echoTerms_written (t : TableOrder) (d : Dict) : written (echoTerms t d) = termLines (t.iter d) := by
  unfold echoTerms termLines
  generalize t.iter d = l
  induction l with
  | nil => rfl
  | cons e l ih =>
    rw [List.map_cons, List.map_cons, List.flatten_cons, List.flatten_cons, written_append, ih]
    simp only [written, List.append_nil, List.append_assoc]

/-- A line end. -/
def nl : Bytes := b! "\r\n"

/-- The lines about the request line. -/
def requestLines (req : Msg) : Bytes :=
  b! "Request method: " ++ req.method ++ nl ++ b! "Resource originally requested: " ++ req.originalResource ++ nl ++
  b! "Resource delivered: " ++ req.resource ++ nl ++ b! "Query string: " ++ req.queryString ++ nl ++
  b! "HTTP version: " ++ toDec req.verMajor ++ b! "." ++ toDec req.verMinor ++ nl ++
  b! "Content length: " ++ toDec req.contentLength ++ nl ++ nl

/-- The page the echo service is meant to send for a request with this content (tables in some order). -/
def echoPage (t : TableOrder) (req : Msg) (content : Bytes) (user : Option Bytes) : Bytes :=
  b! "[Request Echo]" ++ nl ++ nl ++ requestLines req ++
  b! "[Request Headers]" ++ nl ++ nl ++ termLines (t.iter req.headers) ++ nl ++
  b! "[Query Parameters]" ++ nl ++ nl ++ termLines (t.iter req.queries) ++ nl ++
  b! "[Cookie Parameters]" ++ nl ++ nl ++ termLines (t.iter req.cookies) ++ nl ++
  b! "[POST Content]" ++ nl ++ nl ++ (if content = [] then [] else content ++ nl ++ nl) ++
  (match user with
    | none => []
    | some u => b! "[USER Info]" ++ nl ++ nl ++ b! "User authenticated, username: " ++ u ++ nl)

theorem mapM_some {l : List (Option UInt8)} {d : Bytes} (h : l.mapM id = some d) : l = d.map some := by
  induction l generalizing d with
  | nil => simp at h; subst h; rfl
  | cons a l ih =>
    rw [List.mapM_cons] at h
    cases a with
    | none => cases h
    | some a =>
      cases hl : l.mapM id with
      | none => rw [hl] at h; cases h
      | some d' => rw [hl] at h; cases h; rw [List.map_cons, ih hl]

/-- **C58 (the page).** For every request whose content is complete, the echo service sends the request line, all headers,
    query parameters and cookies, and the content, byte for byte. -/
theorem echo_page (t : TableOrder) (req : Msg) (content : Bytes) (user : Option Bytes) (hc : req.contentBytes = some content) :
    ∃ r, echo t req user = some r ∧ OnlyWrites r.writes ∧ page r = echoPage t req content user ∧
      r.headers = [(b! "Content-Type", b! "text/plain")] ∧ r.code = (responseTo req).statusCode ∧
      r.text = (responseTo req).statusMessage := by
  have hlen : content.length = req.contentLength := by
    unfold Msg.contentBytes at hc
    split at hc
    · rename_i h
      have := congrArg List.length (mapM_some hc)
      rw [List.length_map, List.length_take] at this
      omega
    · cases hc
  have huser : ∀ u : Option Bytes, OnlyWrites (match u with
      | none => []
      | some u => echoHeading (b! "[USER Info]") ++ [.text (b! "User authenticated, username: "), .text u, .buffer (b! "\r\n")]) := by
    intro u; cases u <;> exact (onlyWrites_iff _).2 rfl
  have hhd : ∀ h, OnlyWrites (echoHeading h) := fun h => (onlyWrites_iff _).2 rfl
  have hcrlf : OnlyWrites [Op.buffer (b! "\r\n")] := (onlyWrites_iff _).2 rfl
  unfold echo
  have hx : (if req.contentLength = 0 then some [] else req.contentBytes.map fun c =>
      [Op.buffer c, .buffer (b! "\r\n"), .buffer (b! "\r\n")]) =
      some (if content = [] then [] else [Op.buffer content, .buffer (b! "\r\n"), .buffer (b! "\r\n")]) := by
    by_cases h0 : content = []
    · rw [if_pos (by rw [← hlen, h0]; rfl), if_pos h0]
    · rw [if_neg (by rw [← hlen]; simpa using h0), if_neg h0, hc]; rfl
  rw [hx]
  refine ⟨_, rfl, ?_, ?_, rfl, rfl, rfl⟩
  · unfold Reply.plain
    refine onlyWrites_append (onlyWrites_append (onlyWrites_append (onlyWrites_append (onlyWrites_append (onlyWrites_append
      (onlyWrites_append (onlyWrites_append (onlyWrites_append (onlyWrites_append (onlyWrites_append (onlyWrites_append
      (onlyWrites_append (hhd _) ?_) (hhd _)) (echoTerms_writes _ _)) hcrlf) (hhd _)) (echoTerms_writes _ _)) hcrlf) (hhd _))
      (echoTerms_writes _ _)) hcrlf) (hhd _)) ?_) (huser user)
    · exact (onlyWrites_iff _).2 rfl
    · split <;> exact (onlyWrites_iff _).2 rfl
  · unfold page Reply.plain echoPage requestLines
    dsimp only
    have hw : written (if content = [] then [] else [Op.buffer content, .buffer (b! "\r\n"), .buffer (b! "\r\n")]) =
        if content = [] then [] else content ++ nl ++ nl := by
      split <;> simp [written, nl]
    simp only [written_append, echoTerms_written, hw]
    cases user <;>
      simp only [echoHeading, written, written_append, nl, List.append_assoc, List.append_nil]


/-- **C58 (end to end; partial: not for HEAD requests, see `head_answer_unread`, and not for requests that say they are
    chunked, see `Verif.Props.Message.chunked_not_read_back`).** A request that is sent with `message::send`, received by the
    server's parser in any pieces, answered by the echo service and received by the client's parser in any pieces, comes back:
    the client gets one response 200 with the page for the message the server holds, which is the message that was sent. -/
theorem echo_end_to_end_partial (scfg : Cfg) (hsk : scfg.isRequest = true) (hso : Http.OrderOk scfg.ord)
    (hsh : scfg.headersOnly = false) (hsp : scfg.handler = false) (t ts : TableOrder) (ht : t.Ok) (hts : ts.Ok) (ka : Bool)
    (m old : Msg) (body : Bytes) (hw : Message.Writable true m body) (hmax : body.length ≤ scfg.maxContent)
    (hhead : m.method ≠ b! "HEAD") :
    ∃ m' wire, m.transmit t true ka false = some (m', wire) ∧ ∀ bufs, Cuts bufs wire →
      ∃ o r, outcome scfg (fresh scfg (old.clear true)) bufs = some o ∧ o.result = .yes ∧
        Message.SameMessage true ka m body o.message ∧ echo ts o.message none = some r ∧
        ∀ (ccfg : Cfg) (m0 : Msg) (lc : Lifecycle) (tail : Bytes) (bufs' : List Bytes), ccfg.isRequest = false →
          Http.OrderOk ccfg.ord → ccfg.headersOnly = false → ccfg.handler = false → Blank m0 → m0.requestMethod = m.method →
          (echoPage ts o.message body none).length + 1 < 2 ^ 64 →
          (echoPage ts o.message body none).length ≤ ccfg.maxContent →
          Cuts bufs' ((r.writer ts o.message lc).wire ++ tail) →
          ∃ o', outcome ccfg (fresh ccfg m0) bufs' = some o' ∧ o'.result = .yes ∧ o'.unread = tail ∧
            Holds o'.message 200 (b! "OK") [(b! "Content-Type", b! "text/plain")] (echoPage ts o.message body none) := by
  obtain ⟨m', wire, htr, hall⟩ := Message.send_receive_partial scfg hso hsh hsp t ht ka m old body (by rw [hsk]; exact hw) hmax []
  rw [hsk] at htr hall
  refine ⟨m', wire, htr, fun bufs hcut => ?_⟩
  obtain ⟨o, ho, h1, -, -, h4⟩ := hall bufs (by rw [List.append_nil]; exact hcut)
  obtain ⟨r, hr, hrw, hrp, hrh, hrc, hrt⟩ := echo_page ts o.message body none
    (Message.contentBytes_of h4.content h4.contentLength)
  refine ⟨o, r, ho, h1, h4, hr, ?_⟩
  intro ccfg m0 lc tail bufs' hck hco hch hcp hb hm0 hsz hmx hcut'
  have hfl := h4.firstLine
  have hver : o.message.verMajor ≠ 0 := by
    have : 1 ≤ m.verMajor := hw.headOk.majorOk.1
    have h5 : o.message.verMajor = m.verMajor := hfl.2.2.2.2.1
    omega
  have hmeth : o.message.method = m.method := hfl.1
  have hs : Sendable r := by
    refine sendable_of 200 (b! "OK") (hrc.trans (status_plain _ hver).1) (hrt.trans (status_plain _ hver).2) (by decide +kernel) hrw ?_
    intro e he
    rw [hrh] at he
    obtain rfl := List.mem_singleton.1 he
    exact ⟨headerOk_of (by decide +kernel) (valueChar_of (by decide +kernel)) (by decide +kernel), by decide +kernel⟩
  rw [← hrp] at hsz hmx ⊢
  obtain ⟨o', ho', g1, -, g3, g4⟩ := reply_received_partial ccfg hck m0 hb hco hch hcp ts hts o.message lc r hs
    (by rw [hm0, hmeth]) (by rw [hmeth]; exact hhead) hsz hmx tail bufs' hcut'
  rw [hrc, hrt, hrh, (status_plain _ hver).1, (status_plain _ hver).2] at g4
  exact ⟨o', ho', g1, g3, g4⟩

example : Message.Writable true Message.sampleRequest (b! "hi\x00") ∧ Message.sampleRequest.method ≠ b! "HEAD" :=
  ⟨Message.sampleRequest_writable, by decide +kernel⟩
/-- A whole exchange. -/
def exchange : Option (Tri × Nat × Option Bytes) :=
  (Message.sampleRequest.transmit {} true true false).bind fun x =>
  (outcome { isRequest := true } (fresh { isRequest := true } {}) [x.2]).bind fun o =>
  (echo {} o.message none).bind fun r =>
  (outcome { isRequest := false } (fresh { isRequest := false } { requestMethod := b! "POST" }) [(r.writer {} o.message .keepAlive).wire]).map
    fun o => (o.result, o.message.statusCode, o.message.contentBytes)
example : exchange = some (.yes, 200, some (b! "[Request Echo]\r\n\r\nRequest method: POST\r\nResource originally requested: /a\r\nResource delivered: /a\r\nQuery string: x=1\r\nHTTP version: 1.1\r\nContent length: 3\r\n\r\n[Request Headers]\r\n\r\nAccept: a\r\nconnection: Keep-Alive\r\nACCEPT: b\r\nContent-Length: 3\r\nCookie: id=7\r\n\r\n[Query Parameters]\r\n\r\nx: 1\r\n\r\n[Cookie Parameters]\r\n\r\nid: 7\r\n\r\n[POST Content]\r\n\r\nhi\x00\r\n\r\n")) := by
  decide +kernel

end Verif.Props.Responses
