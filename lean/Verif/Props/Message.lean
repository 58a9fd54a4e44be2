import Verif.Lemmas.MessageIo
import Verif.Props.HttpBody
/-
C22: a message written by `message::write` is read back by `message::read`.
-/
namespace Verif.Props.Message
open Verif.Http Verif.Props.Dict Verif.Props.HttpBody

/-- The headers do not announce a chunked body: no Transfer-Encoding header contains "chunked" in any letter case. -/
def NotChunked (hs : Dict) : Prop :=
  ∀ e ∈ matching hs (b! "Transfer-Encoding"), ¬ ∃ a b, e.2.map toUpper = a ++ b! "CHUNKED" ++ b

/-- A message that can be written: first line, headers and cookies satisfy the HTTP grammar, the content buffer holds
    `body`, the headers do not say that the body is chunked, and the message may have a body if it has one. -/
structure Writable (isRequest : Bool) (m : Msg) (body : Bytes) : Prop where
  headOk : (m.head isRequest).Ok
  headersOk : ∀ e ∈ m.headers, HeaderOk e
  cookiesOk : ∀ c ∈ m.cookies, HeaderOk (Msg.cookieHeader isRequest c)
  content : m.content = body.map some
  contentLength : m.contentLength = body.length
  size : body.length + 1 < 2 ^ 64
  sendsLength : m.doNotSendContentLength = false
  notChunked : NotChunked m.headers
  bodyAllowed : (m.head isRequest).Bodyless [] → body = []

theorem mapM_map_some (l : Bytes) : (l.map some).mapM id = some l := by
  induction l with
  | nil => rfl
  | cons c r ih => simp [List.mapM_cons, ih]

theorem contentBytes_of {m : Msg} {body : Bytes} (h : m.content = body.map some) (hl : m.contentLength = body.length) :
    m.contentBytes = some body := by
  unfold Msg.contentBytes
  rw [h, hl, if_pos (by simp), List.take_of_length_le (by simp)]
  exact mapM_map_some body

/-- What `write` puts out: first line, the headers in some order, an empty line, the content. -/
theorem transmit_eq (t : TableOrder) (isRequest ka : Bool) (m : Msg) (body : Bytes) (hc : m.content = body.map some)
    (hl : m.contentLength = body.length) :
    m.transmit t isRequest ka false = some ({ m with headers := m.sentHeaders t isRequest ka false },
      wireHead (m.head isRequest) (t.iter (m.sentHeaders t isRequest ka false)) ++ body) := by
  unfold Msg.transmit
  rw [Msg.prepareBuffers_eq]
  dsimp only
  by_cases h0 : body = []
  · subst h0
    rw [if_neg (by simp [hl])]; simp
  · have : 0 < body.length := List.length_pos_iff.2 h0
    rw [if_pos (by simp [hl, this])]
    unfold Msg.contentBytes
    dsimp only
    rw [hc, hl, if_pos (by simp), List.take_of_length_le (by simp), mapM_map_some]
    rfl

/-- Reading byte by byte is feeding buffers of one byte. -/
theorem readLoop_of_feed (cfg : Cfg) (p : Bytes) : ∀ (s : S) (rc0 : Tri) (tail : Bytes) (s' : S) (rest : Bytes) (more : List Bytes),
    feed cfg s (p.map fun c => [c]) = some (.yes, s', rest, more) → rest ++ more.flatten = [] →
    readLoop cfg rc0 s (p ++ tail) =
      some { failed := false, message := s'.msg, bytesRead := s'.totalRead, rest := tail, fault := s'.fault } := by
  induction p with
  | nil => intro s rc0 tail s' rest more h _; cases h
  | cons c r ih =>
    intro s rc0 tail s' rest more h he
    rw [List.map_cons, feed] at h
    rw [List.cons_append, readLoop]
    cases hp : parse cfg s [c] with
    | none => rw [hp] at h; cases h
    | some x =>
      obtain ⟨rc, s1, rest1⟩ := x
      rw [hp] at h
      cases rc with
      | more => exact ih s1 .more tail s' rest more h he
      | no => simp at h
      | yes =>
        simp only [Option.some.injEq, Prod.mk.injEq, true_and] at h
        obtain ⟨rfl, rfl, rfl⟩ := h
        have : r = [] := by
          have h2 := (List.append_eq_nil_iff.1 he).2
          cases r with
          | nil => rfl
          | cons a b => simp at h2
        subst this
        rfl

theorem cuts_bytes (p : Bytes) : Cuts (p.map fun c => [c]) p where
  flat := by induction p with
    | nil => rfl
    | cons c r ih => simp [ih]
  nonempty := by
    intro b hb
    obtain ⟨c, -, rfl⟩ := List.mem_map.1 hb
    simp

theorem blank_clear (isRequest : Bool) (m : Msg) : Blank (m.clear isRequest) := by
  cases isRequest <;> exact ⟨rfl, rfl, rfl, rfl⟩

theorem clear_requestMethod (isRequest : Bool) (m : Msg) : (m.clear isRequest).requestMethod = [] := by
  cases isRequest <;> rfl

theorem head_isRequest (isRequest : Bool) (m : Msg) : (m.head isRequest).isRequest = isRequest := by
  cases isRequest <;> rfl

/-- The message read has the first line, the headers and the content of the message written: the same method, resource,
    query string and version, or status code, status text and version; under every name other than `Connection`,
    `Content-Length` and the cookie header the same entries; one `Connection` header and one `Content-Length` header
    with the values generated for sending; in addition one header for each cookie. -/
structure SameMessage (isRequest ka : Bool) (m : Msg) (body : Bytes) (r : Msg) : Prop where
  firstLine : (m.head isRequest).StoredIn r
  content : r.content = body.map some
  contentLength : r.contentLength = body.length
  connection : ∃ name, matching r.headers (b! "Connection") = [(name, if ka then b! "Keep-Alive" else b! "close")]
  length : ∃ name, matching r.headers (b! "Content-Length") = [(name, toDec body.length)]
  cookies : (matching r.headers (if isRequest then b! "Cookie" else b! "Set-Cookie")).Perm
    (matching m.headers (if isRequest then b! "Cookie" else b! "Set-Cookie") ++ m.cookies.map (Msg.cookieHeader isRequest))
  others : ∀ k, iequals k (b! "Connection") = false → iequals k (b! "Content-Length") = false →
    iequals k (if isRequest then b! "Cookie" else b! "Set-Cookie") = false →
    (matching r.headers k).Perm (matching m.headers k)

theorem sameMessage_of (t : TableOrder) (ht : t.Ok) (isRequest ka : Bool) (m : Msg) (body : Bytes)
    (hw : Writable isRequest m body) (r : Msg) (hst : (m.head isRequest).StoredIn r)
    (hh : r.headers = t.iter (m.sentHeaders t isRequest ka false)) (hc : r.content = body.map some)
    (hl : r.contentLength = body.length) : SameMessage isRequest ka m body r where
  firstLine := hst
  content := hc
  contentLength := hl
  connection := by
    obtain ⟨name, h⟩ := matching_sent_connection t isRequest ka false m
    exact ⟨name, by rw [hh]; exact matching_iter ht h⟩
  length := by
    obtain ⟨name, h⟩ := matching_sent_length t isRequest ka m hw.sendsLength
    exact ⟨name, by rw [hh, ← hw.contentLength]; exact matching_iter ht h⟩
  cookies := by
    rw [hh]
    refine (matching_perm (ht _) _).trans ?_
    rw [matching_sent_plain, matching_cookies_all]
    · exact List.Perm.append_left _ ((ht _).map _)
    · cases isRequest <;> decide +kernel
    · cases isRequest <;> exact ⟨by decide +kernel, by decide +kernel, by decide +kernel⟩
  others := by
    intro k h1 h2 h3
    rw [hh]
    refine (matching_perm (ht _) _).trans ?_
    by_cases h4 : iequals k (b! "Transfer-Encoding") = true
    · rw [matching_congr h4, matching_congr h4, matching_sent_te]
    · rw [matching_sent_plain _ _ _ _ _ _ ⟨h1, h2, by simpa using h4⟩, matching_cookies, List.append_nil]
      rw [iequals_symm]; exact h3

/-- The parser reads back a transmitted message, however the stream is cut into buffers and whatever follows. -/
theorem transmit_parse (cfg : Cfg) (m0 : Msg) (hb : Blank m0) (hord : Http.OrderOk cfg.ord)
    (hho : cfg.headersOnly = false) (hhand : cfg.handler = false) (t : TableOrder) (ht : t.Ok) (ka : Bool) (m : Msg)
    (body : Bytes) (hw : Writable cfg.isRequest m body) (hba : (m.head cfg.isRequest).Bodyless m0.requestMethod → body = [])
    (hmax : body.length ≤ cfg.maxContent) (tail : Bytes) :
    ∃ m' wire, m.transmit t cfg.isRequest ka false = some (m', wire) ∧ ∀ bufs, Cuts bufs (wire ++ tail) →
      ∃ o, outcome cfg (fresh cfg m0) bufs = some o ∧ o.result = .yes ∧ o.error = none ∧ o.unread = tail ∧
        o.message.isValid = true ∧ o.fault ≠ some .contentBuffer ∧ o.counters = some (wire.length, body.length) ∧
        SameMessage cfg.isRequest ka m body o.message := by
  refine ⟨_, _, transmit_eq t cfg.isRequest ka m body hw.content hw.contentLength, ?_⟩
  intro bufs hcut
  have hset : Setting cfg m0 (m.head cfg.isRequest) (t.iter (m.sentHeaders t cfg.isRequest ka false)) :=
    ⟨hb, hord, (head_isRequest _ _).symm, hw.headOk,
     fun e he => sentHeaders_ok t ht _ _ _ m hw.headersOk hw.cookiesOk (by rw [hw.contentLength]; have := hw.size; omega) e
       ((ht _).subset he), hho⟩
  obtain ⟨name, hlen⟩ := matching_sent_length t cfg.isRequest ka m hw.sendsLength
  have hann : AnnouncesLength cfg.ord (t.iter (m.sentHeaders t cfg.isRequest ka false)) body.length :=
    ⟨[], toDec body.length, [], by
      rw [find?_single hord (matching_iter ht hlen), hw.contentLength]; simp, by simp, toDec_ne_nil _, toDec_isDigit _,
     decVal_toDec _⟩
  have hnc : ¬ AnnouncesChunks cfg.ord (t.iter (m.sentHeaders t cfg.isRequest ka false)) := by
    rintro ⟨v, hv, hch⟩
    obtain ⟨name, hmem⟩ := find?_mem hord hv
    have := (matching_perm (ht _) _).subset hmem
    rw [matching_sent_te] at this
    exact hw.notChunked _ this hch
  by_cases hbl : (m.head cfg.isRequest).Bodyless m0.requestMethod
  · obtain rfl := hba hbl
    rw [List.append_nil] at hcut ⊢
    obtain ⟨o, ho, hcomp, hcon, hclen, hcnt⟩ := bodyless_complete_partial cfg m0 _ _ hset hnc hbl tail bufs hcut
    exact ⟨o, ho, hcomp.result, hcomp.error, hcomp.unread, hcomp.valid, hcomp.memorySafe, hcnt,
      sameMessage_of t ht _ _ m [] hw o.message hcomp.stored hcomp.headers hcon hclen⟩
  obtain ⟨o, ho, hcomp, hcon, hclen, hcnt⟩ := content_length_exact cfg m0 _ _ hset hhand hnc hbl
    body tail hann hw.size bufs hcut
  refine ⟨o, ho, hcomp.result, hcomp.error, hcomp.unread, hcomp.valid, hcomp.memorySafe, ?_, ?_⟩
  · rw [hcnt, List.length_append]
  · exact sameMessage_of t ht _ _ m body hw o.message hcomp.stored hcomp.headers
      (by rw [hcon, List.take_of_length_le hmax]) (by rw [hclen]; omega)

/-- **C22 (partial: the headers must not say that the body is chunked; see `chunked_not_read_back`).** Writing a message to a stream and reading the stream into any message object (with a parser for the same
    kind of message whose maximum content length is not exceeded) succeeds, leaves what follows in the stream, and gives
    the same message, whatever order the header tables keep. -/
theorem write_read_partial (cfg : Cfg) (hord : Http.OrderOk cfg.ord) (hho : cfg.headersOnly = false)
    (hhand : cfg.handler = false) (t : TableOrder) (ht : t.Ok) (m old : Msg) (body : Bytes)
    (hw : Writable cfg.isRequest m body) (hmax : body.length ≤ cfg.maxContent) (tail : Bytes) :
    ∃ m' wire r, m.write t cfg.isRequest false = some (m', wire) ∧ readMessage cfg old (wire ++ tail) = some r ∧
      r.failed = false ∧ r.rest = tail ∧ r.bytesRead = wire.length ∧ r.message.isValid = true ∧
      r.fault ≠ some .contentBuffer ∧ SameMessage cfg.isRequest true m body r.message := by
  obtain ⟨m', wire, htr, hall⟩ := transmit_parse cfg (old.clear cfg.isRequest) (blank_clear _ _) hord
    hho hhand t ht true m body hw (by rw [clear_requestMethod]; exact hw.bodyAllowed) hmax []
  obtain ⟨o, ho, h1, h2, h3, h4, h5, h6, h7⟩ := hall (wire.map fun c => [c]) (by rw [List.append_nil]; exact cuts_bytes wire)
  unfold outcome at ho
  rw [Option.map_eq_some_iff] at ho
  obtain ⟨⟨rc, s', rest, more⟩, hf, rfl⟩ := ho
  obtain rfl : rc = .yes := h1
  refine ⟨m', wire, _, htr, readLoop_of_feed cfg wire _ .no tail s' rest more hf h3, rfl, rfl, ?_, h4, h5, h7⟩
  simp only [observe, reduceCtorEq, if_false, Option.some.injEq, Prod.mk.injEq] at h6
  exact h6.1

/-- The same for `message::send` over a connection that is kept alive or not, received in any pieces. -/
theorem send_receive_partial (cfg : Cfg) (hord : Http.OrderOk cfg.ord) (hho : cfg.headersOnly = false)
    (hhand : cfg.handler = false) (t : TableOrder) (ht : t.Ok) (ka : Bool) (m old : Msg) (body : Bytes)
    (hw : Writable cfg.isRequest m body) (hmax : body.length ≤ cfg.maxContent) (tail : Bytes) :
    ∃ m' wire, m.transmit t cfg.isRequest ka false = some (m', wire) ∧ ∀ bufs, Cuts bufs (wire ++ tail) →
      ∃ o, outcome cfg (fresh cfg (old.clear cfg.isRequest)) bufs = some o ∧ o.result = .yes ∧ o.error = none ∧
        o.unread = tail ∧ SameMessage cfg.isRequest ka m body o.message := by
  obtain ⟨m', wire, htr, hall⟩ := transmit_parse cfg (old.clear cfg.isRequest) (blank_clear _ _) hord
    hho hhand t ht ka m body hw (by rw [clear_requestMethod]; exact hw.bodyAllowed) hmax tail
  refine ⟨m', wire, htr, fun bufs hcut => ?_⟩
  obtain ⟨o, ho, h1, h2, h3, -, -, -, h7⟩ := hall bufs hcut
  exact ⟨o, ho, h1, h2, h3, h7⟩

/-! ### Concrete messages -/

/-- A request with two spellings of one header, a cookie and a body. -/
def sampleRequest : Msg := {
  method := b! "POST", resource := b! "/a", queryString := b! "x=1", verMajor := 1, verMinor := 1,
  headers := [(b! "Accept", b! "a"), (b! "connection", b! "close"), (b! "ACCEPT", b! "b")],
  cookies := [(b! "id", b! "7")], content := (b! "hi\x00").map some, contentLength := 3 }

theorem sampleRequest_writable : Writable true sampleRequest (b! "hi\x00") where
  headOk := ⟨⟨by decide +kernel, by decide +kernel, by decide +kernel⟩, by unfold uriChar; decide +kernel,
    by decide +kernel, by unfold queryChar; decide +kernel, by decide +kernel, by decide +kernel, by decide +kernel⟩
  headersOk := by
    intro e he
    simp only [sampleRequest, List.mem_cons, List.not_mem_nil, or_false] at he
    rcases he with rfl | rfl | rfl <;>
      exact ⟨⟨by decide +kernel, by decide +kernel, by decide +kernel⟩, by unfold valueChar; decide +kernel, by decide +kernel⟩
  cookiesOk := by
    intro e he
    simp only [sampleRequest, List.mem_cons, List.not_mem_nil, or_false] at he
    subst he
    exact ⟨⟨by decide +kernel, by decide +kernel, by decide +kernel⟩, by unfold valueChar; decide +kernel, by decide +kernel⟩
  content := rfl
  contentLength := rfl
  size := by decide +kernel
  sendsLength := rfl
  notChunked := by rw [NotChunked, show matching sampleRequest.headers (b! "Transfer-Encoding") = [] by decide +kernel]; simp
  bodyAllowed := nofun

/-- Iteration in the reverse order is also possible. -/
example : TableOrder.Ok {} ∧ TableOrder.Ok { iter := List.reverse } := ⟨fun d => .refl d, fun d => List.reverse_perm d⟩

example : (sampleRequest.write {} true false).map (·.2) = some (b!
    "POST /a?x=1 HTTP/1.1\r\nAccept: a\r\nconnection: Keep-Alive\r\nACCEPT: b\r\nContent-Length: 3\r\nCookie: id=7\r\n\r\nhi\x00") := by
  decide +kernel

/-! ### Messages that are not read back -/

/-- A chunked message as the parser stores it (body complete, `Transfer-Encoding: chunked` among the headers). -/
def receivedChunked : Msg := {
  method := b! "POST", resource := b! "/", headers := [(b! "Transfer-Encoding", b! "chunked")],
  content := (b! "hi").map some, contentLength := 2 }

/-- It is written with both `Transfer-Encoding: chunked` and `Content-Length`, but not chunked; the result cannot be
    read. -/
theorem chunked_not_read_back :
    (receivedChunked.write {} true false).bind
      (fun x => (readMessage { isRequest := true } {} x.2).map (fun r => (r.failed, r.message.isValid))) =
      some (true, false) := by decide +kernel

/-- A response code above 65535 (the field is an `unsigned int`) is read back modulo 2^16. -/
theorem status_wraps :
    (({ statusCode := 65736 } : Msg).write {} false false).bind
      (fun x => (readMessage { isRequest := false } {} x.2).map (fun r => (r.failed, r.message.statusCode))) =
      some (false, 200) := by decide +kernel

/-- Writing changes the message: the cookie headers stay among its headers, so they are sent twice by a second
    `write`. -/
theorem cookies_sent_again :
    (sampleRequest.write {} true false).bind
      (fun x => (x.1.write {} true false).map (fun y => (matching y.1.headers (b! "Cookie")).length)) = some 2 := by
  decide +kernel

end Verif.Props.Message
