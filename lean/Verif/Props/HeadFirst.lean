import Verif.Lemmas.HeadFirst
import Verif.Spec.HeadFirst
/-
C96: the head of a message first, its body later.

A parser that has been told to read headers only (`parse_headers_only(true)`) stops behind the head. When the caller has
looked at it, `parse_headers_only(false)` and `skip_header_parsing` make the same parser go on with the body.
-/
namespace Verif.Props.HeadFirst
open Verif.Http Verif.Spec.HeadFirst

theorem sameRead {s t : S} (h : eraseQ s = eraseQ t) : SameRead s t where
  message := congrArg S.msg h
  payload := by have := congrArg S.payload h; exact this
  error := by have := congrArg S.ec h; exact this
  fault := by have := congrArg S.fault h; exact this
  content := by have := congrArg S.contentRead h; exact this
  total := by have := congrArg S.totalRead h; exact this
  raw := by have := congrArg S.raw h; exact this

theorem msg_eq {a b : Msg} (h : SameBut a b) (h1 : a.queries = b.queries) (h2 : a.cookies = b.cookies)
    (h3 : a.isValid = b.isValid) (h4 : a.status = b.status) : a = b := by
  have ha : a = { ({ a with queries := [], cookies := [], isValid := false, status := .none } : Msg) with
    queries := a.queries, cookies := a.cookies, isValid := a.isValid, status := a.status } := rfl
  have hb : b = { ({ b with queries := [], cookies := [], isValid := false, status := .none } : Msg) with
    queries := b.queries, cookies := b.cookies, isValid := b.isValid, status := b.status } := rfl
  rw [ha, hb, h1, h2, h3, h4]
  unfold SameBut at h
  rw [h]

/-! ## The same message -/

/-- **C96, part.** Let a parser that reads headers only stop behind the head of a message, however the bytes have been cut
    into pieces, with unread bytes in the last piece. If it then skips the headers and goes on with the unread bytes and
    the pieces behind them, it ends as a parser that has read everything at once: with the same result, the same unread
    bytes and unused pieces, and the same message, payload, error and counts. The exceptions are the query parameters
    and the cookies (`head_first_same`, `parameters_twice`) and, unless the message is complete, whether it is marked
    as valid (`broken_but_valid`). -/
theorem head_first_partial {cfg : Cfg} (hho : cfg.headersOnly = false) {m : Msg} (hm : m.missing = false)
    {pieces more : List Bytes} {s1 : S} {rest : Bytes} (hne : rest ≠ [])
    (h : feed (headOnly cfg) (fresh cfg m) pieces = some (.yes, s1, rest, more)) :
    ∃ rc t t' unread unused, feed cfg (fresh cfg m) pieces = some (rc, t, unread, unused) ∧
      feed cfg (skipHeaders cfg s1) (rest :: more) = some (rc, t', unread, unused) ∧ SameRead t' t ∧
      (rc = .yes → t'.msg.isValid = t.msg.isValid ∧ t'.msg.status = t.msg.status) := by
  obtain ⟨s', b, hs, hmm, hp, e⟩ := head_pieces pieces (.inl rfl) hm h
  obtain ⟨⟨rc, t, u, v⟩, ⟨rc', t', u', v'⟩, h1, h2, ⟨a1, a2, a3, a4⟩, a5⟩ := feed_head_first hho hs hmm hne hp more
  dsimp only at a1 a2 a3 a4 a5
  subst a1 a3 a5
  exact ⟨rc', t, t', u', v', e.trans h1, h2, sameRead a2, a4⟩

/-- **C96, part.** The same if the head ends with the last of the bytes, and the message does not end there. -/
theorem head_alone_partial {cfg : Cfg} (hho : cfg.headersOnly = false) {m : Msg} (hm : m.missing = false)
    {pieces more : List Bytes} {s1 : S} (h : feed (headOnly cfg) (fresh cfg m) pieces = some (.yes, s1, [], more))
    (hb : ∀ t, feed cfg (fresh cfg m) pieces ≠ some (.yes, t, [], more)) :
    ∃ rc t t' unread unused, feed cfg (fresh cfg m) pieces = some (rc, t, unread, unused) ∧
      feed cfg (skipHeaders cfg s1) more = some (rc, t', unread, unused) ∧ SameRead t' t ∧
      (rc = .yes → t'.msg.isValid = t.msg.isValid ∧ t'.msg.status = t.msg.status) := by
  obtain ⟨s', b, hs, hmm, hp, e⟩ := head_pieces pieces (.inl rfl) hm h
  have hb' : ∀ t, parse cfg s' b ≠ some (.yes, t, []) := by
    intro t ht
    refine hb t ?_
    rw [e]
    simp only [feed, ht]
  obtain ⟨⟨rc, t, u, v⟩, ⟨rc', t', u', v'⟩, h1, h2, ⟨a1, a2, a3, a4⟩, a5⟩ := feed_head_alone hho hs hmm hp hb' more
  dsimp only at a1 a2 a3 a4 a5
  subst a1 a3 a5
  exact ⟨rc', t, t', u', v', e.trans h1, h2, sameRead a2, a4⟩

/-- **C96.** If the head has no query string and no cookies, a message that is complete is the same message. -/
theorem head_first_same {cfg : Cfg} (hho : cfg.headersOnly = false) (ho : OrderOk cfg.ord) {m : Msg}
    (hm : m.missing = false) {pieces more : List Bytes} {s1 : S} {rest : Bytes} (hne : rest ≠ [])
    (h : feed (headOnly cfg) (fresh cfg m) pieces = some (.yes, s1, rest, more))
    (hq : cfg.isRequest = true → s1.msg.queryString = [])
    (hk : s1.msg.headers.values (if cfg.isRequest then b! "Cookie" else b! "Set-Cookie") = [])
    {t : S} {unread : Bytes} {unused : List Bytes}
    (hw : feed cfg (fresh cfg m) pieces = some (.yes, t, unread, unused)) :
    ∃ t', feed cfg (skipHeaders cfg s1) (rest :: more) = some (.yes, t', unread, unused) ∧ t'.msg = t.msg ∧
      SameRead t' t := by
  obtain ⟨s', b, hs, hmm, hp, e⟩ := head_pieces pieces (.inl rfl) hm h
  obtain ⟨⟨rc, t0, u, v⟩, ⟨rc', t', u', v'⟩, h1, h2, ⟨a1, a2, a3, a4⟩, a5⟩ := feed_head_first hho hs hmm hne hp more
  dsimp only at a1 a2 a3 a4 a5
  subst a1 a3 a5
  rw [e, h1] at hw
  simp only [Option.some.injEq, Prod.mk.injEq] at hw
  obtain ⟨rfl, rfl, rfl, rfl⟩ := hw
  obtain ⟨d1, d2⟩ := feed_head_first_dicts hho ho hs hmm hne hp hq hk more h1 h2
  obtain ⟨v1, v2⟩ := a4 rfl
  exact ⟨t', h2, msg_eq (sameRead a2).message d1 d2 v1 v2, sameRead a2⟩

/-! ## What goes wrong -/

/-- What a caller sees. -/
structure Seen where
  result : Tri
  parameters : List (Bytes × Bytes)
  cookies : List (Bytes × Bytes)
  valid : Bool
  content : List (Option UInt8)
  deriving DecidableEq

def seen (r : Option (Tri × S × Bytes × List Bytes)) : Option Seen :=
  r.map fun r => ⟨r.1, r.2.1.msg.queries, r.2.1.msg.cookies, r.2.1.msg.isValid, r.2.1.msg.content⟩

/-- The head first, and then the rest. -/
def twoSteps (cfg : Cfg) (m : Msg) (pieces : List Bytes) : Option (Tri × S × Bytes × List Bytes) :=
  match feed (headOnly cfg) (fresh cfg m) pieces with
  | some (.yes, s1, rest, more) => feed cfg (skipHeaders cfg s1) (rest :: more)
  | _ => none

/-- **C96, negation.** The query parameters and the cookies of the head are inserted a second time: a request with one
    parameter and one cookie ends with two of each. -/
theorem parameters_twice :
    seen (feed { isRequest := true } (fresh { isRequest := true } {})
      [b! "GET /?a=1 HTTP/1.1\r\nCookie: c=2\r\nContent-Length: 2\r\n\r\nxy"]) =
        some ⟨.yes, [(b! "a", b! "1")], [(b! "c", b! "2")], true, (b! "xy").map some⟩ ∧
    seen (twoSteps { isRequest := true } {}
      [b! "GET /?a=1 HTTP/1.1\r\nCookie: c=2\r\nContent-Length: 2\r\n\r\nxy"]) =
        some ⟨.yes, [(b! "a", b! "1"), (b! "a", b! "1")], [(b! "c", b! "2"), (b! "c", b! "2")], true, (b! "xy").map some⟩ := by
  decide +kernel

/-- **C96, negation.** A message whose body is broken is marked as valid if its head has been read first, and as invalid if
    it has been read at once; both parsers report the failure. -/
theorem broken_but_valid :
    (seen (feed { isRequest := true } (fresh { isRequest := true } {})
      [b! "POST / HTTP/1.1\r\nTransfer-Encoding: chunked\r\n\r\nzz"])).map (fun r => (r.result, r.valid)) = some (.no, false) ∧
    (seen (twoSteps { isRequest := true } {}
      [b! "POST / HTTP/1.1\r\nTransfer-Encoding: chunked\r\n\r\nzz"])).map (fun r => (r.result, r.valid)) = some (.no, true) := by
  decide +kernel

/-- **C96, negation.** Another parser cannot read the body of a message whose head has been read: it forgets the request
    line or the status line, whatever the message. -/
theorem other_parser_forgets (cfg : Cfg) (m : Msg) :
    (cfg.isRequest = true → (skipWithNew cfg m).msg.method = [] ∧ (skipWithNew cfg m).msg.resource = [] ∧
      (skipWithNew cfg m).msg.originalResource = [] ∧ (skipWithNew cfg m).msg.queryString = []) ∧
    (cfg.isRequest = false → (skipWithNew cfg m).msg.statusCode = 0 ∧ (skipWithNew cfg m).msg.statusMessage = []) := by
  have h2 := finishHeaders2_line cfg (finishHeaders1 cfg (fresh cfg m))
  have h3 : (skipWithNew cfg m).msg = (finishHeaders2 cfg (finishHeaders1 cfg (fresh cfg m))).2.msg := by
    show (finishHeaders cfg (fresh cfg m)).2.msg = _
    rw [finishHeaders_eq]
  rw [h3]
  obtain ⟨a1, a2, a3, a4, a5, a6⟩ := h2
  rw [a1, a2, a3, a4, a5, a6]
  constructor
  · intro hr
    unfold finishHeaders1 updateMessage
    simp only [hr, if_true]
    exact ⟨rfl, rfl, rfl, rfl⟩
  · intro hr
    unfold finishHeaders1 updateMessage
    simp only [hr, Bool.false_eq_true, if_false]
    exact ⟨rfl, rfl⟩

/-- **C96, negation.** ... so a response that cannot have a body (304) is read as one that has the body its
    `Content-Length` describes: the new parser waits for it, the parser that has read the head does not. -/
theorem other_parser_waits : ∃ s1, feed (headOnly { isRequest := false }) (fresh { isRequest := false } {})
      [b! "HTTP/1.1 304 Not Modified\r\nContent-Length: 2\r\n\r\nHT"] = some (.yes, s1, b! "HT", []) ∧
    (feed { isRequest := false } (skipHeaders { isRequest := false } s1) [b! "HT"]).map (fun r => (r.1, r.2.1.msg.content, r.2.2.1)) =
      some (.yes, [], b! "HT") ∧
    (feed { isRequest := false } (skipWithNew { isRequest := false } s1.msg) [b! "HT"]).map (fun r => (r.1, r.2.1.msg.content, r.2.2.1)) =
      some (.yes, (b! "HT").map some, []) := by
  have h : ∃ r, (feed (headOnly { isRequest := false }) (fresh { isRequest := false } {})
      [b! "HTTP/1.1 304 Not Modified\r\nContent-Length: 2\r\n\r\nHT"]) = some r ∧ r.1 = .yes ∧ r.2.2 = (b! "HT", []) ∧
      (feed { isRequest := false } (skipHeaders { isRequest := false } r.2.1) [b! "HT"]).map (fun r => (r.1, r.2.1.msg.content, r.2.2.1)) =
        some (.yes, [], b! "HT") ∧
      (feed { isRequest := false } (skipWithNew { isRequest := false } r.2.1.msg) [b! "HT"]).map (fun r => (r.1, r.2.1.msg.content, r.2.2.1)) =
        some (.yes, (b! "HT").map some, []) := ⟨_, rfl, by decide +kernel⟩
  obtain ⟨⟨rc, s1, rest, more⟩, h1, h2, h3, h4, h5⟩ := h
  simp only [Prod.mk.injEq] at h2 h3
  obtain ⟨rfl, rfl⟩ := h3
  subst h2
  exact ⟨s1, h1, h4, h5⟩

/-! ## The hypotheses can be met -/

/-- A request whose head comes in two pieces, the second with the beginning of its body. -/
def pieces : List Bytes := [b! "POST /p HTTP/1.1\r\nContent-", b! "Length: 5\r\n\r\nhe", b! "llo", b! "GET"]

example : ∃ s1, feed (headOnly { isRequest := true }) (fresh { isRequest := true } {}) pieces =
      some (.yes, s1, b! "he", [b! "llo", b! "GET"]) ∧ s1.msg.queryString = [] ∧
    s1.msg.headers.values (b! "Cookie") = [] := by
  have h : ∃ r, feed (headOnly { isRequest := true }) (fresh { isRequest := true } {}) pieces = some r ∧ r.1 = .yes ∧
    r.2.2 = (b! "he", [b! "llo", b! "GET"]) ∧ r.2.1.msg.queryString = [] ∧ r.2.1.msg.headers.values (b! "Cookie") = [] :=
    ⟨_, rfl, by decide +kernel⟩
  obtain ⟨⟨rc, s1, rest, more⟩, h1, h2, h3, h4, h5⟩ := h
  simp only [Prod.mk.injEq] at h2 h3
  obtain ⟨rfl, rfl⟩ := h3
  subst h2
  exact ⟨s1, h1, h4, h5⟩

example : seen (twoSteps { isRequest := true } {} pieces) = some ⟨.yes, [], [], true, (b! "hello").map some⟩ ∧
    seen (feed { isRequest := true } (fresh { isRequest := true } {}) pieces) =
      some ⟨.yes, [], [], true, (b! "hello").map some⟩ := by
  decide +kernel

/-- A head that comes alone (`head_alone_partial`). -/
example : (feed (headOnly { isRequest := true }) (fresh { isRequest := true } {})
      [b! "POST / HTTP/1.1\r\nContent-Length: 2\r\n\r\n", b! "xy"]).map (fun r => (r.1, r.2.2)) =
      some (.yes, [], [b! "xy"]) ∧
    (feed { isRequest := true } (fresh { isRequest := true } {})
      [b! "POST / HTTP/1.1\r\nContent-Length: 2\r\n\r\n", b! "xy"]).map (fun r => (r.1, r.2.2)) =
      some (.yes, [], []) := by
  decide +kernel

end Verif.Props.HeadFirst
