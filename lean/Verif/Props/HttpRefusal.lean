import Verif.Lemmas.HttpRefusalRun
import Verif.Props.HttpGrammar
import Verif.Model.ErrorText
/-
C99: why the head of a message is refused.
-/
namespace Verif.Props.HttpRefusal
open Verif.Http Verif.Http.Text Verif.Props.HttpSegmentation Verif.Props.HttpBody Verif.Props.HttpGrammar

/-- The parser stops with an error at the first byte of `left`. -/
structure Refused (o : Outcome) (e : Err) (left : Bytes) : Prop where
  result : o.result = .no
  error : o.error = some e
  unread : o.unread = left
  /-- the message is not taken for complete -/
  status : o.message.status ≠ .ok

/-- The parser has read everything without an error, and wants more. -/
structure Waiting (o : Outcome) : Prop where
  result : o.result = .more
  error : o.error = none
  unread : o.unread = []

theorem endOutcome_refused (cfg : Cfg) {s : S} {e : Err} (left : Bytes) (h : s.ec = some e) :
    Refused (endOutcome cfg (.no, s, left)) e left :=
  ⟨rfl, h, rfl, by
    show (computeStatus s.msg false).status ≠ _
    unfold computeStatus
    by_cases h : s.msg.missing = true <;> by_cases h' : s.msg.afterMissing = true <;> simp [h, h']⟩

theorem outcome_nil (cfg : Cfg) (m : Msg) : ∃ o, outcome cfg (fresh cfg m) [] = some o ∧ Waiting o := ⟨_, rfl, rfl, rfl, rfl⟩

theorem viable_nil (r : Bool) : Viable r [] :=
  viable_of_run (cfg := { isRequest := r }) (m := {}) (t := []) rfl

/-- **C99, errors come when they must, and not before.** Whatever the bytes and however they are cut into buffers: as long
    as no head is complete, the parser wants more if what it has read can still become a head, and else stops at the very
    byte with which this has become impossible, with an error that says what is wrong with it. -/
theorem refusal (cfg : Cfg) (m : Msg) (hm : m.missing = false) (stream : Bytes)
    (hno : ∀ h hs t rest, MessageHead h hs t rest → cfg.isRequest = h.isRequest → stream ≠ t ++ rest)
    (bufs : List Bytes) (hcut : Cuts bufs stream) :
    ∃ o, outcome cfg (fresh cfg m) bufs = some o ∧
      ((Viable cfg.isRequest stream ∧ Waiting o) ∨
       (∃ read c rest e, stream = read ++ c :: rest ∧ Viable cfg.isRequest read ∧ ¬ Viable cfg.isRequest (read ++ [c]) ∧
         Cause cfg.isRequest e read c ∧ Refused o e (c :: rest))) := by
  by_cases hne : stream = []
  · subst hne
    rw [cuts_nil hcut]
    obtain ⟨o, h1, h2⟩ := outcome_nil cfg m
    exact ⟨o, h1, .inl ⟨viable_nil _, h2⟩⟩
  rw [outcome_cuts cfg _ hcut hne]
  have hbeg := parseBegin_fresh cfg m hm
  rcases refused (m := m) hno with ⟨s, h1, h2, h3⟩ | ⟨s, read, c, rest, e, rfl, h1, h2, h3, h4, h5⟩
  · exact ⟨_, outcome_of_iter cfg hbeg h1 (.inr rfl), .inl ⟨h3, rfl, h2, rfl⟩⟩
  · exact ⟨_, outcome_of_iter cfg hbeg h1 (.inl (by simp)), .inr ⟨read, c, rest, e, rfl, h3, h4, h5, endOutcome_refused cfg _ h2⟩⟩

/-- **C99, every cause is reported.** If something is wrong with a byte, the parser stops there with the error of that
    cause, whatever follows and however the bytes are cut into buffers. -/
theorem cause_reported (cfg : Cfg) (m : Msg) (hm : m.missing = false) (e : Err) (read : Bytes) (c : UInt8) (rest : Bytes)
    (hc : Cause cfg.isRequest e read c) (bufs : List Bytes) (hcut : Cuts bufs (read ++ c :: rest)) :
    ∃ o, outcome cfg (fresh cfg m) bufs = some o ∧ Refused o e (c :: rest) := by
  rw [outcome_cuts cfg _ hcut (by simp)]
  obtain ⟨s, h1, h2⟩ := cause_iter (m := m) (rest := rest) hc
  exact ⟨_, outcome_of_iter cfg (parseBegin_fresh cfg m hm) h1 (.inl (by simp)), endOutcome_refused cfg _ h2⟩

/-- **C99, the causes are the reasons why something is not a head**: what comes before a byte that has a cause can become a
    head, with the byte it cannot, and no other cause is given for it. Conversely a byte with which a text that does not
    begin with a complete head ceases to be the beginning of one has a cause. -/
theorem cause_exact (r : Bool) (read : Bytes) (c : UInt8) :
    (∀ e, Cause r e read c → Viable r read ∧ ¬ Viable r (read ++ [c]) ∧ ∀ e', Cause r e' read c → e' = e) ∧
    (Viable r read → ¬ Viable r (read ++ [c]) →
      (∀ h hs t rest, MessageHead h hs t rest → r = h.isRequest → read ++ [c] ≠ t ++ rest) → ∃ e, Cause r e read c) := by
  refine ⟨fun e h => ⟨(cause_viable h).1, (cause_viable h).2, fun e' h' => cause_unique h' h⟩, fun h1 h2 hno => ?_⟩
  rcases refused (cfg := { isRequest := r }) (m := {}) hno with ⟨_, _, _, h3⟩ | ⟨_, read', c', rest, e, he, _, _, h3, h4, h5⟩
  · exact absurd h3 h2
  · rcases List.eq_nil_or_concat rest with rfl | ⟨rest', d, rfl⟩
    · obtain ⟨rfl, hc⟩ := List.append_inj' he rfl
      cases hc
      exact ⟨e, h5⟩
    · -- the byte refused is not the last one: then `read` is not the beginning of a head
      exfalso
      have he' : read ++ [c] = (read' ++ [c'] ++ rest') ++ [d] := by rw [he]; simp
      obtain ⟨rfl, _⟩ := List.append_inj' he' rfl
      obtain ⟨h, hs, w, x, hm, hk, y, hy⟩ := h1
      exact h4 ⟨h, hs, w, x, hm, hk, rest' ++ y, by rw [← hy]; simp⟩

/-- RFC 7230 does not ask for a space after the colon. Without one, a value that does not begin with a character that a name
    can have is refused, whatever the header: a quotation mark as in an entity tag, or the slash of a path. -/
theorem no_space_after_colon (cfg : Cfg) (m : Msg) (hm : m.missing = false) (t n : Bytes) (c : UInt8) (rest : Bytes)
    (ht : LineBegun cfg.isRequest t) (hn : Token n) (hc : c = c! "\"" ∨ c = c! "/" ∨ c = c! "(" ∨ c = c! "<") (bufs : List Bytes)
    (hcut : Cuts bufs (t ++ n ++ b! ":" ++ c :: rest)) :
    ∃ o, outcome cfg (fresh cfg m) bufs = some o ∧ Refused o .headerChar (c :: rest) := by
  refine cause_reported cfg m hm _ _ _ _ (.valueFirst ht hn ?_ ?_ ?_ ?_) bufs hcut <;> rcases hc with rfl | rfl | rfl | rfl <;> decide

/-! ### Texts -/

/-- **C99, the texts of the errors**: different errors of the HTTP parser have different texts, except that a target that
    is too long is said to be a method that is too long. -/
theorem texts_differ_partial (e e' : Err) (h : ErrorText.http e = ErrorText.http e') :
    e = e' ∨ (e = .methodSize ∧ e' = .uriSize) ∨ (e = .uriSize ∧ e' = .methodSize) := by
  revert h; cases e <;> cases e' <;> decide

/-- A target of more than 262144 characters is refused with the words "method exceeds maximum size", and a reason phrase
    of more than 1024 characters with "invalid status character"; the SPDY parser tells a protocol error from an internal
    one by its number only. -/
theorem texts_mislead :
    ErrorText.http .uriSize = "method exceeds maximum size" ∧
    (∀ (m : Msg), m.missing = false → ∀ u : Bytes, u.length = 262144 → (∀ c ∈ u, uriChar c) → ∃ o,
      outcome { isRequest := true } (fresh { isRequest := true } m) [b! "GET " ++ u ++ b! "/ HTTP/1.1\r\n\r\n"] = some o ∧
        Refused o .uriSize (b! "/ HTTP/1.1\r\n\r\n")) ∧
    (∀ (m : Msg), m.missing = false → ∀ y : Bytes, y.length = 1024 → (∀ c ∈ y, textChar c) → ∃ o,
      outcome { isRequest := false } (fresh { isRequest := false } m) [b! "HTTP/1.1 200 " ++ y ++ b! "x\r\n\r\n"] = some o ∧
        Refused o .statusChar (b! "x\r\n\r\n")) ∧
    ErrorText.spdy .protocol = ErrorText.spdy .internal := by
  refine ⟨rfl, fun m hm u hl hu => ?_, fun m hm y hl hy => ?_, rfl⟩
  · have hc : Cause true .uriSize (b! "" ++ b! "GET" ++ b! " " ++ u) (c! "/") :=
      .uriSize rfl (by simp [Skipped]) ⟨by decide +kernel, by decide +kernel, by decide +kernel⟩ hu hl (by unfold uriChar; decide +kernel)
    have := cause_reported { isRequest := true } m hm _ _ _ (b! " HTTP/1.1\r\n\r\n") hc
      [b! "GET " ++ u ++ b! "/ HTTP/1.1\r\n\r\n"] ⟨by simp, by simp⟩
    exact this
  · have hv : Version false 1 1 (b! "HTTP/1.1") :=
      ⟨c! "H", b! "1", b! "1", rfl, .inl rfl, ⟨by decide +kernel, by decide +kernel, by decide +kernel⟩,
        ⟨by decide +kernel, by decide +kernel, by decide +kernel⟩, by decide +kernel, by decide +kernel⟩
    have hc : Cause false .statusChar (b! "HTTP/1.1" ++ b! " " ++ b! "200" ++ b! " " ++ y) (c! "x") :=
      .textSize rfl hv (code := 200) ⟨by decide +kernel, by decide +kernel, by decide +kernel⟩ hy hl (by unfold textChar; decide +kernel)
    have := cause_reported { isRequest := false } m hm _ _ _ (b! "\r\n\r\n") hc
      [b! "HTTP/1.1 200 " ++ y ++ b! "x\r\n\r\n"] ⟨by simp, by simp⟩
    exact this

/-! ### Examples -/

structure Stop where
  result : Tri
  error : Option Err
  unread : Bytes
  deriving DecidableEq

def stop (isRequest : Bool) (bufs : List Bytes) : Option Stop :=
  (outcome { isRequest := isRequest } (fresh { isRequest := isRequest } {}) bufs).map fun o => ⟨o.result, o.error, o.unread⟩

-- a line after which a header may begin
example : LineBegun true (b! "GET / HTTP/1.1\r\n") :=
  ⟨.request (b! "GET") (b! "/") [] 1 1, [], b! "GET / HTTP/1.1", [], [], b! "\r\n", [], rfl,
    .request (pre := []) (q := []) (v := b! " HTTP/1.1") (by simp) ⟨by decide +kernel, by decide +kernel, by decide +kernel⟩
      (by unfold uriChar; decide +kernel) (by decide +kernel) (by simp) (by simp) (.inl ⟨rfl, rfl⟩)
      (.inr ⟨_, rfl, c! "H", b! "1", b! "1", rfl, .inl rfl, ⟨by decide +kernel, by decide +kernel, by decide +kernel⟩,
        ⟨by decide +kernel, by decide +kernel, by decide +kernel⟩, by decide +kernel, by decide +kernel⟩),
    .nil, .nil, .crlf rfl, by simp, rfl⟩
-- streams without a complete head exist: what is refused has none
example : (∀ h hs t rest, MessageHead h hs t rest → true = h.isRequest → b! "GET / HTTQ" ≠ t ++ rest) ∧
    Cause true .versionChar (b! "GET / HTT") (c! "Q") := by
  have hc : Cause true .versionChar (b! "GET / HTT") (c! "Q") :=
    .versionName (p := b! "GET / ") (l := c! "H") (v := b! "TT") (y := b! "/") (d := c! "P")
      (.request (.stem (pre := []) (m := b! "GET") (u := b! "/") (by simp [Skipped])
        ⟨by decide +kernel, by decide +kernel, by decide +kernel⟩ (by unfold uriChar; decide +kernel) (by decide +kernel)))
      (.inl rfl) rfl (by decide)
  refine ⟨fun h hs t rest hm hk e => ?_, hc⟩
  exact (cause_viable hc).2 ⟨h, hs, t, rest, hm, hk.symm, [], by rw [List.append_nil, ← e]; rfl⟩
example : stop true [b! "GET / HT", b! "TQ/1.1\r\n\r\n"] = some ⟨.no, some .versionChar, b! "Q/1.1\r\n\r\n"⟩ := by decide +kernel
example : stop true [b! "GET / HTT"] = some ⟨.more, none, []⟩ := by decide +kernel
example : stop true [b! "G@T / HTTP/1.1\r\n\r\n"] = some ⟨.no, some .methodChar, b! "@T / HTTP/1.1\r\n\r\n"⟩ := by decide +kernel
example : stop false [b! "\r\n"] = some ⟨.no, some .versionEmpty, b! "\r\n"⟩ := by decide +kernel
example : stop false [b! "HTTP/1.1\r\n\r\n"] = some ⟨.no, some .statusEmpty, b! "\r\n\r\n"⟩ := by decide +kernel
example : stop false [b! "HTTP/1.1 2x0 OK\r\n\r\n"] = some ⟨.no, some .statusChar, b! "x0 OK\r\n\r\n"⟩ := by decide +kernel
example : stop true [b! "GET / HTTP/1.1\r\nA b: c\r\n\r\n"] = some ⟨.no, some .headerChar, b! " b: c\r\n\r\n"⟩ := by decide +kernel
-- a header whose value begins with a quotation mark right after the colon is refused; with a space it is not
example : stop true [b! "GET / HTTP/1.1\r\nA:\"b\"\r\n\r\n"] = some ⟨.no, some .headerChar, b! "\"b\"\r\n\r\n"⟩ := by decide +kernel
example : stop true [b! "GET / HTTP/1.1\r\nA: \"b\"\r\n\r\n"] = some ⟨.yes, none, []⟩ := by decide +kernel

end Verif.Props.HttpRefusal
