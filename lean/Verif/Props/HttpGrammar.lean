import Verif.Lemmas.HttpGrammar
import Verif.Props.HttpBody
import Mathlib.Data.List.Induction
/-
C67: the exact language of message heads.
-/
namespace Verif.Props.HttpGrammar
open Verif.Http Verif.Http.Text Verif.Props.HttpSegmentation Verif.Props.HttpBody

/-- The white space around the length: space, tab, line feed, vertical tab, form feed, carriage return. -/
theorem white_space (c : UInt8) : isSpace c = true ↔ c ∈ ([0x20, 0x09, 0x0a, 0x0b, 0x0c, 0x0d] : Bytes) := by
  have key : ∀ c : UInt8, isSpace c = true ↔ c ∈ ([0x20, 0x09, 0x0a, 0x0b, 0x0c, 0x0d] : Bytes) := by decide +kernel
  exact key c

theorem firstLine_ne_nil {h : Head} {f : Bytes} (hf : FirstLine h f) : f ≠ [] := by
  cases hf <;> simp

theorem head_ne_nil {h : Head} {hs : Dict} {t rest : Bytes} (hm : MessageHead h hs t rest) : t ≠ [] := by
  obtain ⟨f, l, rfl, hf, _⟩ := hm
  simp [firstLine_ne_nil hf]

/-- The end of the headers for a parser of headers only. -/
theorem finishHeaders2_only {cfg : Cfg} {m : Msg} {h : Head} {hs : Dict} {t : Bytes} {s : S} (hd : HeadDone cfg m h hs t s)
    (hm : Blank m) (ho : OrderOk cfg.ord) (hr : cfg.isRequest = h.isRequest) (hdr : cfg.headersOnly = true) :
    (BadLength cfg.ord m.requestMethod h hs → finishHeaders2 cfg s = (.no, { s with ec := some .invalidContentLength })) ∧
    (¬ BadLength cfg.ord m.requestMethod h hs → ∃ x k n cc, finishHeaders2 cfg s =
      (.yes, { s with ms := x, remaining := k, msg := { s.msg with contentLength := n, chunkCache := cc } })) := by
  have hhs : s.msg.headers = hs := by rw [hd.headers, hm.noHeaders]; rfl
  have hchunk := chunked_iff cfg hd hm
  have hbody := bodyless_iff cfg hd hr
  unfold finishHeaders2 BadLength
  by_cases h1 : s.msg.isChunked = true
  · rw [if_pos h1, hdr]
    exact ⟨fun h => absurd (hchunk.mp h1) h.1, fun _ => ⟨_, _, _, _, rfl⟩⟩
  · rw [if_neg h1]
    by_cases h2 : s.msg.contentLengthImplied cfg.isRequest = true
    · rw [if_pos h2]
      exact ⟨fun h => absurd (hbody.mp h2) h.2.1, fun _ => ⟨_, _, _, _, rfl⟩⟩
    · rw [if_neg h2]
      cases hf : hs.find? cfg.ord (b! "Content-Length") with
      | none =>
        have h3 : s.msg.headers.has (b! "Content-Length") = false := by rw [hhs]; exact has_of_find_none ho hf
        rw [h3]
        refine ⟨fun h => ?_, fun _ => ?_⟩
        · obtain ⟨v, hv, _⟩ := h.2.2; exact nomatch hv
        · simp only [Bool.false_eq_true, if_false, hdr, if_true]
          split <;> exact ⟨_, _, _, _, rfl⟩
      | some v =>
        have h3 : s.msg.headers.has (b! "Content-Length") = true := by rw [hhs]; exact has_of_find ho hf
        rw [h3]
        simp only [if_true, Msg.updateContentLength, hhs, hf]
        cases hl : lexicalCastSize (trim v) with
        | none =>
          refine ⟨fun _ => rfl, fun h => absurd ⟨?_, ?_, v, rfl, fun n hn => ?_⟩ h⟩
          · rw [← hchunk]; exact h1
          · rw [← hbody]; exact h2
          · rw [(cast_iff v n).mpr hn] at hl; exact nomatch hl
        | some n =>
          refine ⟨fun h => ?_, fun _ => ?_⟩
          · obtain ⟨v', hv', hno⟩ := h.2.2
            cases hv'
            exact absurd ((cast_iff v n).mp hl) (hno n)
          · simp only [Option.map_some, hdr, if_true]
            split
            · exact ⟨_, _, _, _, rfl⟩
            · split <;> exact ⟨_, _, _, _, rfl⟩

/-- A parser of headers only does not look for form data. -/
theorem parseEnd_only (cfg : Cfg) (s : S) (h : cfg.headersOnly = true) : parseEnd cfg .yes s 0 =
    { s with ms := .end_, lastRead := 0, msg := computeStatus { s.msg with isValid := true } true } := by
  unfold parseEnd
  simp only
  rw [finish_end]
  unfold finishForm
  simp [h]

/-- **C67, acceptance.** A parser of message heads accepts every head of the grammar, however it is cut into buffers and
    whatever follows, unless the Content-Length header matters and is not a number: the message then has the first line and
    the headers that the grammar gives, and what follows the head is unread. -/
theorem head_accepted (cfg : Cfg) (m : Msg) (hm : Blank m) (ho : OrderOk cfg.ord) (honly : cfg.headersOnly = true)
    (h : Head) (hs : Dict) (t rest : Bytes) (hg : MessageHead h hs t rest) (hk : cfg.isRequest = h.isRequest)
    (bufs : List Bytes) (hcut : Cuts bufs (t ++ rest)) :
    ∃ o, outcome cfg (fresh cfg m) bufs = some o ∧
      (¬ BadLength cfg.ord m.requestMethod h hs → Complete h hs rest o) ∧
      (BadLength cfg.ord m.requestMethod h hs → o.result = .no ∧ o.error = some .invalidContentLength) := by
  rw [outcome_cuts cfg _ hcut (by simp [head_ne_nil hg])]
  obtain ⟨s, hd, hi⟩ := iter_messageHead m hg hk
  obtain ⟨hbad, hgood⟩ := finishHeaders2_only hd hm ho hk honly
  have hbeg := parseBegin_fresh cfg m hm.notMissing
  by_cases hb : BadLength cfg.ord m.requestMethod h hs
  · rw [hbad hb] at hi
    exact ⟨_, outcome_of_iter cfg hbeg hi (.inl (by simp)), fun hn => absurd hb hn, fun _ => ⟨rfl, rfl⟩⟩
  · obtain ⟨x, k, n, cc, e⟩ := hgood hb
    rw [e] at hi
    refine ⟨_, outcome_of_iter cfg hbeg hi (.inl (by simp)), fun _ => ?_, fun hn => absurd hn hb⟩
    unfold endOutcome
    rw [parseEnd_only cfg _ honly]
    refine ⟨rfl, hd.ec, rfl, ?_, ?_, rfl, ?_, ?_⟩
    · have := hd.stored
      cases h <;> exact this
    · show s.msg.headers = hs
      rw [hd.headers, hm.noHeaders]; rfl
    · show (computeStatus _ true).status = _
      have : s.msg.missing = false := by rw [hd.missing, hm.notMissing]
      simp [computeStatus, this]
    · show s.fault ≠ _
      rw [hd.fault]; simp

/-- Any parser, of heads or of whole messages, that reports success has read a head of the grammar. -/
theorem begins_with_head {cfg : Cfg} {m : Msg} (hmiss : m.missing = false) {stream : Bytes} {o : Outcome}
    (ho : outcome cfg (fresh cfg m) [stream] = some o) (hy : o.result = .yes) :
    ∃ h hs t rest, MessageHead h hs t rest ∧ stream = t ++ rest ∧ cfg.isRequest = h.isRequest := by
  obtain ⟨r, hr⟩ := runs_exists cfg _ (parseBegin (fresh cfg m)) stream (Nat.le_refl _)
  rw [outcome_of_runs cfg hr] at ho
  have ho := Option.some.inj ho
  rw [parseBegin_fresh cfg m hmiss] at hr
  have hy' : r.1 = .yes := by rw [← ho] at hy; exact hy
  cases hr with
  | stop _ => exact head_of_iter (.inl hy')
  | next h1 h2 _ => exact head_of_iter (.inr ⟨h1, h2⟩)

theorem cuts_nil {bufs : List Bytes} (h : Cuts bufs []) : bufs = [] := by
  cases bufs with
  | nil => rfl
  | cons b l =>
    have := h.flat
    simp only [List.flatten_cons, List.append_eq_nil_iff] at this
    exact absurd this.1 (h.nonempty b (by simp))

theorem nonempty_of_yes {cfg : Cfg} {s : S} {bufs : List Bytes} {stream : Bytes} (hcut : Cuts bufs stream) {o : Outcome}
    (ho : outcome cfg s bufs = some o) (hy : o.result = .yes) : stream ≠ [] := by
  rintro rfl
  rw [cuts_nil hcut] at ho
  have := Option.some.inj ho
  rw [← this] at hy
  exact nomatch hy

/-- **C67, nothing else is accepted.** If a parser of message heads reports success, the bytes it has read are a head of
    the grammar, and the message has the first line and the headers that the grammar gives. -/
theorem head_sound (cfg : Cfg) (m : Msg) (hm : Blank m) (ord : OrderOk cfg.ord) (honly : cfg.headersOnly = true)
    (bufs : List Bytes) (stream : Bytes) (hcut : Cuts bufs stream) (o : Outcome)
    (ho : outcome cfg (fresh cfg m) bufs = some o) (hy : o.result = .yes) :
    ∃ h hs t, stream = t ++ o.unread ∧ MessageHead h hs t o.unread ∧ cfg.isRequest = h.isRequest ∧
      ¬ BadLength cfg.ord m.requestMethod h hs ∧ Complete h hs o.unread o := by
  have hne := nonempty_of_yes hcut ho hy
  have ho' := ho
  rw [outcome_cuts cfg _ hcut hne] at ho'
  obtain ⟨h, hs, t, rest, hg, rfl, hk⟩ := begins_with_head hm.notMissing ho' hy
  obtain ⟨o', e, h1, h2⟩ := head_accepted cfg m hm ord honly h hs t rest hg hk bufs hcut
  rw [e] at ho
  cases ho
  by_cases hb : BadLength cfg.ord m.requestMethod h hs
  · rw [(h2 hb).1] at hy; exact nomatch hy
  · have hc := h1 hb
    have hu := hc.unread
    exact ⟨h, hs, t, by rw [hu], by rw [hu]; exact hg, hk, hb, by rw [hu]; exact hc⟩

/-- **C67, a parser of whole messages** never reports success without having read a head of the grammar. -/
theorem message_begins_with_head (cfg : Cfg) (m : Msg) (hmiss : m.missing = false)
    (bufs : List Bytes) (stream : Bytes) (hcut : Cuts bufs stream) (o : Outcome)
    (ho : outcome cfg (fresh cfg m) bufs = some o) (hy : o.result = .yes) :
    ∃ h hs t rest, stream = t ++ rest ∧ MessageHead h hs t rest ∧ cfg.isRequest = h.isRequest := by
  rw [outcome_cuts cfg _ hcut (nonempty_of_yes hcut ho hy)] at ho
  obtain ⟨h, hs, t, rest, hg, e, hk⟩ := begins_with_head hmiss ho hy
  exact ⟨h, hs, t, rest, e, hg, hk⟩

/-- **C67, the grammar is unambiguous**: a stream begins with at most one head of each kind (request or response), and it
    can be read in one way only. -/
theorem unambiguous {h h' : Head} {hs hs' : Dict} {t t' rest rest' : Bytes} (hm : MessageHead h hs t rest)
    (hm' : MessageHead h' hs' t' rest') (e : t ++ rest = t' ++ rest') (hk : h.isRequest = h'.isRequest) :
    h = h' ∧ hs = hs' ∧ t = t' ∧ rest = rest' := by
  let cfg : Cfg := { isRequest := h.isRequest }
  obtain ⟨x, w, n, v, e1⟩ := run_complete (cfg := cfg) (s := start cfg {}) hm rfl rfl rfl
  obtain ⟨x', w', n', v', e2⟩ := run_complete (cfg := cfg) (s := start cfg {}) hm' hk rfl rfl
  rw [e, e2] at e1
  simp only [Prod.mk.injEq, true_and] at e1
  obtain ⟨hst, hrest⟩ := e1
  subst hrest
  have ht : t = t' := List.append_cancel_right e
  have hhs : hs' = hs := List.append_cancel_left (congrArg (fun s : S => s.msg.headers) hst)
  refine ⟨?_, hhs.symm, ht, rfl⟩
  cases h with
  | request a b c d f =>
    cases h' with
    | response => exact nomatch hk
    | request a' b' c' d' f' =>
      have q1 : a' = a := congrArg (fun s : S => s.method) hst
      have q2 : b' = b := congrArg (fun s : S => s.resource) hst
      have q3 : c' = c := congrArg (fun s : S => s.query) hst
      have q4 : d' = d := congrArg (fun s : S => s.msg.verMajor) hst
      have q5 : f' = f := congrArg (fun s : S => s.msg.verMinor) hst
      rw [q1, q2, q3, q4, q5]
  | response a b c d =>
    cases h' with
    | request => exact nomatch hk
    | response a' b' c' d' =>
      have q1 : a' = a := congrArg (fun s : S => s.msg.verMajor) hst
      have q2 : b' = b := congrArg (fun s : S => s.msg.verMinor) hst
      have q3 : c' = c := congrArg (fun s : S => s.statusCode) hst
      have q4 : d' = d := congrArg (fun s : S => s.statusMessage) hst
      rw [q1, q2, q3, q4]

/-! ### The usual form of a head belongs to the grammar -/

theorem number_toDec {n : Nat} (h : n < 65536) : Number n (toDec n) :=
  ⟨toDec_ne_nil n, fun c hc => toDec_isDigit n c hc, by rw [decVal_toDec]; omega⟩

theorem version_text (r : Bool) {major minor : Nat} (h1 : major < 65536) (h2 : minor < 65536) :
    Version r major minor (versionText major minor) := by
  have hd : ∀ c ∈ toDec minor, c ≠ c! " " := by
    intro c hc he
    have := toDec_isDigit minor c hc
    rw [he] at this
    revert this
    decide
  refine ⟨c! "H", toDec major, toDec minor, by simp [versionText], .inl rfl, number_toDec h1, ?_, ?_, ?_⟩
  · rw [List.filter_eq_self.mpr (by simpa using hd)]
    exact number_toDec h2
  · cases hh : toDec minor with
    | nil => simp
    | cons c l => simp only [List.head?_cons, ne_eq, Option.some.injEq]; exact hd c (by simp [hh])
  · intro _ hc; exact hd _ hc rfl

/-- The first line as pion and others write it, without the line end. -/
theorem firstLine_wire {h : Head} (ok : h.Ok) : ∃ f, h.line = f ++ CRLF ∧ FirstLine h f := by
  cases h with
  | request meth r q major minor =>
    have ok : RequestLineOk meth r q major minor := ok
    refine ⟨_, rfl, ?_⟩
    have := FirstLine.request (pre := []) (q := if q.isEmpty then [] else b! "?" ++ q)
      (v := b! " " ++ versionText major minor) (by simp) ok.methodOk ok.resourceOk ok.resourceSize ok.queryOk ok.querySize
      (by cases q with
        | nil => exact .inl ⟨rfl, rfl⟩
        | cons => exact .inr rfl)
      (.inr ⟨_, rfl, version_text true ok.majorOk.2 ok.minorOk⟩)
    simpa using this
  | response major minor code text =>
    have ok : StatusLineOk major minor code text := ok
    refine ⟨_, rfl, ?_⟩
    have := FirstLine.response (x := b! " " ++ text) (version_text false ok.majorOk ok.minorOk)
      (number_toDec ok.codeOk) ok.textOk ok.textSize (.inr rfl)
    simpa using this

theorem fields_wire {hs : Dict} (ok : ∀ e ∈ hs, HeaderOk e) :
    ∃ f, CRLF ++ (hs.map headerLine).flatten = f ++ CRLF ∧ Fields false hs f := by
  induction hs using List.reverseRecOn with
  | nil => exact ⟨[], rfl, .nil⟩
  | append_singleton hs e ih =>
    obtain ⟨f, h1, h2⟩ := ih fun x hx => ok x (by simp [hx])
    refine ⟨f ++ [] ++ CRLF ++ [] ++ (e.1 ++ b! ": " ++ e.2), ?_, ?_⟩
    · rw [List.map_append, List.flatten_append, ← List.append_assoc, h1]
      simp [headerLine]
    · exact .snoc h2 .nil (.crlf rfl) (by simp) ⟨ok e (by simp), .inl rfl⟩

/-- **C67.** Every well-formed head in its usual form (C22, C13, C14) belongs to the grammar, whatever follows. -/
theorem wire_in_grammar (h : Head) (hs : Dict) (ok : h.Ok) (hok : ∀ e ∈ hs, HeaderOk e) (rest : Bytes) :
    MessageHead h hs (wireHead h hs) rest := by
  obtain ⟨f, e1, h1⟩ := firstLine_wire ok
  obtain ⟨g, e2, h2⟩ := fields_wire hok
  have hold : old h = false := by
    cases h with
    | request =>
      have := (show RequestLineOk _ _ _ _ _ from ok).majorOk.1
      simp only [old, beq_eq_false_iff_ne]
      omega
    | response => rfl
  refine ⟨f, CRLF ++ (hs.map headerLine).flatten ++ CRLF, by simp [wireHead, headerBlock, e1], h1, ?_⟩
  rw [hold]
  refine ⟨g, CRLF ++ CRLF, by rw [e2]; simp, h2, ?_⟩
  have := HeadEnd.empty (rest := rest) (Gap.nil (old := false)) (.crlf rfl) (.crlf (le := [CR, LF]) rfl)
  exact this

/-! ### Examples -/

def onlyReq : Cfg := { isRequest := true, headersOnly := true }

/-- What a parser of request heads makes of a text. -/
structure Read where
  result : Tri
  method : Bytes
  resource : Bytes
  version : Nat × Nat
  headers : List (Bytes × Bytes)
  unread : Bytes
  deriving DecidableEq

def readHead (text : Bytes) : Option Read :=
  (outcome onlyReq (fresh onlyReq {}) [text]).map fun o =>
    ⟨o.result, o.message.method, o.message.resource, (o.message.verMajor, o.message.verMinor), o.message.headers, o.unread⟩

-- the usual head of a request with two headers meets the hypotheses of `head_accepted` ...
example : MessageHead exampleHead exampleHeaders (wireHead exampleHead exampleHeaders) (b! "more") ∧
    onlyReq.isRequest = exampleHead.isRequest ∧ Blank {} ∧ OrderOk onlyReq.ord ∧
    ¬ BadLength onlyReq.ord [] exampleHead exampleHeaders :=
  ⟨wire_in_grammar _ _ exampleSetting.headOk exampleSetting.headersOk _, rfl, ⟨rfl, rfl, rfl, rfl⟩, fun l => List.Perm.refl l,
    fun ⟨_, _, v, hv, hno⟩ => by
      have : v = b! " 05 " := by
        have e : Dict.find? onlyReq.ord exampleHeaders (b! "Content-Length") = some (b! " 05 ") := by decide +kernel
        rw [e] at hv; exact (Option.some.inj hv).symm
      subst this
      exact hno 5 ⟨b! " ", [], b! "05", b! " ", rfl, by decide +kernel, by decide +kernel, by decide +kernel,
        by decide +kernel, .inl ⟨.inl rfl, by decide +kernel⟩⟩⟩
-- ... and so does an unusual one: blanks, LF CR, a gap, an empty value, no space after the colon
example : MessageHead (.request (b! "GET") (b! "*") [] 1 0) [(b! "A", []), (b! "B", b! "c d")]
    (b! "\r\nGET * HTTP/01.0\n\r \t\rA:\n B:c d\r\n\n") (b! "X") := by
  refine ⟨b! "\r\nGET * HTTP/01.0", b! "\n\r \t\rA:\n B:c d\r\n\n", rfl, ?_, ?_⟩
  · exact .request (pre := b! "\r\n") (q := []) (v := b! " HTTP/01.0") (by decide +kernel)
      ⟨by decide +kernel, by decide +kernel, by decide +kernel⟩ (by unfold uriChar; decide +kernel) (by decide +kernel)
      (by simp) (by simp) (.inl ⟨rfl, rfl⟩)
      (.inr ⟨_, rfl, c! "H", b! "01", b! "0", rfl, .inl rfl, ⟨by decide +kernel, by decide +kernel, by decide +kernel⟩,
        ⟨by decide +kernel, by decide +kernel, by decide +kernel⟩, by decide +kernel, by decide +kernel⟩)
  · refine ⟨b! "\n\r \t\rA:\n B:c d", b! "\r\n\n", rfl, ?_, ?_⟩
    · have f1 : Fields false [(b! "A", [])] (b! "\n\r \t\rA:") :=
        .snoc .nil (g := b! "\n\r \t") (le := b! "\r") (ws := []) (f := b! "A:")
          (.line (g := []) (le := b! "\n\r") (ws := b! " \t") .nil .lfcr (by decide +kernel) (by decide +kernel)) .cr
          (by simp) ⟨⟨⟨by decide +kernel, by decide +kernel, by decide +kernel⟩, by simp, by simp⟩, .inr ⟨rfl, by simp⟩⟩
      exact .snoc f1 (g := []) (le := b! "\n") (ws := b! " ") (f := b! "B:c d") .nil .lf (by decide +kernel)
        ⟨⟨⟨by decide +kernel, by decide +kernel, by decide +kernel⟩, by unfold valueChar; decide +kernel, by decide +kernel⟩,
          .inr ⟨rfl, by decide +kernel⟩⟩
    · exact .empty (g := []) (le := b! "\r\n") (e := b! "\n") .nil (.crlf rfl) (.lf1 rfl (by decide))
example : readHead (b! "\r\nGET * HTTP/01.0\n\r \t\rA:\n B:c d\r\n\nX") =
    some ⟨.yes, b! "GET", b! "*", (1, 0), [(b! "A", []), (b! "B", b! "c d")], b! "X"⟩ := by decide +kernel

/-- **Departures from RFC 7230** that the grammar makes visible, each shown by a request:
    a folded line becomes a header of its own;
    a single CR ends a line, so that one header is read as two;
    CR CR ends the head, and the headers that follow it are taken for the body or the next message;
    spaces in the minor version are skipped: `1.1 5` is version 1.15;
    LF in place of the first letter of the version is accepted;
    a version is kept in 16 bits: 65536.0 is taken for version 0.0, and the headers are then not read. -/
theorem departures :
    readHead (b! "GET / HTTP/1.1\r\nA: b\r\n C: d\r\n\r\n") =
      some ⟨.yes, b! "GET", b! "/", (1, 1), [(b! "A", b! "b"), (b! "C", b! "d")], []⟩ ∧
    readHead (b! "GET / HTTP/1.1\r\nA: b\rC: d\r\n\r\n") =
      some ⟨.yes, b! "GET", b! "/", (1, 1), [(b! "A", b! "b"), (b! "C", b! "d")], []⟩ ∧
    readHead (b! "GET / HTTP/1.1\r\nA: b\r\rC: d\r\n\r\n") =
      some ⟨.yes, b! "GET", b! "/", (1, 1), [(b! "A", b! "b")], b! "C: d\r\n\r\n"⟩ ∧
    readHead (b! "GET / HTTP/1.1 5\r\n\r\n") = some ⟨.yes, b! "GET", b! "/", (1, 15), [], []⟩ ∧
    readHead (b! "GET / \nTTP/1.1\r\n\r\n") = some ⟨.yes, b! "GET", b! "/", (1, 1), [], []⟩ ∧
    readHead (b! "GET / HTTP/65536.0\r\nA: b\r\n\r\n") =
      some ⟨.yes, b! "GET", b! "/", (0, 0), [], b! "A: b\r\n\r\n"⟩ := by decide +kernel

-- a request line that ends after the space is not accepted
example : (readHead (b! "GET / \r\n\r\n")).map (·.result) = some .no := by decide +kernel

end Verif.Props.HttpGrammar
