import Verif.Lemmas.HttpFramingRun
import Verif.Lemmas.HttpDicts
import Verif.Props.HttpGrammar
/-
C68: the exact language of complete messages: where a message ends, what its content is, and what is left for the next
message.
-/
namespace Verif.Props.HttpFraming
open Verif.Http Verif.Http.Text Verif.Props.HttpSegmentation Verif.Props.HttpBody Verif.Props.HttpGrammar

/-- What the parser delivers for a message of the grammar. -/
structure Delivered (cfg : Cfg) (h : Head) (hs : Dict) (data : Bytes) (tr : Dict) (rest : Bytes) (o : Outcome) : Prop where
  /-- success, nothing of `rest` is read, the first line, and all headers: those of the head, then those of the trailers -/
  complete : Complete h (hs ++ tr) rest o
  /-- `get_content_length()` is the length of the content stored -/
  length : cfg.handler = false → o.message.contentLength = min data.length cfg.maxContent
  /-- the content: handed to the payload handler, or stored up to the maximum -/
  data : if cfg.handler then o.payload = data else o.message.content = (data.take cfg.maxContent).map some

theorem delivered_of_read {cfg : Cfg} {h : Head} {hs : Dict} {data : Bytes} {tr : Dict} {rest : Bytes} {s : S}
    (hr : Read cfg h (hs ++ tr) data s) : Delivered cfg h hs data tr rest (endOutcome cfg (.yes, s, rest)) := by
  obtain ⟨c1, c2, c3, c4, _⟩ := complete_of_run cfg (h := h) (hs := hs ++ tr) (tail := rest) hr.ec hr.stored hr.headers hr.missing
    hr.fault (Nat.le_of_eq hr.buffer)
  have hd := hr.data
  refine ⟨c1, fun hh => ?_, ?_⟩
  · rw [hh] at hd
    rw [c3, hr.buffer, show s.msg.content = (data.take cfg.maxContent).map some from hd, List.length_map, List.length_take,
      Nat.min_comm]
  · rw [c2, c4]
    exact hd

/-- **C68, acceptance.** A message of the grammar, however it is cut into buffers and whatever follows: the parser reports
    success and delivers the message that the grammar gives; what follows the message is unread. -/
theorem message_accepted (cfg : Cfg) (m : Msg) (h : Head) (w : Whole cfg m h) (hs : Dict) (data : Bytes) (tr : Dict)
    (t rest : Bytes) (hg : Message (reading cfg m) h hs data tr t rest) (bufs : List Bytes) (hcut : Cuts bufs (t ++ rest)) :
    ∃ o, outcome cfg (fresh cfg m) bufs = some o ∧ Delivered cfg h hs data tr rest o := by
  obtain ⟨a, b, rfl, hhead, hbody⟩ := hg
  rw [outcome_cuts cfg _ hcut (by simp [head_ne_nil hhead])]
  obtain ⟨s, hd, hi⟩ := iter_messageHead m hhead w.kind
  obtain ⟨s', hread, hrun⟩ := runs_body hd w hbody
  have hbeg := parseBegin_fresh cfg m w.blank.notMissing
  refine ⟨endOutcome cfg (.yes, s', rest), ?_, delivered_of_read hread⟩
  refine outcome_of_runs cfg ?_
  rw [hbeg, List.append_assoc]
  rcases hrun with ⟨e, rfl⟩ | ⟨s1, e, hne, hrun⟩
  · rw [e] at hi
    exact runs_stop hi
  · rw [e] at hi
    exact runs_next hi hne hrun

/-- The parser takes the content for a form. -/
def FormContent (cfg : Cfg) : Prop := cfg.isRequest = true ∧ cfg.handler = false

theorem message_of_end (cfg : Cfg) (s : S) (rest : Bytes) : (endOutcome cfg (.yes, s, rest)).message =
    (finishForm cfg { s with ms := .end_, msg := computeStatus { s.msg with isValid := true } true }).msg := rfl

/-- **C68, the cookies and parameters of a message.** The cookies are those of the `Cookie` headers (of a response: the
    `Set-Cookie` headers) in the head, not in the trailers. The parameters are those of the query string in the first line, and
    then, if the Content-Type is `application/x-www-form-urlencoded`, those of the content that is kept. (Multipart forms are
    C54.) -/
theorem message_dictionaries (cfg : Cfg) (m : Msg) (h : Head) (w : Whole cfg m h) (hs : Dict) (data : Bytes) (tr : Dict)
    (t rest : Bytes) (hg : Message (reading cfg m) h hs data tr t rest) (bufs : List Bytes) (hcut : Cuts bufs (t ++ rest)) :
    ∃ o, outcome cfg (fresh cfg m) bufs = some o ∧
      (h.isRequest = true → o.message.cookies = addCookies false m.cookies (cfg.ord (hs.values (b! "Cookie")))) ∧
      (h.isRequest = false → o.message.cookies = addCookies true m.cookies (cfg.ord (hs.values (b! "Set-Cookie")))) ∧
      (¬ FormContent cfg ∨
        (¬ b! "application/x-www-form-urlencoded" <+: Dict.get cfg.ord (hs ++ tr) (b! "Content-Type") ∧
          ¬ b! "multipart/form-data" <+: Dict.get cfg.ord (hs ++ tr) (b! "Content-Type")) →
        o.message.queries = lineQueries m.queries h) ∧
      (FormContent cfg → b! "application/x-www-form-urlencoded" <+: Dict.get cfg.ord (hs ++ tr) (b! "Content-Type") →
        o.message.queries = (Query.parseUrlEncoded (lineQueries m.queries h) (data.take cfg.maxContent)).2) := by
  obtain ⟨a, b, rfl, hhead, hbody⟩ := hg
  rw [outcome_cuts cfg _ hcut (by simp [head_ne_nil hhead])]
  obtain ⟨s, hd, hi, hdi⟩ := iter_messageHead_dicts m hhead w.kind
  obtain ⟨s', hread, hrun⟩ := runs_body hd w hbody
  have hbeg := parseBegin_fresh cfg m w.blank.notMissing
  have hno : (finishHeaders2 cfg s).1 ≠ .no := by
    rcases hrun with ⟨e, _⟩ | ⟨s1, e, _⟩ <;> rw [e] <;> simp
  have hafter := finishHeaders2_afterHead cfg s hno
  have hs' : AfterHead s.msg.cookies s.msg.queries s' := by
    rcases hrun with ⟨e, _⟩ | ⟨s1, e, _, hr⟩
    · rw [e] at hafter; exact hafter
    · rw [e] at hafter; exact (invRun_afterHead cfg _ _).runs hr hafter
  have hq : s'.msg.queries = lineQueries m.queries h := by
    rw [hs'.queries, hdi.queries]; cases h <;> rfl
  have hnil : (m.headers ++ hs : Dict) = hs := by rw [w.blank.noHeaders]; rfl
  refine ⟨endOutcome cfg (.yes, s', rest), ?_, ?_⟩
  · refine outcome_of_runs cfg ?_
    rw [hbeg, List.append_assoc]
    rcases hrun with ⟨e, rfl⟩ | ⟨s1, e, hne, hrun⟩
    · rw [e] at hi
      exact runs_stop hi
    · rw [e] at hi
      exact runs_next hi hne hrun
  · rw [message_of_end]
    have hck : ∀ x, (finishForm cfg x).msg.cookies = x.msg.cookies := by
      intro x; unfold finishForm; dsimp only; (repeat' split) <;> rfl
    have hbl := hread.buffer
    have hda := hread.data
    refine ⟨fun hr => ?_, fun hr => ?_, ?_, ?_⟩
    · rw [hck]
      have := hdi.cookies hr
      rw [hnil] at this
      exact hs'.cookies.trans this
    · rw [hck]
      have := hdi.setCookies hr
      rw [hnil] at this
      exact hs'.cookies.trans this
    · intro hf
      rw [← hq]
      unfold finishForm
      dsimp only
      split
      · rename_i hc
        simp only [Bool.and_eq_true, Bool.not_eq_eq_eq_not, Bool.not_true] at hc
        rcases hf with hf | ⟨hf1, hf2⟩
        · exact absurd ⟨hc.1.1, hc.1.2⟩ hf
        · rw [if_neg, if_neg]
          · rfl
          · rw [List.isPrefixOf_iff_prefix]
            change ¬ _ <+: s'.msg.headers.get cfg.ord _
            rw [hread.headers]; exact hf2
          · rw [List.isPrefixOf_iff_prefix]
            change ¬ _ <+: s'.msg.headers.get cfg.ord _
            rw [hread.headers]; exact hf1
      · rfl
    · rintro ⟨hf1, hf2⟩ hu
      rw [← hq]
      unfold finishForm
      dsimp only
      rw [if_pos (by simp [hf1, hf2, w.notHeadersOnly]), if_pos, if_neg]
      · change (Query.parseUrlEncoded s'.msg.queries ((s'.msg.content.take s'.msg.contentLength).map _)).2 = _
        rw [hbl, List.take_length]
        rw [hf2] at hda
        rw [show s'.msg.content = _ from hda, List.map_map]
        congr 2
        exact List.map_id _
      · change ¬ s'.msg.content.length < s'.msg.contentLength
        omega
      · rw [List.isPrefixOf_iff_prefix]
        change _ <+: s'.msg.headers.get cfg.ord _
        rw [hread.headers]; exact hu

/-- **C68, nothing else is accepted.** If the parser reports success, the bytes it has read are a message of the grammar, and
    it has delivered the message that the grammar gives. -/
theorem message_sound (cfg : Cfg) (m : Msg) (hm : Blank m) (ord : OrderOk cfg.ord) (hdr : cfg.headersOnly = false)
    (hmax : cfg.maxContent + 1 < 2 ^ 64) (bufs : List Bytes) (stream : Bytes) (hcut : Cuts bufs stream) (o : Outcome)
    (ho : outcome cfg (fresh cfg m) bufs = some o) (hy : o.result = .yes) :
    ∃ h hs data tr t, stream = t ++ o.unread ∧ cfg.isRequest = h.isRequest ∧
      Message (reading cfg m) h hs data tr t o.unread ∧ Delivered cfg h hs data tr o.unread o := by
  have hne := nonempty_of_yes hcut ho hy
  have ho' := ho
  rw [outcome_cuts cfg _ hcut hne] at ho'
  obtain ⟨h, hs, a, rest0, hg, rfl, hk⟩ := begins_with_head hm.notMissing ho' hy
  have w : Whole cfg m h := ⟨hm, ord, hk, hdr, hmax⟩
  obtain ⟨s, hd, hi⟩ := iter_messageHead m hg hk
  obtain ⟨r, hr⟩ := runs_exists cfg _ (parseBegin (fresh cfg m)) (a ++ rest0) (Nat.le_refl _)
  rw [outcome_of_runs cfg hr] at ho'
  have ho' := Option.some.inj ho'
  rw [parseBegin_fresh cfg m hm.notMissing] at hr
  obtain ⟨rc, s', rest⟩ := r
  have hrc : rc = .yes := by rw [← ho'] at hy; exact hy
  subst hrc
  have hun : o.unread = rest := by rw [← ho']; rfl
  have hbody : ∃ data tr b, rest0 = b ++ rest ∧ Body (reading cfg m) h hs data tr b rest := by
    refine body_sound (s' := s') hd w ?_
    rcases runs_yes hr with h1 | ⟨s1, r1, h1, h2, h3⟩
    · rw [hi] at h1
      simp only [Prod.mk.injEq] at h1
      exact .inl ⟨h1.1, h1.2.2⟩
    · rw [hi] at h1
      simp only [Prod.mk.injEq] at h1
      obtain ⟨e1, rfl, rfl⟩ := h1
      exact .inr ⟨e1, h3⟩
  obtain ⟨data, tr, b, rfl, hb⟩ := hbody
  have hmsg : Message (reading cfg m) h hs data tr (a ++ b) rest := ⟨a, b, rfl, hg, hb⟩
  obtain ⟨o2, e, hdel⟩ := message_accepted cfg m h w hs data tr (a ++ b) rest hmsg bufs (by rw [List.append_assoc]; exact hcut)
  rw [ho] at e
  cases e
  rw [hun]
  exact ⟨h, hs, data, tr, a ++ b, by rw [List.append_assoc], hk, hmsg, hdel⟩

/-- **C68, the grammar is unambiguous**: in a given setting a stream begins with at most one message, with one content. -/
theorem message_unique (r : Reading) (hord : OrderOk r.ord) (hmax : r.max + 1 < 2 ^ 64) {h h' : Head} {hs hs' : Dict}
    {data data' : Bytes} {tr tr' : Dict} {t t' rest rest' : Bytes} (hm : Message r h hs data tr t rest)
    (hm' : Message r h' hs' data' tr' t' rest') (e : t ++ rest = t' ++ rest') (hk : h.isRequest = h'.isRequest) :
    h = h' ∧ hs = hs' ∧ data = data' ∧ tr = tr' ∧ t = t' ∧ rest = rest' := by
  let cfg : Cfg := { isRequest := h.isRequest, ord := r.ord, handler := r.handler, maxContent := r.max }
  let m : Msg := { requestMethod := r.rm }
  have hbl : Blank m := ⟨rfl, rfl, rfl, rfl⟩
  have hcut : Cuts [t ++ rest] (t ++ rest) := by
    refine ⟨by simp, ?_⟩
    obtain ⟨a, b, rfl, hhead, _⟩ := hm
    simp [head_ne_nil hhead]
  obtain ⟨o, e1, d1⟩ := message_accepted cfg m h ⟨hbl, hord, rfl, rfl, hmax⟩ hs data tr t rest hm _ hcut
  obtain ⟨o', e2, d2⟩ := message_accepted cfg m h' ⟨hbl, hord, hk, rfl, hmax⟩ hs' data' tr' t' rest' hm' [t ++ rest]
    (by rw [← e]; exact hcut)
  rw [e1] at e2
  cases e2
  have hrest : rest = rest' := d1.complete.unread.symm.trans d2.complete.unread
  subst hrest
  have ht : t = t' := List.append_cancel_right e
  obtain ⟨a, b, rfl, hhead, hbody⟩ := hm
  obtain ⟨a', b', hab, hhead', hbody'⟩ := hm'
  subst ht
  obtain ⟨q1, q2, q3, _⟩ := unambiguous hhead hhead' (by rw [← List.append_assoc, ← List.append_assoc, hab]) hk
  subst q1 q2 q3
  have hb : b = b' := List.append_cancel_left hab
  subst hb
  refine ⟨rfl, rfl, ?_, List.append_cancel_left (d1.complete.headers.symm.trans d2.complete.headers), rfl, rfl⟩
  cases hh : r.handler with
  | true =>
    have x1 := d1.data
    have x2 := d2.data
    rw [if_pos (show cfg.handler = true from hh)] at x1 x2
    rw [← x1, ← x2]
  | false =>
    cases hbody with
    | none h1 h2 =>
      cases hbody' with
      | none => rfl
      | length => rfl
      | chunks h3 => exact absurd h3 h1
    | length h1 h2 h3 h4 =>
      cases hbody' with
      | none => rfl
      | length => rfl
      | chunks h5 => exact absurd h5 h1
    | chunks h1 h2 h3 =>
      cases hbody' with
      | none h4 => exact absurd h1 h4
      | length h4 => exact absurd h1 h4
      | chunks h4 h5 h6 =>
        have x1 := d1.data
        have x2 := d2.data
        rw [if_neg (show ¬ cfg.handler = true by rw [show cfg.handler = false from hh]; simp)] at x1 x2
        rw [x1] at x2
        rw [List.take_of_length_le (show _ ≤ cfg.maxContent from h3 hh),
          List.take_of_length_le (show _ ≤ cfg.maxContent from h6 hh)] at x2
        exact (List.map_inj_right (fun _ _ h => Option.some.inj h)).mp x2

/-! ### Messages with chunks and trailers -/

/-- What is observed of a request. -/
structure Seen where
  result : Tri
  headers : List (Bytes × Bytes)
  content : List (Option UInt8)
  payload : Bytes
  unread : Bytes
deriving DecidableEq

def see (cfg : Cfg) (stream : Bytes) : Option Seen :=
  (outcome cfg (fresh cfg {}) [stream]).map fun o => ⟨o.result, o.message.headers, o.message.content, o.payload, o.unread⟩

def withTrailers : Bytes := b! "POST / HTTP/1.1\r\nTransfer-Encoding: chunked\r\n\r\n 2;x=1\r\nab\r\n\r\n0001\t\r\nc\r\n0\r\nX: y\r\n\r\nGET"

theorem size2 : SizeLine 2 (b! " 2;x=1\r\n") :=
  .mk (pad := b! " ") (d := b! "2") (x := b! ";" ++ b! "x=1") (by decide +kernel) (by decide +kernel) (by decide +kernel) (.ext (by decide +kernel))
theorem size1 : SizeLine 1 (b! "\r\n0001\t\r\n") :=
  .mk (pad := b! "\r\n") (d := b! "0001") (x := b! "\t") (by decide +kernel) (by decide +kernel) (by decide +kernel) (.blanks (by decide +kernel))
theorem size0 : SizeLine 0 (b! "0\r\n") :=
  .mk (pad := []) (d := b! "0") (x := []) (by decide +kernel) (by decide +kernel) (by decide +kernel) (.blanks (by decide +kernel))

theorem chunks_ab_c : Chunks [b! "ab", b! "c"] (b! " 2;x=1\r\nab\r\n\r\n0001\t\r\nc\r\n") :=
  .snoc (ds := [b! "ab"]) (d := b! "c") (.snoc (ds := []) (t := []) (d := b! "ab") .nil (by decide +kernel) size2) (by decide +kernel) size1

theorem trailer_lines : Lines false [(b! "X", b! "y")] ([LF, CR] ++ b! "X: y\r\n\r\n") (b! "GET") :=
  ⟨[LF, CR] ++ b! "X: y", b! "\r\n\r\n", rfl,
    .snoc (hs := []) (t := []) (g := []) (le := [LF, CR]) (ws := []) .nil .nil .lfcr (by simp)
      ⟨⟨⟨by decide +kernel, by decide +kernel, by decide +kernel⟩, fun c hc => by
        rw [List.mem_singleton.mp hc]; unfold valueChar; decide +kernel, by decide +kernel⟩, .inl rfl⟩,
    .empty (g := []) (le := [CR, LF]) (e := [CR, LF]) .nil (.crlf rfl) (.crlf rfl)⟩

/-- A chunked body with trailers. -/
example : Chunked false false [b! "ab", b! "c"] [(b! "X", b! "y")]
    (b! " 2;x=1\r\nab\r\n\r\n0001\t\r\nc\r\n0\r\nX: y\r\n\r\n") (b! "GET") :=
  .mk chunks_ab_c size0 (.trailers (c := c! "X") rfl (by decide +kernel) trailer_lines)

/-- The same with a payload handler: the body ends before the trailers. -/
example : Chunked true false [b! "ab", b! "c"] []
    (b! " 2;x=1\r\nab\r\n\r\n0001\t\r\nc\r\n0\r\n") (b! "X: y\r\n\r\nGET") :=
  .mk (e := []) chunks_ab_c size0 (.ignored rfl (by decide +kernel))

/-- Without a payload handler the trailers are added to the headers. -/
example : see { isRequest := true } withTrailers = some ⟨.yes,
    [(b! "Transfer-Encoding", b! "chunked"), (b! "X", b! "y")], (b! "abc").map some, [], b! "GET"⟩ := by decide +kernel

/-- **Finding.** With a payload handler the trailers are left unread, so that they are taken for the next message. -/
theorem trailers_left_unread : see { isRequest := true, handler := true } withTrailers = some ⟨.yes,
    [(b! "Transfer-Encoding", b! "chunked")], [], b! "abc", b! "X: y\r\n\r\nGET"⟩ := by decide +kernel

def formRequest : Bytes :=
  b! "POST /f?a=1 HTTP/1.1\r\nCookie: c=2\r\nContent-Type: application/x-www-form-urlencoded\r\nContent-Length: 3\r\n\r\nb=3GET"

def seeForm (stream : Bytes) : Option (List (Bytes × Bytes) × List (Bytes × Bytes) × Bytes) :=
  (outcome { isRequest := true } (fresh { isRequest := true } {}) [stream]).map
    fun o => (o.message.cookies, o.message.queries, o.unread)

/-- The cookies and parameters of a form. -/
example : seeForm formRequest = some ([(b! "c", b! "2")], [(b! "a", b! "1"), (b! "b", b! "3")], b! "GET") := by
  decide +kernel

end Verif.Props.HttpFraming
