import Verif.Lemmas.HttpRequest
import Verif.Props.HttpRfc
/-
C68 and C69, bodies that last until the connection closes.
-/
namespace Verif.Props.HttpUntilClose
open Verif.Http Verif.Http.Text Verif.Http.Rfc Verif.Props.HttpSegmentation Verif.Props.HttpBody Verif.Props.HttpGrammar
  Verif.Props.HttpFraming Verif.Props.HttpRfc

/-! ### Once a body with an announced end is read -/

/-- The head has been read, and the end of the body is announced. -/
def Past (s : S) : Prop := s.ms ≠ .noLength ∧ s.ms ≠ .start ∧ s.ms ≠ .headers

theorem Past.congr {s s' : S} (h : Past s) (e : s'.ms = s.ms) : Past s' := by
  unfold Past; rw [e]; exact h

theorem cbyte_past (cfg : Cfg) (s : S) (c : UInt8) (h : Past s) : Past (cbyte cfg s c).st := by
  cases hc : s.cs <;> simp only [cbyte, cstep, hc]
  case chunk =>
    have : Past (chunkData cfg s c []).1 := by
      unfold chunkData
      (repeat' split) <;> exact h.congr rfl
    generalize chunkData cfg s c [] = q at *
    split <;> exact this.congr rfl
  case expFinalCrOrFooters =>
    split
    · exact h.congr rfl
    · simp [CRes.toH, HRes.st, Past]
  all_goals (repeat' split)
  all_goals exact h.congr rfl

theorem inv_past (cfg : Cfg) : InvRun cfg Past where
  upd s l t c h := h.congr rfl
  ec s e h := h.congr rfl
  begin_ s h := h.congr rfl
  enter s hs h := absurd hs h.2.1
  h s c h := h.congr (hstep_st_ms cfg s c)
  c := cbyte_past cfg
  fh s h hs := absurd hs h.2.2
  cc s h := h.congr (by unfold concatenateChunks createBuffer; dsimp only; (repeat' split) <;> rfl)
  content s buf h hs := by
    unfold consumeContent storeContent blit
    dsimp only
    (repeat' split) <;> exact h.congr rfl
  noLength s buf h hs := absurd hs h.1

/-- If the parser reads a body without announced end, it has read a head of the grammar first. -/
theorem head_of_noLength {cfg : Cfg} {m : Msg} {stream : Bytes} (h1 : (iter cfg (fresh cfg m) stream).1 ≠ .no)
    (h2 : (iter cfg (fresh cfg m) stream).2.1.ms = .noLength) :
    ∃ h hs t rest, MessageHead h hs t rest ∧ stream = t ++ rest ∧ cfg.isRequest = h.isRequest := by
  cases hrc : (iter cfg (fresh cfg m) stream).1 with
  | no => exact absurd hrc h1
  | yes => exact head_of_iter (.inl hrc)
  | more =>
    by_cases hr : (iter cfg (fresh cfg m) stream).2.2 = []
    · rw [iter_headers cfg _ _ (.inl rfl), parseHeaders_eq] at h2 hrc
      cases hrun : run (hstep cfg) ((enterH (fresh cfg m)).setL 0) stream with
      | mk rc p =>
        obtain ⟨s', rest⟩ := p
        rw [hrun] at h2 hrc
        cases rc with
        | yes =>
          obtain ⟨hs, u, _, e2, e3⟩ := run_sound cfg m.headers stream (start cfg m) [] s' rest (at_start cfg m) hrun
          exact ⟨_, hs, u, rest, e3, e2, headOf_kind cfg s'⟩
        | no => simp [postH, count] at hrc
        | more =>
          have hinv : s'.ms = .headers := by
            have := run_inv (hstep cfg) (fun s => s.ms = .headers)
              (fun s c s' hs e => by have := hstep_st_ms cfg s c; rw [e] at this; exact this.trans hs)
              (fun s c s' f hs e => by have := hstep_st_ms cfg s c; rw [e] at this; exact this.trans hs)
              (fun s c s' f hs e => by have := hstep_st_ms cfg s c; rw [e] at this; exact this.trans hs)
              ((enterH (fresh cfg m)).setL 0) stream rfl
            rw [hrun] at this; exact this
          simp only [postH, count] at h2
          simp [S.upd, hinv] at h2
    · exact head_of_iter (.inr ⟨hrc, hr⟩)

/-! ### The theorems -/

/-- **C68, bodies up to the end of the connection, acceptance.** After a head that announces no end of the body: as long as the
    connection is open the parser asks for more, and at its end it delivers everything that came after the head. -/
theorem until_close_accepted (cfg : Cfg) (m : Msg) (h : Head) (w : Whole cfg m h) (hs : Dict)
    (hu : UntilClose (reading cfg m) h hs) (a body : Bytes) (hh : MessageHead h hs a body) (bufs : List Bytes)
    (hcut : Cuts bufs (a ++ body)) :
    (∃ o, outcome cfg (fresh cfg m) bufs = some o ∧ o.result = .more ∧ o.error = none ∧ o.unread = []) ∧
    ∃ o, outcomeAtEof cfg (fresh cfg m) bufs = some (false, o) ∧ Delivered cfg h hs body [] [] o := by
  obtain ⟨s, hd, hi⟩ := iter_messageHead m hh w.kind
  obtain ⟨h1, o, h2, h3, h4⟩ := end_of_stream_run cfg hd w.blank w.order w.kind w.notHeadersOnly hu.response hu.noChunks
    hu.hasBody hu.noLength body (head_ne_nil hh) (by have := w.max; omega) hi bufs hcut
  refine ⟨h1, o, h2, ⟨by rw [List.append_nil]; exact h3, fun hb => by rw [hb] at h4; simpa using h4.2, ?_⟩⟩
  cases hb : cfg.handler with
  | true => rw [hb] at h4; simpa using h4
  | false => rw [hb] at h4; simpa using h4.1

/-- **C68, bodies up to the end of the connection, nothing else is accepted.** If the parser asks for more, and takes the end of
    the connection for the end of the message, then the stream is a head that announces no end of the body, and the body; it
    is delivered whole. A message cut short inside its head, before its announced length or before its last chunk is an
    error. -/
theorem until_close_sound (cfg : Cfg) (m : Msg) (hm : Blank m) (ord : OrderOk cfg.ord) (hdr : cfg.headersOnly = false)
    (hmax : cfg.maxContent + 1 < 2 ^ 64) (bufs : List Bytes) (stream : Bytes) (hcut : Cuts bufs stream) (o o' : Outcome)
    (ho : outcome cfg (fresh cfg m) bufs = some o) (hmore : o.result = .more)
    (he : outcomeAtEof cfg (fresh cfg m) bufs = some (false, o')) :
    ∃ h hs a body, stream = a ++ body ∧ cfg.isRequest = h.isRequest ∧ MessageHead h hs a body ∧
      UntilClose (reading cfg m) h hs ∧ Delivered cfg h hs body [] [] o' := by
  have hbne : bufs ≠ [] := by
    rintro rfl
    have : (some (true, (checkPrematureEof cfg (fresh cfg m)).2)).map (·.1) = some false := by
      have := congrArg (Option.map (·.1)) he
      exact this
    exact nomatch this
  obtain ⟨rc, s', rest', more, s'', f1, f2, f3⟩ := feed_cuts cfg bufs (fresh cfg m) hcut.nonempty hbne
  rw [hcut.flat] at f2
  have hrc : rc = .more := by
    rw [outcome, f1] at ho
    have := Option.some.inj ho
    rw [← this] at hmore
    exact hmore
  subst hrc
  have hms : s''.ms = .noLength := by
    rw [outcomeAtEof, f1] at he
    simp only [Option.map_some, if_true, Option.some.injEq, Prod.mk.injEq] at he
    have h1 : s'.ms = .noLength := by
      have := he.1
      unfold checkPrematureEof at this
      split at this
      · exact nomatch this
      · rename_i h; simpa using h
    rw [eq_setL (f3 (by simp))] at h1
    exact h1
  obtain ⟨r, t, hr, e⟩ := parse_runs cfg (fresh cfg m) stream
  rw [parseBegin_fresh cfg m hm.notMissing] at hr
  rw [e] at f2
  simp only [Option.some.injEq, Prod.mk.injEq] at f2
  obtain ⟨g1, g2, _⟩ := f2
  have hrms : r.2.1.ms = .noLength := by
    rw [g1] at g2; rw [← g2] at hms; exact hms
  -- the head
  have hhead : ∃ h hs t rest, MessageHead h hs t rest ∧ stream = t ++ rest ∧ cfg.isRequest = h.isRequest := by
    cases hr with
    | stop _ => exact head_of_noLength (by rw [g1]; simp) hrms
    | next h1 h2 _ => exact head_of_iter (.inr ⟨h1, h2⟩)
  obtain ⟨h, hs, a, body, hh, rfl, hk⟩ := hhead
  have w : Whole cfg m h := ⟨hm, ord, hk, hdr, hmax⟩
  obtain ⟨s, hd, hi⟩ := iter_messageHead m hh hk
  have hfin : (finishHeaders2 cfg s).1 = .more ∧ ¬ Past (finishHeaders2 cfg s).2 := by
    cases hr with
    | stop _ =>
      rw [hi] at g1 hrms
      exact ⟨g1, fun hp => hp.1 hrms⟩
    | next h1 h2 h3 =>
      rw [hi] at h1 h3
      exact ⟨h1, fun hp => ((inv_past cfg).runs h3 hp).1 hrms⟩
  have hu : UntilClose (reading cfg m) h hs := by
    by_cases hc : AnnouncesChunks cfg.ord hs
    · rw [finishHeaders2_chunks cfg hd w.blank w.notHeadersOnly hc] at hfin
      exact absurd (show Past { s with ms := .chunks } from ⟨nofun, nofun, nofun⟩) hfin.2
    by_cases hbl : h.Bodyless m.requestMethod
    · rw [finishHeaders2_bodyless cfg hd w.blank w.kind hc hbl] at hfin
      exact nomatch hfin.1
    cases hf : hs.find? cfg.ord (b! "Content-Length") with
    | none =>
      rw [finishHeaders2_plain cfg hd w.blank w.order w.kind w.notHeadersOnly hc hbl hf] at hfin
      refine ⟨?_, hc, hbl, hf⟩
      rw [← hk]
      cases hreq : cfg.isRequest with
      | false => rfl
      | true => rw [hreq] at hfin; exact nomatch hfin.1
    | some v =>
      by_cases hl : ∃ n, LengthValue n v
      · obtain ⟨n, hl⟩ := hl
        rw [finishHeaders2_value cfg hd w.blank w.order w.kind w.notHeadersOnly hc hbl hf hl] at hfin
        split at hfin
        · exact nomatch hfin.1
        · refine absurd ?_ hfin.2
          unfold Past
          simp only [createBuffer_ms]
          exact ⟨nofun, nofun, nofun⟩
      · rw [finishHeaders2_bad cfg hd w.blank w.order w.kind hc hbl hf (fun n hn => hl ⟨n, hn⟩)] at hfin
        exact nomatch hfin.1
  obtain ⟨_, o2, h1, h2⟩ := until_close_accepted cfg m h w hs hu a body hh bufs hcut
  rw [he] at h1
  cases h1
  exact ⟨h, hs, a, body, rfl, hk, hh, hu, h2⟩

/-- For heads about whose framing there is no doubt, these are the responses for which RFC 7230 says so. -/
theorem until_close_iff (r : Reading) (ord : OrderOk r.ord) (h : Head) (hs : Dict) (hp : Plain r.rm h hs) :
    UntilClose r h hs ↔ framing r.rm h hs = .untilClose := by
  have hbl := noBody_iff hp.not205 hp.notConnect
  have hte := find_one ord hp.te
  have hcl := find_one ord hp.cl
  constructor
  · intro hu
    have hb : noBody r.rm h = false := by
      rw [← Bool.not_eq_true, hbl]; exact hu.hasBody
    have h1 : hs.values (b! "Transfer-Encoding") = [] := by
      cases hv : hs.values (b! "Transfer-Encoding") with
      | nil => rfl
      | cons v l =>
        rw [hv] at hte
        exact absurd ⟨v, hte, mentions_of_last (hp.chunked v (by rw [hv]; simp))⟩ hu.noChunks
    have h2 : hs.values (b! "Content-Length") = [] := by
      rw [hu.noLength] at hcl
      cases hv : hs.values (b! "Content-Length") with
      | nil => rfl
      | cons v l => rw [hv] at hcl; exact nomatch hcl
    simp [framing, hb, h1, h2, hu.response]
  · intro hf
    unfold framing at hf
    split at hf
    · exact nomatch hf
    rename_i hb
    split at hf
    · rename_i v hv
      rw [if_pos (hp.chunked v (List.mem_of_getLast? hv))] at hf
      exact nomatch hf
    · rename_i hv
      rw [List.getLast?_eq_none_iff] at hv
      rw [hv] at hte
      split at hf
      · rename_i hw
        rw [hw] at hcl
        split at hf
        · exact nomatch hf
        · rename_i hreq
          refine ⟨by simpa using hreq, ?_, fun h1 => hb (hbl.mpr h1), hcl⟩
          rintro ⟨v, h1, _⟩
          rw [hte] at h1
          exact nomatch h1
      · split at hf
        · split at hf <;> exact nomatch hf
        · exact nomatch hf

/-- **C69 for the parser, partial**: a response that ends with the connection by RFC 7230, in buffers of any sizes: the parser
    asks for more until the connection closes, and then delivers everything after the head. -/
theorem accepts_until_close_partial (cfg : Cfg) (m : Msg) (h : Head) (w : Whole cfg m h) (hs : Dict)
    (hp : Plain m.requestMethod h hs) (hf : framing m.requestMethod h hs = .untilClose) (a body : Bytes)
    (hh : MessageHead h hs a body) (bufs : List Bytes) (hcut : Cuts bufs (a ++ body)) :
    (∃ o, outcome cfg (fresh cfg m) bufs = some o ∧ o.result = .more ∧ o.error = none ∧ o.unread = []) ∧
    ∃ o, outcomeAtEof cfg (fresh cfg m) bufs = some (false, o) ∧ Delivered cfg h hs body [] [] o :=
  until_close_accepted cfg m h w hs ((until_close_iff (reading cfg m) w.order h hs hp).mpr hf) a body hh bufs hcut

/-- **C69 for the parser, partial**: whenever the parser takes the end of the connection for the end of a message, it has read a
    head and the rest of the stream as the body, and if there is no doubt about the framing then RFC 7230 says so too. -/
theorem closes_as_rfc_partial (cfg : Cfg) (m : Msg) (hm : Blank m) (ord : OrderOk cfg.ord) (hdr : cfg.headersOnly = false)
    (hmax : cfg.maxContent + 1 < 2 ^ 64) (bufs : List Bytes) (stream : Bytes) (hcut : Cuts bufs stream) (o o' : Outcome)
    (ho : outcome cfg (fresh cfg m) bufs = some o) (hmore : o.result = .more)
    (he : outcomeAtEof cfg (fresh cfg m) bufs = some (false, o')) :
    ∃ h hs a body, stream = a ++ body ∧ MessageHead h hs a body ∧ Delivered cfg h hs body [] [] o' ∧
      (Plain m.requestMethod h hs → framing m.requestMethod h hs = .untilClose) := by
  obtain ⟨h, hs, a, body, e, _, h1, h2, h3⟩ := until_close_sound cfg m hm ord hdr hmax bufs stream hcut o o' ho hmore he
  exact ⟨h, hs, a, body, e, h1, h3, fun hp => (until_close_iff (reading cfg m) ord h hs hp).mp h2⟩

/-! ### A response without length -/

example : Plain (b! "GET") (status 200) [(b! "Server", b! "x")] ∧
    framing (b! "GET") (status 200) [(b! "Server", b! "x")] = .untilClose :=
  ⟨⟨by decide +kernel, by decide +kernel, by decide +kernel, fun v hv => absurd hv (by revert v; decide +kernel),
    by simp [status], by decide +kernel, by decide +kernel⟩, by decide +kernel⟩

def response : Bytes := b! "HTTP/1.1 200 x\r\nServer: x\r\n\r\nall of it"

/-- The parser asks for more, and takes the end of the connection for the end of the message ... -/
example : (outcome respCfg (fresh respCfg {}) [response]).map (·.result) = some .more ∧
    (outcomeAtEof respCfg (fresh respCfg {}) [response]).map (fun r => (r.1, r.2.message.content)) =
      some (false, (b! "all of it").map some) := by decide +kernel

/-- ... but not inside the head. -/
example : (outcomeAtEof respCfg (fresh respCfg {}) [b! "HTTP/1.1 200 x\r\nServer: x\r\n"]).map (·.1) = some true := by
  decide +kernel

/-- **Finding.** A response with a coding other than `chunked` and a length lasts until the connection closes, by the RFC; the
    parser goes by the length. -/
theorem coding_length_taken :
    framing (b! "GET") (status 200) [(b! "Transfer-Encoding", b! "gzip"), (b! "Content-Length", b! "1")] = .untilClose ∧
    (sees false (b! "GET") (b! "HTTP/1.1 200 x\r\nTransfer-Encoding: gzip\r\nContent-Length: 1\r\n\r\nab")).map
      (fun s => (s.result, s.unread)) = some (.yes, b! "b") := by decide +kernel

end Verif.Props.HttpUntilClose
