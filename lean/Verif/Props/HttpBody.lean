import Verif.Lemmas.HttpBody
/-
C13 (Content-Length is exact), C14 (chunked bodies), C15 (oversized chunked bodies), C53 (responses without body),
C51 (end of the stream).
-/
namespace Verif.Props.HttpBody
open Verif.Http Verif.Props.HttpSegmentation

/-- A well-formed message head `h`, `hs` for a parser with configuration `cfg` that fills the new message `m`. -/
structure Setting (cfg : Cfg) (m : Msg) (h : Head) (hs : Dict) : Prop where
  blank : Blank m
  order : OrderOk cfg.ord
  kind : cfg.isRequest = h.isRequest
  headOk : h.Ok
  headersOk : ∀ e ∈ hs, HeaderOk e
  notHeadersOnly : cfg.headersOnly = false

/-- The buffers are nonempty pieces of the stream. -/
structure Cuts (bufs : List Bytes) (stream : Bytes) : Prop where
  flat : bufs.flatten = stream
  nonempty : ∀ b ∈ bufs, b ≠ []

theorem wireHead_ne_nil (h : Head) (hs : Dict) : wireHead h hs ≠ [] := by
  simp [wireHead, headerBlock, CRLF]

theorem outcome_cuts (cfg : Cfg) (s : S) {bufs : List Bytes} {stream : Bytes} (h : Cuts bufs stream) (hne : stream ≠ []) :
    outcome cfg s bufs = outcome cfg s [stream] := by
  refine segmentation_independent cfg s bufs [stream] h.nonempty ?_ (by simp [h.flat])
  intro b hb; simp at hb; rw [hb]; exact hne

/-- A message that is complete exactly at the end of `a` is not reported complete (nor failed) before: after every
    proper prefix the parser asks for more. -/
theorem more_before_end (cfg : Cfg) (s : S) (p rest : Bytes) (hp : p ≠ []) (hrest : rest ≠ []) (o : Outcome)
    (h : outcome cfg s [p ++ rest] = some o) (hu : o.unread = []) :
    ∃ o', outcome cfg s [p] = some o' ∧ o'.result = .more := by
  obtain ⟨r, t, _, hr⟩ := parse_runs cfg s p
  have ho : ∃ o', outcome cfg s [p] = some o' := by rw [outcome_single, hr]; exact ⟨_, rfl⟩
  obtain ⟨o', ho'⟩ := ho
  refine ⟨o', ho', ?_⟩
  by_contra hne
  have := trailing_bytes_untouched cfg s p rest hp o' ho' hne
  rw [h] at this
  have := congrArg Outcome.unread (Option.some.inj this)
  rw [hu] at this
  simp only at this
  have := this.symm
  simp [hrest] at this

theorem storedIn_content {h : Head} {m : Msg} (n : Nat) (c : List (Option UInt8)) (cc : Bytes) (hst : h.StoredIn m) :
    h.StoredIn { m with contentLength := n, content := c, chunkCache := cc } := by
  cases h <;> exact hst

theorem storedIn_done {h : Head} {m : Msg} (q : Dict) (hst : h.StoredIn m) :
    h.StoredIn { computeStatus { m with isValid := true } true with queries := q } := by
  cases h <;> exact hst

/-- What is reported about a complete message. -/
structure Complete (h : Head) (hs : Dict) (tail : Bytes) (o : Outcome) : Prop where
  result : o.result = .yes
  error : o.error = none
  unread : o.unread = tail
  stored : h.StoredIn o.message
  headers : o.message.headers = hs
  valid : o.message.isValid = true
  status : o.message.status = .ok
  memorySafe : o.fault ≠ some .contentBuffer

/-- What `endOutcome` is for a successful run. -/
theorem complete_of_run (cfg : Cfg) {h : Head} {hs : Dict} {tail : Bytes} {s : S} (hec : s.ec = none)
    (hst : h.StoredIn s.msg) (hh : s.msg.headers = hs) (hmiss : s.msg.missing = false) (hf : s.fault = none)
    (hlen : s.msg.contentLength ≤ s.msg.content.length) :
    Complete h hs tail (endOutcome cfg (.yes, s, tail)) ∧
      (endOutcome cfg (.yes, s, tail)).message.content = s.msg.content ∧
      (endOutcome cfg (.yes, s, tail)).message.contentLength = s.msg.contentLength ∧
      (endOutcome cfg (.yes, s, tail)).payload = s.payload ∧
      (endOutcome cfg (.yes, s, tail)).counters = some (s.totalRead, s.contentRead) := by
  obtain ⟨q, f, e, hff⟩ := parseEnd_yes cfg s
  have hff := hff hlen
  rw [hf] at hff
  unfold endOutcome
  simp only [e]
  refine ⟨⟨rfl, hec, rfl, storedIn_done q hst, hh, rfl, ?_, ?_⟩, rfl, rfl, rfl, rfl⟩
  · simp [observe, computeStatus, hmiss]
  · rcases hff with rfl | rfl <;> simp [observe]

/-- **C13.** A message with a well-formed head that announces a body of `n` bytes with `Content-Length`: whatever the
    body is, whatever follows it, and however the stream is cut into buffers, the parser reports the message complete
    after exactly the `n` bytes following the head; the content is the body (its first `max_content_length` bytes),
    the bytes after the body are unread, and the counters are those of the head and the body. -/
theorem content_length_exact (cfg : Cfg) (m : Msg) (h : Head) (hs : Dict) (hset : Setting cfg m h hs)
    (hhand : cfg.handler = false) (hc : ¬ AnnouncesChunks cfg.ord hs) (hb : ¬ h.Bodyless m.requestMethod)
    (body tail : Bytes) (hl : AnnouncesLength cfg.ord hs body.length) (hn : body.length + 1 < 2 ^ 64)
    (bufs : List Bytes) (hcut : Cuts bufs (wireHead h hs ++ body ++ tail)) :
    ∃ o, outcome cfg (fresh cfg m) bufs = some o ∧ Complete h hs tail o ∧
      o.message.content = (body.take cfg.maxContent).map some ∧
      o.message.contentLength = min body.length cfg.maxContent ∧
      o.counters = some ((wireHead h hs).length + body.length, body.length) := by
  have hne : wireHead h hs ++ body ++ tail ≠ [] := by simp [wireHead_ne_nil]
  rw [outcome_cuts cfg _ hcut hne, List.append_assoc]
  obtain ⟨s, hd, hi⟩ := iter_wireHead cfg m h hs hset.kind hset.headOk hset.headersOk (body ++ tail)
  have hf2 := finishHeaders2_length cfg hd hset.blank hset.order hset.kind hset.notHeadersOnly hc hb body.length hl
    (by unfold SIZE_MOD; omega)
  have hbeg := parseBegin_fresh cfg m hset.blank.notMissing
  have hhs : s.msg.headers = hs := by rw [hd.headers, hset.blank.noHeaders]; rfl
  have hmiss : s.msg.missing = false := by rw [hd.missing, hset.blank.notMissing]
  by_cases h0 : body.length = 0
  · have hbn : body = [] := List.length_eq_zero_iff.mp h0
    subst hbn
    simp only [List.length_nil, if_true] at hf2
    rw [hf2] at hi
    refine ⟨_, outcome_of_iter cfg hbeg hi (.inl (by simp)), ?_⟩
    obtain ⟨c1, c2, c3, c4, c5⟩ := complete_of_run cfg (h := h) (hs := hs) (tail := tail)
      (s := { s with ms := .end_ }) hd.ec hd.stored hhs hmiss hd.fault
      (by simp [hd.contentLength])
    refine ⟨c1, ?_, ?_, ?_⟩
    · rw [show ([] : Bytes) ++ tail = tail from rfl, c2]; simp [hd.content, hset.blank.noContent]
    · rw [show ([] : Bytes) ++ tail = tail from rfl, c3]; simp [hd.contentLength]
    · rw [show ([] : Bytes) ++ tail = tail from rfl, c5]; simp [hd.contentRead, hd.totalRead]
  · rw [if_neg h0, createBuffer_ok _ (by unfold SIZE_MOD; simp only; omega)] at hf2
    rw [hf2] at hi
    have hbne : body ≠ [] := by rintro rfl; exact h0 rfl
    have hi2 := iter_content cfg { s with
        ms := .content, remaining := body.length,
        msg := { s.msg with
            contentLength := min body.length cfg.maxContent,
            content := List.replicate (min body.length cfg.maxContent) none } } rfl hhand body tail rfl
      hbne hd.contentRead (by simp)
    refine ⟨_, outcome_of_iter2 cfg hbeg hi (by simp [hbne]) hi2 (.inl (by simp)), ?_⟩
    obtain ⟨c1, c2, c3, c4, c5⟩ := complete_of_run cfg (h := h) (hs := hs) (tail := tail)
      (s := { s with
        ms := .content, remaining := 0, contentRead := body.length, totalRead := s.totalRead + body.length,
        lastRead := body.length,
        msg := { s.msg with
            contentLength := min body.length cfg.maxContent,
            content := (body.take cfg.maxContent).map some } }) hd.ec
      (storedIn_content _ _ _ hd.stored) hhs hmiss hd.fault (by simp; omega)
    exact ⟨c1, c2, c3, by rw [c5]; simp [hd.totalRead]⟩

/-- **C13, with a payload handler**: it receives exactly the body, whatever the maximum content length. -/
theorem content_length_exact_handler (cfg : Cfg) (m : Msg) (h : Head) (hs : Dict) (hset : Setting cfg m h hs)
    (hhand : cfg.handler = true) (hc : ¬ AnnouncesChunks cfg.ord hs) (hb : ¬ h.Bodyless m.requestMethod)
    (body tail : Bytes) (hl : AnnouncesLength cfg.ord hs body.length) (hn : body.length + 1 < 2 ^ 64)
    (bufs : List Bytes) (hcut : Cuts bufs (wireHead h hs ++ body ++ tail)) :
    ∃ o, outcome cfg (fresh cfg m) bufs = some o ∧ Complete h hs tail o ∧ o.payload = body ∧
      o.counters = some ((wireHead h hs).length + body.length, body.length) := by
  have hne : wireHead h hs ++ body ++ tail ≠ [] := by simp [wireHead_ne_nil]
  rw [outcome_cuts cfg _ hcut hne, List.append_assoc]
  obtain ⟨s, hd, hi⟩ := iter_wireHead cfg m h hs hset.kind hset.headOk hset.headersOk (body ++ tail)
  have hf2 := finishHeaders2_length cfg hd hset.blank hset.order hset.kind hset.notHeadersOnly hc hb body.length hl
    (by unfold SIZE_MOD; omega)
  have hbeg := parseBegin_fresh cfg m hset.blank.notMissing
  have hhs : s.msg.headers = hs := by rw [hd.headers, hset.blank.noHeaders]; rfl
  have hmiss : s.msg.missing = false := by rw [hd.missing, hset.blank.notMissing]
  by_cases h0 : body.length = 0
  · have hbn : body = [] := List.length_eq_zero_iff.mp h0
    subst hbn
    simp only [List.length_nil, if_true] at hf2
    rw [hf2] at hi
    refine ⟨_, outcome_of_iter cfg hbeg hi (.inl (by simp)), ?_⟩
    obtain ⟨c1, c2, c3, c4, c5⟩ := complete_of_run cfg (h := h) (hs := hs) (tail := tail)
      (s := { s with ms := .end_ }) hd.ec hd.stored hhs hmiss hd.fault
      (by simp [hd.contentLength])
    refine ⟨c1, ?_, ?_⟩
    · rw [show ([] : Bytes) ++ tail = tail from rfl, c4]; exact hd.payload
    · rw [show ([] : Bytes) ++ tail = tail from rfl, c5]; simp [hd.contentRead, hd.totalRead]
  · rw [if_neg h0, createBuffer_ok _ (by unfold SIZE_MOD; simp only; omega)] at hf2
    rw [hf2] at hi
    have hbne : body ≠ [] := by rintro rfl; exact h0 rfl
    have hi2 := iter_content_handler cfg { s with
        ms := .content, remaining := body.length,
        msg := { s.msg with
            contentLength := min body.length cfg.maxContent,
            content := List.replicate (min body.length cfg.maxContent) none } } rfl hhand body tail rfl
      hbne hd.contentRead
    refine ⟨_, outcome_of_iter2 cfg hbeg hi (by simp [hbne]) hi2 (.inl (by simp)), ?_⟩
    obtain ⟨c1, c2, c3, c4, c5⟩ := complete_of_run cfg (h := h) (hs := hs) (tail := tail)
      (s := { s with
        ms := .content, remaining := 0, contentRead := body.length, totalRead := s.totalRead + body.length,
        lastRead := body.length, payload := s.payload ++ body,
        msg := { s.msg with
            contentLength := min body.length cfg.maxContent,
            content := List.replicate (min body.length cfg.maxContent) none } }) hd.ec
      (storedIn_content _ _ _ hd.stored) hhs hmiss hd.fault (by simp)
    refine ⟨c1, ?_, by rw [c5]; simp [hd.totalRead]⟩
    rw [c4]; simp [hd.payload]

/-- **C13, not before**: after every proper part of the message the parser asks for more. -/
theorem content_length_not_before (cfg : Cfg) (m : Msg) (h : Head) (hs : Dict) (hset : Setting cfg m h hs)
    (hc : ¬ AnnouncesChunks cfg.ord hs) (hb : ¬ h.Bodyless m.requestMethod)
    (body : Bytes) (hl : AnnouncesLength cfg.ord hs body.length) (hn : body.length + 1 < 2 ^ 64)
    (p rest : Bytes) (hp : p ≠ []) (hrest : rest ≠ []) (hpr : p ++ rest = wireHead h hs ++ body) :
    ∃ o, outcome cfg (fresh cfg m) [p] = some o ∧ o.result = .more := by
  have hcut : Cuts [p ++ rest] (wireHead h hs ++ body ++ []) := ⟨by simp [hpr], by simp [hp]⟩
  cases hh : cfg.handler with
  | false =>
    obtain ⟨o, ho, hc', _⟩ := content_length_exact cfg m h hs hset hh hc hb body [] hl hn _ hcut
    exact more_before_end cfg _ p rest hp hrest o ho hc'.unread
  | true =>
    obtain ⟨o, ho, hc', _⟩ := content_length_exact_handler cfg m h hs hset hh hc hb body [] hl hn _ hcut
    exact more_before_end cfg _ p rest hp hrest o ho hc'.unread

/-- The bound on the length is necessary when the maximum content length is 2^64−1, the default of
    `http::message::receive` and `read`: a message that announces 2^64−1 bytes makes the parser allocate no buffer at
    all, and the first byte of the body is written outside of it. -/
theorem content_length_wraps : ∃ (cfg : Cfg) (stream : Bytes),
    cfg.maxContent = 2 ^ 64 - 1 ∧ stream = b! "POST / HTTP/1.1\r\nContent-Length: 18446744073709551615\r\n\r\nX" ∧
    (outcome cfg (fresh cfg {}) [stream]).map (·.fault) = some (some .contentBuffer) :=
  ⟨{ isRequest := true, maxContent := 2 ^ 64 - 1 }, _, rfl, rfl, by decide +kernel⟩

/-- The setting of the examples. -/
def exampleHead : Head := .request (b! "POST") (b! "/a") (b! "b=c") 1 1
def exampleHeaders : Dict := [(b! "Host", b! "x"), (b! "content-length", b! " 05 ")]

theorem exampleSetting : Setting reqCfg {} exampleHead exampleHeaders where
  blank := ⟨rfl, rfl, rfl, rfl⟩
  order := fun l => List.Perm.refl l
  kind := rfl
  headOk := ⟨⟨by decide +kernel, by decide +kernel, by decide +kernel⟩, by unfold uriChar; decide +kernel, by decide +kernel, by unfold queryChar; decide +kernel,
    by decide +kernel, by decide +kernel, by decide +kernel⟩
  headersOk := by
    intro e he
    simp only [exampleHeaders, List.mem_cons, List.not_mem_nil, or_false] at he
    rcases he with rfl | rfl
    · exact ⟨⟨by decide +kernel, by decide +kernel, by decide +kernel⟩, by unfold valueChar; decide +kernel, by decide +kernel⟩
    · exact ⟨⟨by decide +kernel, by decide +kernel, by decide +kernel⟩, by unfold valueChar; decide +kernel, by decide +kernel⟩
  notHeadersOnly := rfl

-- the hypotheses of C13 hold for a POST with five bytes
example : ¬ AnnouncesChunks reqCfg.ord exampleHeaders ∧ ¬ exampleHead.Bodyless [] ∧
    AnnouncesLength reqCfg.ord exampleHeaders (b! "hello").length :=
  ⟨by rintro ⟨v, h, _⟩; simp [exampleHeaders, reqCfg, Dict.find?, Dict.values, iequals] at h, id,
   ⟨b! " ", b! "05", b! " ", by decide +kernel, by decide +kernel, by decide +kernel, by decide +kernel, by decide +kernel⟩⟩
example : (outcome reqCfg (fresh reqCfg {}) [wireHead exampleHead exampleHeaders ++ b! "hello" ++ b! "more"]).map
    (fun o => (o.result, o.message.content, o.unread)) =
    some (.yes, (b! "hello").map some, b! "more") := by decide +kernel

/-! ### Chunked bodies -/

theorem absorb_same (cfg : Cfg) (s : S) (d : Bytes) : (absorb cfg s d).ec = s.ec ∧ (absorb cfg s d).fault = s.fault ∧
    (absorb cfg s d).msg.missing = s.msg.missing ∧ (absorb cfg s d).msg.headers = s.msg.headers ∧
    (absorb cfg s d).totalRead = s.totalRead ∧ (absorb cfg s d).contentRead = s.contentRead ∧
    (absorb cfg s d).ms = s.ms ∧ (absorb cfg s d).msg.contentLength = s.msg.contentLength := by
  unfold absorb; split <;> exact ⟨rfl, rfl, rfl, rfl, rfl, rfl, rfl, rfl⟩

theorem absorb_stored {h : Head} (cfg : Cfg) (s : S) (d : Bytes) (hst : h.StoredIn s.msg) :
    h.StoredIn (absorb cfg s d).msg := by
  unfold absorb; split
  · exact hst
  · cases h <;> exact hst

/-- The state when the parser starts on a chunked body. -/
theorem chunks_start (cfg : Cfg) (m : Msg) (h : Head) (hs : Dict) (hset : Setting cfg m h hs)
    (hc : AnnouncesChunks cfg.ord hs) (rest : Bytes) :
    ∃ s, HeadDone cfg m h hs (wireHead h hs) s ∧
      iter cfg (fresh cfg m) (wireHead h hs ++ rest) = (.more, { s with ms := .chunks }, rest) := by
  obtain ⟨s, hd, hi⟩ := iter_wireHead cfg m h hs hset.kind hset.headOk hset.headersOk rest
  rw [finishHeaders2_chunks cfg hd hset.blank hset.notHeadersOnly hc] at hi
  exact ⟨s, hd, hi⟩

/-- **C14 (receiving side).** A chunked message with a well-formed head, arbitrary nonempty chunks and the terminating
    chunk, cut into buffers in any way and followed by anything: it is complete exactly at its end; the content (or
    what the payload handler receives) is the concatenation of the chunks. Without a handler the body must not exceed
    the maximum content length; see `oversized_chunked_never_completes` for what happens if it does. -/
theorem chunked_exact (cfg : Cfg) (m : Msg) (h : Head) (hs : Dict) (hset : Setting cfg m h hs)
    (hc : AnnouncesChunks cfg.ord hs) (ds : List Bytes) (tail : Bytes)
    (hds : ∀ d ∈ ds, d ≠ [] ∧ d.length ≤ 2 ^ 63 - 1)
    (hmax : cfg.handler = false → ds.flatten.length ≤ cfg.maxContent) (hn : ds.flatten.length + 1 < 2 ^ 64)
    (bufs : List Bytes) (hcut : Cuts bufs (wireHead h hs ++ chunkedWire ds ++ tail)) :
    ∃ o, outcome cfg (fresh cfg m) bufs = some o ∧ Complete h hs tail o ∧
      (if cfg.handler then o.payload = ds.flatten
       else o.message.content = ds.flatten.map some ∧ o.message.contentLength = ds.flatten.length) ∧
      o.counters = some ((wireHead h hs).length + (chunkedWire ds).length, (chunkedWire ds).length) := by
  have hne : wireHead h hs ++ chunkedWire ds ++ tail ≠ [] := by simp [wireHead_ne_nil]
  rw [outcome_cuts cfg _ hcut hne, List.append_assoc]
  obtain ⟨s, hd, hi⟩ := chunks_start cfg m h hs hset hc (chunkedWire ds ++ tail)
  have hbeg := parseBegin_fresh cfg m hset.blank.notMissing
  have hhs : s.msg.headers = hs := by rw [hd.headers, hset.blank.noHeaders]; rfl
  have hmiss : s.msg.missing = false := by rw [hd.missing, hset.blank.notMissing]
  have hcache : s.msg.chunkCache = [] := by rw [hd.chunkCache, hset.blank.noCache]
  have hwne : chunkedWire ds ++ tail ≠ [] := by simp [chunkedWire, lastChunk]
  have hrun := run_chunkedWire cfg ds (({ s with ms := .chunks } : S).setL 0) hd.cs hds
    (fun hh => by
      simp only [S.setL, hcache, List.length_nil, Nat.zero_add, total]; exact hmax hh) tail
  obtain ⟨a1, a2, a3, a4, a5, a6, a7, a8⟩ := absorb_same cfg (({ s with ms := .chunks } : S).setL 0) ds.flatten
  have ast := absorb_stored (h := h) cfg (({ s with ms := .chunks } : S).setL 0) ds.flatten hd.stored
  have a5' : (absorb cfg (({ s with ms := .chunks } : S).setL 0) ds.flatten).totalRead = (wireHead h hs).length :=
    a5.trans hd.totalRead
  have a6' : (absorb cfg (({ s with ms := .chunks } : S).setL 0) ds.flatten).contentRead = 0 := a6.trans hd.contentRead
  have hlen : (chunkedWire ds ++ tail).length - tail.length = (chunkedWire ds).length := by simp
  have hi2 := iter_chunks cfg { s with ms := .chunks } (chunkedWire ds ++ tail) rfl
  rw [parseChunks_eq, hrun] at hi2
  simp only [count, reduceCtorEq, if_false, hlen] at hi2
  cases hh : cfg.handler with
  | true =>
    simp only [postC, hh, reduceCtorEq, and_false, if_false] at hi2
    refine ⟨_, outcome_of_iter2 cfg hbeg hi hwne hi2 (.inl (by simp)), ?_⟩
    obtain ⟨c1, c2, c3, c4, c5⟩ := complete_of_run cfg (h := h) (hs := hs) (tail := tail)
      (s := ({ absorb cfg (({ s with ms := .chunks } : S).setL 0) ds.flatten with
        chunkSizeStr := b! "0", chunkRead := 0, chunkSize := 0, cs := .expFinalLf } : S).upd (chunkedWire ds).length
          ((absorb cfg (({ s with ms := .chunks } : S).setL 0) ds.flatten).totalRead + (chunkedWire ds).length)
          ((absorb cfg (({ s with ms := .chunks } : S).setL 0) ds.flatten).contentRead + (chunkedWire ds).length))
      (a1.trans hd.ec) ast (a4.trans hhs) (a3.trans hmiss) (a2.trans hd.fault)
      (by
        have : (absorb cfg (({ s with ms := .chunks } : S).setL 0) ds.flatten).msg.contentLength = 0 := by
          rw [a8]; exact hd.contentLength
        simp only [S.upd]; omega)
    refine ⟨c1, ?_, ?_⟩
    · rw [if_pos rfl]
      refine c4.trans ?_
      simp [S.upd, absorb, hh, S.setL, hd.payload]
    · refine c5.trans ?_
      simp only [S.upd]
      rw [a5', a6', Nat.zero_add]
  | false =>
    have hcc : ∀ (k t c : Nat), concatenateChunks (({ absorb cfg (({ s with ms := .chunks } : S).setL 0) ds.flatten with
        chunkSizeStr := b! "0", chunkRead := 0, chunkSize := 0, cs := .expFinalLf } : S).upd k t c) =
        ({ s with
            ms := .chunks, chunkSizeStr := b! "0", chunkRead := 0, chunkSize := 0, cs := .expFinalLf,
            msg := { s.msg with chunkCache := ds.flatten, contentLength := ds.flatten.length,
                                content := ds.flatten.map some } } : S).upd k t c := by
      intro k t c
      unfold concatenateChunks
      rw [createBuffer_ok]
      · simp [absorb, hh, S.upd, S.setL, hcache]
      · simp only [absorb, hh, S.upd, S.setL, hcache, Bool.false_eq_true, if_false, List.nil_append, SIZE_MOD]
        omega
    simp only [postC, hh, true_and, if_true] at hi2
    rw [hcc] at hi2
    simp only [show ∀ (x : S) k t c, (x.upd k t c).ms = x.ms from fun _ _ _ _ => rfl, reduceCtorEq, if_false] at hi2
    refine ⟨_, outcome_of_iter2 cfg hbeg hi hwne hi2 (.inl (by simp)), ?_⟩
    obtain ⟨c1, c2, c3, c4, c5⟩ := complete_of_run cfg (h := h) (hs := hs) (tail := tail)
      (s := ({ s with
          ms := .chunks, chunkSizeStr := b! "0", chunkRead := 0, chunkSize := 0, cs := .expFinalLf,
          msg := { s.msg with
              chunkCache := ds.flatten, contentLength := ds.flatten.length,
              content := ds.flatten.map some } } : S).upd (chunkedWire ds).length
          ((absorb cfg (({ s with ms := .chunks } : S).setL 0) ds.flatten).totalRead + (chunkedWire ds).length)
          ((absorb cfg (({ s with ms := .chunks } : S).setL 0) ds.flatten).contentRead + (chunkedWire ds).length))
      hd.ec (storedIn_content _ _ _ hd.stored) hhs hmiss hd.fault
      (Nat.le_of_eq (List.length_map (as := ds.flatten) (f := some)).symm)
    refine ⟨c1, ?_, ?_⟩
    · rw [if_neg (by simp)]; exact ⟨c2, c3⟩
    · refine c5.trans ?_
      simp only [S.upd]
      rw [a5', a6', Nat.zero_add]

/-- **C15, as it is (the property is false).** Without a payload handler, a chunked message whose chunks exceed the
    maximum content length never completes: whatever comes after the chunks (the terminating chunk, anything else),
    and however the stream is cut, the parser goes on asking for more, having stored the first `maxContent` bytes. -/
theorem oversized_chunked_never_completes (cfg : Cfg) (m : Msg) (h : Head) (hs : Dict) (hset : Setting cfg m h hs)
    (hhand : cfg.handler = false) (hc : AnnouncesChunks cfg.ord hs) (ds : List Bytes) (tail : Bytes)
    (hds : ∀ d ∈ ds, d ≠ [] ∧ d.length ≤ 2 ^ 63 - 1) (hmax : cfg.maxContent < ds.flatten.length)
    (bufs : List Bytes) (hcut : Cuts bufs (wireHead h hs ++ chunkedWire ds ++ tail)) :
    ∃ o, outcome cfg (fresh cfg m) bufs = some o ∧ o.result = .more ∧ o.unread = [] ∧
      o.message.chunkCache = ds.flatten.take cfg.maxContent := by
  have hne : wireHead h hs ++ chunkedWire ds ++ tail ≠ [] := by simp [wireHead_ne_nil]
  rw [outcome_cuts cfg _ hcut hne, List.append_assoc]
  obtain ⟨s, hd, hi⟩ := chunks_start cfg m h hs hset hc (chunkedWire ds ++ tail)
  have hbeg := parseBegin_fresh cfg m hset.blank.notMissing
  have hcache : s.msg.chunkCache = [] := by rw [hd.chunkCache, hset.blank.noCache]
  have hwne : chunkedWire ds ++ tail ≠ [] := by simp [chunkedWire, lastChunk]
  obtain ⟨s', hst, _, hca, hrun⟩ := run_oversize cfg hhand ds (({ s with ms := .chunks } : S).setL 0) hd.cs hds
    (by simp only [S.setL, hcache, List.length_nil, Nat.zero_add, total]; exact hmax)
    (by simp [S.setL, hcache]) (lastChunk ++ tail)
  have hi2 := iter_chunks cfg { s with ms := .chunks } (chunkedWire ds ++ tail) rfl
  rw [parseChunks_eq, chunkedWire, List.append_assoc, hrun] at hi2
  simp only [count, reduceCtorEq, if_false, postC, false_and] at hi2
  rw [← List.append_assoc, ← chunkedWire] at hi2
  refine ⟨_, outcome_of_iter2 cfg hbeg hi hwne hi2 (.inr rfl), rfl, rfl, ?_⟩
  simp only [endOutcome, observe, parseEnd, S.upd, hca]
  simp [S.setL, hcache]

/-- **C15, the true part**: with a payload handler, or when the body fits, the message completes at its terminating
    chunk (and not before). -/
theorem chunked_completes_partial (cfg : Cfg) (m : Msg) (h : Head) (hs : Dict) (hset : Setting cfg m h hs)
    (hc : AnnouncesChunks cfg.ord hs) (ds : List Bytes) (tail : Bytes)
    (hds : ∀ d ∈ ds, d ≠ [] ∧ d.length ≤ 2 ^ 63 - 1)
    (hmax : cfg.handler = true ∨ ds.flatten.length ≤ cfg.maxContent) (hn : ds.flatten.length + 1 < 2 ^ 64)
    (bufs : List Bytes) (hcut : Cuts bufs (wireHead h hs ++ chunkedWire ds ++ tail)) :
    (∃ o, outcome cfg (fresh cfg m) bufs = some o ∧ Complete h hs tail o) ∧
    ∀ p rest, p ≠ [] → rest ≠ [] → p ++ rest = wireHead h hs ++ chunkedWire ds →
      ∃ o, outcome cfg (fresh cfg m) [p] = some o ∧ o.result = .more := by
  have hm' : cfg.handler = false → ds.flatten.length ≤ cfg.maxContent := fun hf => by
    rcases hmax with h | h
    · rw [hf] at h; cases h
    · exact h
  constructor
  · obtain ⟨o, h1, h2, _⟩ := chunked_exact cfg m h hs hset hc ds tail hds hm' hn bufs hcut
    exact ⟨o, h1, h2⟩
  · intro p rest hp hr e
    obtain ⟨o, h1, h2, _⟩ := chunked_exact cfg m h hs hset hc ds [] hds hm' hn [p ++ rest]
      ⟨by simp [e], by simp [hp]⟩
    exact more_before_end cfg _ p rest hp hr o h1 h2.unread

/-- A chunked message for the examples. -/
def chunkHeaders : Dict := [(b! "Transfer-Encoding", b! "chunked")]

theorem chunkSetting (n : Nat) : Setting { reqCfg with maxContent := n } {} exampleHead chunkHeaders where
  blank := ⟨rfl, rfl, rfl, rfl⟩
  order := fun l => List.Perm.refl l
  kind := rfl
  headOk := exampleSetting.headOk
  headersOk := by
    intro e he
    simp only [chunkHeaders, List.mem_cons, List.not_mem_nil, or_false] at he
    subst he
    exact ⟨⟨by decide +kernel, by decide +kernel, by decide +kernel⟩, by unfold valueChar; decide +kernel, by decide +kernel⟩
  notHeadersOnly := rfl

example : AnnouncesChunks reqCfg.ord chunkHeaders := ⟨b! "chunked", by decide +kernel, [], [], by decide +kernel⟩
example : chunkedWire [b! "hello", b! "a longer chunk.."] = b! "5\r\nhello\r\n10\r\na longer chunk..\r\n0\r\n\r\n" := by
  decide +kernel
-- completes with maximum 8, does not complete with maximum 4
example : (outcome { reqCfg with maxContent := 8 } (fresh reqCfg {})
      [wireHead exampleHead chunkHeaders ++ chunkedWire [b! "hello", b! "abc"] ++ b! "GET"]).map
    (fun o => (o.result, o.message.content, o.unread)) = some (.yes, (b! "helloabc").map some, b! "GET") := by decide +kernel
example : (outcome { reqCfg with maxContent := 4 } (fresh reqCfg {})
      [wireHead exampleHead chunkHeaders ++ chunkedWire [b! "hello", b! "abc"] ++ b! "GET"]).map
    (fun o => (o.result, o.message.chunkCache)) = some (.more, b! "hell") := by decide +kernel

/-! ### Responses without a body -/

/-- **C53 (partial: no chunked transfer coding announced).** A response to a HEAD request, or with status 1xx, 204, 205
    or 304, is complete at the end of its headers, whatever `Content-Length` says; the bytes after it are unread. -/
theorem bodyless_complete_partial (cfg : Cfg) (m : Msg) (h : Head) (hs : Dict) (hset : Setting cfg m h hs)
    (hc : ¬ AnnouncesChunks cfg.ord hs) (hb : h.Bodyless m.requestMethod) (tail : Bytes)
    (bufs : List Bytes) (hcut : Cuts bufs (wireHead h hs ++ tail)) :
    ∃ o, outcome cfg (fresh cfg m) bufs = some o ∧ Complete h hs tail o ∧ o.message.content = [] ∧
      o.message.contentLength = 0 ∧ o.counters = some ((wireHead h hs).length, 0) := by
  have hne : wireHead h hs ++ tail ≠ [] := by simp [wireHead_ne_nil]
  rw [outcome_cuts cfg _ hcut hne]
  obtain ⟨s, hd, hi⟩ := iter_wireHead cfg m h hs hset.kind hset.headOk hset.headersOk tail
  rw [finishHeaders2_bodyless cfg hd hset.blank hset.kind hc hb] at hi
  have hbeg := parseBegin_fresh cfg m hset.blank.notMissing
  refine ⟨_, outcome_of_iter cfg hbeg hi (.inl (by simp)), ?_⟩
  obtain ⟨c1, c2, c3, c4, c5⟩ := complete_of_run cfg (h := h) (hs := hs) (tail := tail)
    (s := { s with ms := .end_ }) hd.ec hd.stored (by rw [hd.headers, hset.blank.noHeaders]; rfl)
    (by rw [hd.missing, hset.blank.notMissing]) hd.fault (by simp [hd.contentLength])
  exact ⟨c1, c2.trans (by simp [hd.content, hset.blank.noContent]), c3.trans (by simp [hd.contentLength]),
    c5.trans (by simp [hd.totalRead, hd.contentRead])⟩

/-- **C53 is false for chunked messages**: a 204 response (or the answer to a HEAD request) that carries
    `Transfer-Encoding: chunked` is not complete at the end of its headers. Every such message: -/
theorem bodyless_chunked_waits (cfg : Cfg) (m : Msg) (h : Head) (hs : Dict) (hset : Setting cfg m h hs)
    (hc : AnnouncesChunks cfg.ord hs) (bufs : List Bytes) (hcut : Cuts bufs (wireHead h hs)) :
    ∃ o, outcome cfg (fresh cfg m) bufs = some o ∧ o.result = .more := by
  rw [outcome_cuts cfg _ hcut (wireHead_ne_nil h hs)]
  obtain ⟨s, hd, hi⟩ := chunks_start cfg m h hs hset hc []
  rw [List.append_nil] at hi
  exact ⟨_, outcome_of_iter cfg (parseBegin_fresh cfg m hset.blank.notMissing) hi (.inr rfl), rfl⟩

/-- A request that announces neither chunks nor a length is complete at the end of its headers. -/
theorem request_without_body (cfg : Cfg) (m : Msg) (h : Head) (hs : Dict) (hset : Setting cfg m h hs)
    (hreq : h.isRequest = true) (hc : ¬ AnnouncesChunks cfg.ord hs)
    (hl : hs.find? cfg.ord (b! "Content-Length") = none) (tail : Bytes)
    (bufs : List Bytes) (hcut : Cuts bufs (wireHead h hs ++ tail)) :
    ∃ o, outcome cfg (fresh cfg m) bufs = some o ∧ Complete h hs tail o ∧ o.message.content = [] ∧
      o.message.contentLength = 0 := by
  have hne : wireHead h hs ++ tail ≠ [] := by simp [wireHead_ne_nil]
  rw [outcome_cuts cfg _ hcut hne]
  obtain ⟨s, hd, hi⟩ := iter_wireHead cfg m h hs hset.kind hset.headOk hset.headersOk tail
  rw [finishHeaders2_plain cfg hd hset.blank hset.order hset.kind hset.notHeadersOnly hc
    (by cases h with
      | request => exact id
      | response => simp [Head.isRequest] at hreq) hl, if_pos (hset.kind.trans hreq)] at hi
  have hbeg := parseBegin_fresh cfg m hset.blank.notMissing
  refine ⟨_, outcome_of_iter cfg hbeg hi (.inl (by simp)), ?_⟩
  obtain ⟨c1, c2, c3, c4, c5⟩ := complete_of_run cfg (h := h) (hs := hs) (tail := tail)
    (s := { s with ms := .end_ }) hd.ec hd.stored (by rw [hd.headers, hset.blank.noHeaders]; rfl)
    (by rw [hd.missing, hset.blank.notMissing]) hd.fault (by simp [hd.contentLength])
  exact ⟨c1, c2.trans (by simp [hd.content, hset.blank.noContent]), c3.trans (by simp [hd.contentLength])⟩

/-- Configuration for the response examples. -/
def respCfg : Cfg := { isRequest := false }
def noContentHead : Head := .response 1 1 204 (b! "No Content")

theorem responseSetting (hs : Dict) (hh : ∀ e ∈ hs, HeaderOk e) (code : Nat) (hcode : code < 65536) :
    Setting respCfg {} (.response 1 1 code (b! "Some Text")) hs where
  blank := ⟨rfl, rfl, rfl, rfl⟩
  order := fun l => List.Perm.refl l
  kind := rfl
  headOk := ⟨by unfold textChar; decide +kernel, by decide +kernel, by decide +kernel, by decide +kernel, hcode⟩
  headersOk := hh
  notHeadersOnly := rfl

example : (Head.response 1 1 204 (b! "Some Text")).Bodyless [] := by unfold Head.Bodyless; decide
example : (outcome respCfg (fresh respCfg {}) [b! "HTTP/1.1 204 No Content\r\nContent-Length: 7\r\n\r\nHTTP"]).map
    (fun o => (o.result, o.unread)) = some (.yes, b! "HTTP") := by decide +kernel

/-! ### The end of the stream -/

/-- Feeding buffers one by one leads to the same result, rest and state (up to `gcount()`) as feeding their
    concatenation. -/
theorem feed_cuts (cfg : Cfg) (bufs : List Bytes) : ∀ (s : S), (∀ b ∈ bufs, b ≠ []) → bufs ≠ [] →
    ∃ rc s' rest more s'' , feed cfg s bufs = some (rc, s', rest, more) ∧
      parse cfg s bufs.flatten = some (rc, s'', rest ++ more.flatten) ∧ (rc ≠ .no → s'.setL 0 = s''.setL 0) := by
  induction bufs with
  | nil => intro s _ h; exact absurd rfl h
  | cons a bufs ih =>
    intro s hne _
    cases bufs with
    | nil =>
      obtain ⟨r, t, hr, hp⟩ := parse_runs cfg s a
      cases hrc : r.1 with
      | more =>
        refine ⟨.more, parseEnd cfg r.1 r.2.1 t, [], [], parseEnd cfg r.1 r.2.1 t, ?_, ?_, fun _ => rfl⟩
        · rw [feed, hp, hrc]; rfl
        · rw [List.flatten_singleton, hp, runs_more_rest cfg hr hrc, hrc]; rfl
      | yes => exact ⟨.yes, _, r.2.2, [], _, by rw [feed, hp, hrc], by rw [List.flatten_singleton, hp, hrc]; simp, fun _ => rfl⟩
      | no => exact ⟨.no, _, r.2.2, [], _, by rw [feed, hp, hrc], by rw [List.flatten_singleton, hp, hrc]; simp, fun _ => rfl⟩
    | cons b bufs =>
      have hb : b ≠ [] := hne b (by simp)
      have hflat : (b :: bufs).flatten ≠ [] := by simp [hb]
      obtain ⟨rc, s1, rest, hp, h1, h2⟩ := parse_append cfg s a (b :: bufs).flatten (hne a (by simp)) hflat
      obtain ⟨r1, t1, _, e1⟩ := parse_runs cfg s (a ++ (b :: bufs).flatten)
      by_cases hm : rc = .more
      · subst hm
        obtain ⟨_, he⟩ := h1 rfl
        obtain ⟨rc', s', rest', more, s'', f1, f2, f3⟩ := ih s1 (fun x hx => hne x (by simp [hx])) (by simp)
        rw [e1, f2] at he
        simp only [Option.map_some, Option.some.injEq, obs, Prod.mk.injEq] at he
        obtain ⟨g1, g2, g3⟩ := he
        refine ⟨rc', s', rest', more, parseEnd cfg r1.1 r1.2.1 t1, by rw [feed, hp]; exact f1, ?_, ?_⟩
        · rw [show (a :: b :: bufs).flatten = a ++ (b :: bufs).flatten from rfl, e1]
          simp only [g1, g3]
        · intro hno
          rw [f3 hno]
          simp only [g1, hno, if_false] at g2
          rw [← g1] at g2
          exact g2.symm
      · have he := h2 hm
        rw [e1] at he
        simp only [Option.map_some, Option.some.injEq, obs, Prod.mk.injEq] at he
        obtain ⟨g1, g2, g3⟩ := he
        refine ⟨rc, s1, rest, b :: bufs, parseEnd cfg r1.1 r1.2.1 t1, ?_, ?_, ?_⟩
        · rw [feed, hp]; cases rc <;> simp at hm ⊢
        · rw [show (a :: b :: bufs).flatten = a ++ (b :: bufs).flatten from rfl, e1]
          simp only [g1, g3]
        · intro hno
          rw [g1] at g2 ⊢
          simp only [hno, if_false] at g2
          exact g2.symm

theorem noLength_parse (cfg : Cfg) (s : S) (hms : s.ms = .noLength) (buf : Bytes) :
    ∃ s', parse cfg s buf = some (.more, s', []) ∧ s'.ms = .noLength := by
  have hb : (parseBegin s).ms = .noLength := by unfold parseBegin; split <;> exact hms
  have hi : iter cfg (parseBegin s) buf =
      (.more, (consumeAsNextChunk cfg (parseBegin s) buf).1, (consumeAsNextChunk cfg (parseBegin s) buf).2) := by
    unfold iter; simp only [hb]
  have h2 : (consumeAsNextChunk cfg (parseBegin s) buf).2 = [] := by
    unfold consumeAsNextChunk; cases buf <;> simp
  have h3 : (consumeAsNextChunk cfg (parseBegin s) buf).1.ms = .noLength := by
    unfold consumeAsNextChunk; split
    · exact hb
    · cases cfg.handler <;> exact hb
  have hr : Runs cfg (parseBegin s) buf (iter cfg (parseBegin s) buf) :=
    .stop (by rw [hi]; simp [h2])
  obtain ⟨t, ht⟩ := parse_of_runs cfg hr
  rw [hi] at ht
  simp only [h2] at ht
  exact ⟨_, ht, h3⟩

/-- **C51, delimited messages.** If a stream is exactly one complete message, then for every proper prefix of it, cut
    in any way, the end of the stream is reported as premature. -/
theorem premature_end_detected (cfg : Cfg) (s : S) (p rest : Bytes) (hp : p ≠ []) (hrest : rest ≠ []) (o : Outcome)
    (h : outcome cfg s [p ++ rest] = some o) (hy : o.result = .yes) (hu : o.unread = [])
    (bufs : List Bytes) (hcut : Cuts bufs p) :
    (outcomeAtEof cfg s bufs).map (·.1) = some true := by
  obtain ⟨o', ho', hmore⟩ := more_before_end cfg s p rest hp hrest o h hu
  have hbne : bufs ≠ [] := by
    rintro rfl; exact hp hcut.flat.symm
  obtain ⟨rc, s', rest', more, s'', f1, f2, f3⟩ := feed_cuts cfg bufs s hcut.nonempty hbne
  rw [hcut.flat] at f2
  have hrc : rc = .more := by
    rw [outcome_single, f2] at ho'
    have := congrArg Outcome.result (Option.some.inj ho')
    rw [hmore] at this; exact this
  subst hrc
  have hms : s''.ms ≠ .noLength := by
    intro hn
    obtain ⟨rc, s1, rest1, q1, q2, _⟩ := parse_append cfg s p rest hp hrest
    rw [f2] at q1
    simp only [Option.some.injEq, Prod.mk.injEq] at q1
    obtain ⟨rfl, rfl, _⟩ := q1
    have q2 := (q2 rfl).2
    obtain ⟨t, ht, _⟩ := noLength_parse cfg s'' hn rest
    rw [ht] at q2
    rw [outcome_single] at h
    cases hpp : parse cfg s (p ++ rest) with
    | none => rw [hpp] at h; simp at h
    | some r =>
      rw [hpp] at q2 h
      simp only [Option.map_some, Option.some.injEq, obs, Prod.mk.injEq] at q2 h
      have := congrArg Outcome.result h
      simp only [observe, q2.1, hy] at this
      cases this
  have hms' : s'.ms ≠ .noLength := by
    have := f3 (by simp)
    have e : (s'.setL 0).ms = (s''.setL 0).ms := by rw [this]
    exact fun hn => hms (e.symm.trans hn)
  rw [outcomeAtEof, f1]
  simp [checkPrematureEof, hms']

/-- ... also when nothing at all has been received. -/
theorem premature_end_empty (cfg : Cfg) (m : Msg) : (outcomeAtEof cfg (fresh cfg m) []).map (·.1) = some true := rfl

theorem finish_of_end (cfg : Cfg) (s : S) (h : s.ms = .end_) : finish cfg s =
    finishForm cfg { s with msg := computeStatus { s.msg with isValid := true } true } := by
  unfold finish; simp only [h]; rfl

theorem checkPrematureEof_setL (cfg : Cfg) (s : S) (k : Nat) : checkPrematureEof cfg (s.setL k) =
    ((checkPrematureEof cfg s).1, (checkPrematureEof cfg s).2.setL k) := by
  unfold checkPrematureEof
  rw [show (s.setL k).ms = s.ms from rfl]
  split
  · rfl
  · simp only [Prod.mk.injEq, true_and]
    rw [show ({ s.setL k with ms := .end_ } : S) = ({ s with ms := .end_ } : S).setL k from rfl, concatenateChunks_setL]
    have hms : (concatenateChunks { s with ms := .end_ }).ms = .end_ := by
      unfold concatenateChunks createBuffer; dsimp only; split <;> split <;> rfl
    rw [finish_of_end cfg _ hms, finish_of_end cfg _ (by exact hms), ← finishForm_setL]
    rfl

/-- What the parser makes of a body without announced end, once the first pass of the main loop has read the head `a`. -/
theorem end_of_stream_run (cfg : Cfg) {m : Msg} {h : Head} {hs : Dict} {a : Bytes} {s : S} (hd : HeadDone cfg m h hs a s)
    (hm : Blank m) (ord : OrderOk cfg.ord) (kind : cfg.isRequest = h.isRequest) (hdr : cfg.headersOnly = false)
    (hresp : h.isRequest = false) (hc : ¬ AnnouncesChunks cfg.ord hs) (hb : ¬ h.Bodyless m.requestMethod)
    (hl : hs.find? cfg.ord (b! "Content-Length") = none) (body : Bytes) (hne : a ≠ [])
    (hn : min body.length cfg.maxContent + 1 < 2 ^ 64)
    (hi : iter cfg (fresh cfg m) (a ++ body) = ((finishHeaders2 cfg s).1, (finishHeaders2 cfg s).2, body))
    (bufs : List Bytes) (hcut : Cuts bufs (a ++ body)) :
    (∃ o, outcome cfg (fresh cfg m) bufs = some o ∧ o.result = .more ∧ o.error = none ∧ o.unread = []) ∧
    ∃ o, outcomeAtEof cfg (fresh cfg m) bufs = some (false, o) ∧ Complete h hs [] o ∧
      (if cfg.handler then o.payload = body
       else o.message.content = (body.take cfg.maxContent).map some ∧
        o.message.contentLength = min body.length cfg.maxContent) := by
  have hne : a ++ body ≠ [] := by simp [hne]
  have hbne : bufs ≠ [] := by rintro rfl; exact hne hcut.flat.symm
  have hreq : cfg.isRequest = false := kind.trans hresp
  rw [finishHeaders2_plain cfg hd hm ord kind hdr hc hb hl, if_neg (by simp [hreq])] at hi
  have hbeg := parseBegin_fresh cfg m hm.notMissing
  -- what has been stored, and what has been handed out
  obtain ⟨cache, hcache⟩ : ∃ x : Bytes, x = if cfg.handler then [] else body.take cfg.maxContent := ⟨_, rfl⟩
  obtain ⟨pay, hpay⟩ : ∃ x : Bytes, x = if cfg.handler then body else [] := ⟨_, rfl⟩
  have hclen : cache.length + 1 < 2 ^ 64 := by
    rw [hcache]; split
    · simp
    · rw [List.length_take]; omega
  -- the state after all data
  have hstate : ∃ t a' b c, parse cfg (fresh cfg m) (a ++ body) = some (.more, { s with
      ms := .noLength, lastRead := t, totalRead := a', contentRead := b, remaining := c, payload := pay,
      msg := { s.msg with chunkCache := cache } }, []) := by
    by_cases hbn : body = []
    · subst hbn
      have e1 : cache = [] := by rw [hcache]; split <;> simp
      have e2 : pay = s.payload := by rw [hpay, hd.payload]; split <;> rfl
      have hr := Runs.stop (cfg := cfg) (s := fresh cfg m) (buf := a ++ []) (by rw [hi]; simp)
      rw [hi] at hr
      obtain ⟨t, ht⟩ := parse_of_runs cfg (s := fresh cfg m) (by rw [hbeg]; exact hr)
      exact ⟨t, _, _, _, by rw [ht, e1, e2]; exact congrArg (fun x => some (Tri.more, x, ([] : Bytes))) rfl⟩
    · have hi2 : iter cfg { s with msg := { s.msg with chunkCache := [] }, ms := .noLength } body = (.more, { s with
          ms := .noLength, lastRead := body.length, totalRead := s.totalRead + body.length,
          contentRead := s.contentRead + body.length, payload := pay,
          msg := { s.msg with chunkCache := cache } }, []) := by
        unfold iter consumeAsNextChunk
        cases hh : cfg.handler <;> simp [hbn, hh, hcache, hpay, hd.payload]
      have r2 := Runs.stop (cfg := cfg) (s := { s with msg := { s.msg with chunkCache := [] }, ms := .noLength }) (buf := body)
        (by rw [hi2]; simp)
      rw [hi2] at r2
      have hr := Runs.next (cfg := cfg) (s := fresh cfg m) (buf := a ++ body) (by rw [hi])
        (by rw [hi]; exact hbn) (by rw [hi]; exact r2)
      obtain ⟨t, ht⟩ := parse_of_runs cfg (s := fresh cfg m) (by rw [hbeg]; exact hr)
      exact ⟨t, _, _, _, by rw [ht]; exact congrArg (fun x => some (Tri.more, x, ([] : Bytes))) rfl⟩
  obtain ⟨t, a', b, c, hst⟩ := hstate
  constructor
  · rw [outcome_cuts cfg _ hcut hne, outcome_single, hst]
    exact ⟨_, rfl, rfl, hd.ec, rfl⟩
  obtain ⟨rc, s', rest', more, s'', f1, f2, f3⟩ := feed_cuts cfg bufs (fresh cfg m) hcut.nonempty hbne
  rw [hcut.flat, hst] at f2
  simp only [Option.some.injEq, Prod.mk.injEq] at f2
  obtain ⟨rfl, rfl, _⟩ := f2
  have f3 := eq_setL (f3 (by simp))
  rw [outcomeAtEof, f1]
  simp only [Option.map_some, if_true]
  rw [f3, checkPrematureEof_setL]
  have hcp : checkPrematureEof cfg { s with
      ms := .noLength, lastRead := t, totalRead := a', contentRead := b, remaining := c, payload := pay,
      msg := { s.msg with chunkCache := cache } } =
      (false, { s with
        ms := .end_, lastRead := t, totalRead := a', contentRead := b, remaining := c, payload := pay,
        msg := { s.msg with
            chunkCache := cache, content := cache.map some,
            contentLength := cache.length, isValid := true, status := .ok } }) := by
    unfold checkPrematureEof
    rw [if_neg (by simp)]
    have hcc : concatenateChunks { s with
        ms := .end_, lastRead := t, totalRead := a', contentRead := b, remaining := c, payload := pay,
        msg := { s.msg with chunkCache := cache } } = { s with
        ms := .end_, lastRead := t, totalRead := a', contentRead := b, remaining := c, payload := pay,
        msg := { s.msg with
            chunkCache := cache, content := cache.map some,
            contentLength := cache.length } } := by
      unfold concatenateChunks
      rw [createBuffer_ok]
      · simp
      · simp only [SIZE_MOD]; omega
    simp only [hcc]
    rw [finish_of_end cfg _ rfl]
    have hmiss : s.msg.missing = false := by rw [hd.missing, hm.notMissing]
    simp [finishForm, hreq, computeStatus, hmiss]
  rw [hcp]
  refine ⟨_, rfl, ⟨rfl, hd.ec, rfl, ?_, ?_, rfl, rfl, ?_⟩, ?_⟩
  · simp only [observe, S.setL]; cases h <;> exact hd.stored
  · simp only [observe, S.setL]; rw [hd.headers, hm.noHeaders]; rfl
  · simp only [observe, S.setL]; rw [hd.fault]; simp
  · simp only [observe, S.setL]
    cases hh : cfg.handler with
    | true => simp [hpay, hh]
    | false => simp [hcache, hh, Nat.min_comm]

/-- **C51, messages delimited by the end of the stream.** A response with a body, no chunked coding and no
    `Content-Length`: the parser asks for more as long as data comes; when the stream ends the message is complete and
    its content is everything received after the headers (cut to the maximum content length). -/
theorem end_of_stream_delimits (cfg : Cfg) (m : Msg) (h : Head) (hs : Dict) (hset : Setting cfg m h hs)
    (hresp : h.isRequest = false) (hhand : cfg.handler = false)
    (hc : ¬ AnnouncesChunks cfg.ord hs) (hb : ¬ h.Bodyless m.requestMethod)
    (hl : hs.find? cfg.ord (b! "Content-Length") = none) (body : Bytes) (hn : body.length + 1 < 2 ^ 64)
    (bufs : List Bytes) (hcut : Cuts bufs (wireHead h hs ++ body)) :
    ∃ o, outcomeAtEof cfg (fresh cfg m) bufs = some (false, o) ∧ Complete h hs [] o ∧
      o.message.content = (body.take cfg.maxContent).map some ∧
      o.message.contentLength = min body.length cfg.maxContent := by
  obtain ⟨s, hd, hi⟩ := iter_wireHead cfg m h hs hset.kind hset.headOk hset.headersOk body
  obtain ⟨_, o, h1, h2, h3⟩ := end_of_stream_run cfg hd hset.blank hset.order hset.kind hset.notHeadersOnly hresp hc hb hl body
    (wireHead_ne_nil h hs) (by omega) hi bufs hcut
  rw [hhand] at h3
  exact ⟨o, h1, h2, h3⟩

example : (outcomeAtEof respCfg (fresh respCfg {}) [b! "HTTP/1.0 200 OK\r\n\r\nall ", b! "of it"]).map
    (fun r => (r.1, r.2.message.content)) = some (false, (b! "all of it").map some) := by decide +kernel
example : (outcomeAtEof respCfg (fresh respCfg {}) [b! "HTTP/1.0 200 OK\r\nContent-Length: 8\r\n\r\nall "]).map
    (fun r => r.1) = some true := by decide +kernel

end Verif.Props.HttpBody
