import Verif.Lemmas.HttpRefusalBody
import Verif.Props.HttpRefusal
import Verif.Props.HttpFraming
/-
C100: why a message is refused after its head; every error of the parser has a cause.
-/
namespace Verif.Props.HttpRefusalBody
open Verif.Http Verif.Http.Text Verif.Props.HttpSegmentation Verif.Props.HttpBody Verif.Props.HttpGrammar Verif.Props.HttpRefusal

/-- A parser of whole messages, and a stream that begins with the head `a` of a message, which announces chunks; `b` follows. -/
structure Setting (cfg : Cfg) (m : Msg) (h : Head) (hs : Dict) (a b : Bytes) : Prop where
  whole : Whole cfg m h
  head : MessageHead h hs a b
  chunks : AnnouncesChunks cfg.ord hs

theorem runs_chunked {cfg : Cfg} {m : Msg} {h : Head} {hs : Dict} {a b : Bytes} (st : Setting cfg m h hs a b) :
    ∃ r, Runs cfg (parseBegin (fresh cfg m)) (a ++ b) r ∧ Fate cfg h b r := by
  obtain ⟨w, hhead, hc⟩ := st
  obtain ⟨s, hd, hi⟩ := iter_messageHead m hhead w.kind
  obtain ⟨f, l, _, hf, _⟩ := hhead
  rw [finishHeaders2_chunks cfg hd w.blank w.notHeadersOnly hc] at hi
  rw [parseBegin_fresh cfg m w.blank.notMissing]
  by_cases hb : b = []
  · subst hb
    exact ⟨_, runs_end hi (.inr rfl), .waits hd.ec (viable_chunks .nil List.prefix_rfl)⟩
  · obtain ⟨r, h1, h2⟩ := runs_fate hd w.blank w.kind w.max hf b
    exact ⟨r, runs_next hi hb h1, h2⟩

/-- **C100, errors in chunked bodies come when they must, and not before.** However the bytes are cut into buffers: as long
    as the body is not complete, the parser wants more if what it has read can still become a body, and else stops at the
    very byte with which this has become impossible, with an error that says what is wrong with it. -/
theorem body_refusal_partial (cfg : Cfg) (m : Msg) (h : Head) (hs : Dict) (a b : Bytes) (st : Setting cfg m h hs a b)
    (hno : ∀ ds tr w rest, Chunked cfg.handler (old h) ds tr w rest → b ≠ w ++ rest)
    (hmax : cfg.handler = false → ¬ Overfull cfg.maxContent b) (bufs : List Bytes) (hcut : Cuts bufs (a ++ b)) :
    ∃ o, outcome cfg (fresh cfg m) bufs = some o ∧
      ((BodyViable cfg.handler (old h) b ∧ Waiting o) ∨
       (∃ t c rest e, b = t ++ c :: rest ∧ BodyViable cfg.handler (old h) t ∧ ¬ BodyViable cfg.handler (old h) (t ++ [c]) ∧
         BodyCause cfg.handler h e t c ∧ Refused o e (c :: rest))) := by
  rw [outcome_cuts cfg _ hcut (by simp [head_ne_nil st.head])]
  obtain ⟨r, h1, h2⟩ := runs_chunked st
  refine ⟨_, outcome_of_runs cfg h1, ?_⟩
  cases h2 with
  | complete e1 e2 => exact absurd e1 (hno _ _ _ _ e2)
  | waits e1 e2 => exact .inl ⟨e2, rfl, e1, rfl⟩
  | full _ e2 e3 => exact absurd e3 (hmax e2)
  | refused e1 e2 e3 e4 => exact .inr ⟨_, _, _, _, e1, e3, cause_not_viable e4, e4, endOutcome_refused cfg _ e2⟩

theorem chunks_length {ds : List Bytes} {p : Bytes} (h : Chunks ds p) : ds.flatten.length ≤ p.length := by
  induction h with
  | nil => simp
  | snoc _ _ _ ih =>
    rw [List.flatten_append, List.length_append]
    simp only [List.flatten_cons, List.flatten_nil, List.append_nil, List.length_append]
    omega

/-- A text that is not longer than the maximum does not exceed it. -/
theorem overfull_lt {max : Nat} {t : Bytes} (h : Overfull max t) : max < t.length := by
  obtain ⟨ds, p, line, d, n, h1, _, _, h4, h5⟩ := h
  have h6 := h4.length_le
  have h7 := chunks_length h1
  simp only [List.length_append] at h6
  omega

/-- **C100, the part that fails**: without a payload handler, once the chunks have more data than the maximum, everything
    that follows is read and thrown away, whatever it is: the parser never finds the end of the body, and never an error. -/
theorem overfull_swallowed (cfg : Cfg) (m : Msg) (h : Head) (hs : Dict) (a b : Bytes) (st : Setting cfg m h hs a b)
    (hh : cfg.handler = false) (ho : Overfull cfg.maxContent b) (bufs : List Bytes) (hcut : Cuts bufs (a ++ b)) :
    ∃ o, outcome cfg (fresh cfg m) bufs = some o ∧ Waiting o := by
  rw [outcome_cuts cfg _ hcut (by simp [head_ne_nil st.head])]
  obtain ⟨w, hhead, hc⟩ := st
  obtain ⟨s, hd, hi⟩ := iter_messageHead m hhead w.kind
  rw [finishHeaders2_chunks cfg hd w.blank w.notHeadersOnly hc] at hi
  have hb : b ≠ [] := by
    rintro rfl
    obtain ⟨ds, p, line, d, n, h1, h2, h3, h4, h5⟩ := ho
    have := List.prefix_nil.mp h4
    cases h2
    simp at this
  obtain ⟨s', e, hr⟩ := runs_overfull hd w.blank hh ho
  exact ⟨endOutcome cfg (.more, s', []), outcome_of_runs cfg (by rw [parseBegin_fresh cfg m w.blank.notMissing]; exact runs_next hi hb hr),
    rfl, e, rfl⟩

/-- **C100, every cause in a chunked body is reported**, with its error and at its byte, whatever follows and however the
    bytes are cut into buffers, unless the maximum has been exceeded before. -/
theorem body_cause_reported_partial (cfg : Cfg) (m : Msg) (h : Head) (hs : Dict) (a t rest : Bytes) (c : UInt8) (e : Err)
    (st : Setting cfg m h hs a (t ++ c :: rest)) (hc : BodyCause cfg.handler h e t c)
    (hmax : cfg.handler = false → ¬ Overfull cfg.maxContent t) (bufs : List Bytes) (hcut : Cuts bufs (a ++ (t ++ c :: rest))) :
    ∃ o, outcome cfg (fresh cfg m) bufs = some o ∧ Refused o e (c :: rest) := by
  rw [outcome_cuts cfg _ hcut (by simp)]
  obtain ⟨r, h1, h2⟩ := runs_chunked st
  refine ⟨_, outcome_of_runs cfg h1, ?_⟩
  have hnot := cause_not_viable hc
  have hpre : t ++ [c] <+: t ++ c :: rest := ⟨rest, by simp⟩
  generalize hbuf : t ++ c :: rest = buf at h2 hpre
  cases h2 with
  | complete e1 e2 => exact absurd ⟨_, _, _, _, e2, e1 ▸ hpre⟩ hnot
  | waits e1 e2 => exact absurd (viable_prefix e2 hpre) hnot
  | full _ e2 e3 =>
    exfalso
    obtain ⟨ds, p, line, d, n, h1, h2, h3, h4, h5⟩ := e3
    rcases List.prefix_or_prefix_of_prefix h4 hpre with h6 | h6
    · rcases List.prefix_concat_iff.mp h6 with h6 | h6
      · exact hnot (h6 ▸ viable_data h1 h2 h3)
      · exact hmax e2 ⟨ds, p, line, d, n, h1, h2, h3, h6, h5⟩
    · exact hnot (viable_prefix (viable_data h1 h2 h3) h6)
  | refused e1 e2 e3 e4 =>
    rename_i s t' rest' c' e'
    have hnot' := cause_not_viable e4
    have hpre' : t' ++ [c'] <+: buf := ⟨rest', by rw [e1]; simp⟩
    have hlen : t'.length = t.length := by
      rcases Nat.lt_trichotomy t'.length t.length with hl | hl | hl
      · exfalso
        have h6 : t' ++ [c'] <+: t := List.prefix_of_prefix_length_le hpre' ⟨c :: rest, hbuf⟩ (by simp; omega)
        exact hnot' (viable_prefix (body_cause_viable hc) h6)
      · exact hl
      · exfalso
        have h6 : t ++ [c] <+: t' := List.prefix_of_prefix_length_le hpre ⟨c' :: rest', e1.symm⟩ (by simp; omega)
        exact hnot (viable_prefix e3 h6)
    rw [← hbuf] at e1
    obtain ⟨rfl, e5⟩ := List.append_inj e1 hlen.symm
    cases e5
    rw [cause_body_unique hc e4]
    exact endOutcome_refused cfg _ e2

/-- **C100, the causes are the reasons why something is not a chunked body**: what comes before a byte that has a cause can
    become a body, with the byte it cannot, and no other cause is given for it. (That there are no other reasons is
    `body_refusal_partial`.) -/
theorem body_cause_exact (handler : Bool) (h : Head) (t : Bytes) (c : UInt8) :
    ∀ e, BodyCause handler h e t c → BodyViable handler (old h) t ∧ ¬ BodyViable handler (old h) (t ++ [c]) ∧
      ∀ e', BodyCause handler h e' t c → e' = e :=
  fun _ hc => ⟨body_cause_viable hc, cause_not_viable hc, fun _ hc' => cause_body_unique hc' hc⟩

/-! ### Every error has a cause -/

/-- After a head that does not announce chunks, with a length that can be read, no error follows. -/
theorem no_error_plain {cfg : Cfg} {m : Msg} {h : Head} {hs : Dict} {a b : Bytes} (w : Whole cfg m h) (hhead : MessageHead h hs a b)
    (hc : ¬ AnnouncesChunks cfg.ord hs) (hbad : ¬ BadLength cfg.ord m.requestMethod h hs) {r : Tri × S × Bytes}
    (hr : Runs cfg (fresh cfg m) (a ++ b) r) : r.1 ≠ .no := by
  obtain ⟨s, hd, hi⟩ := iter_messageHead m hhead w.kind
  have key : (finishHeaders2 cfg s).1 = .yes ∨ ((finishHeaders2 cfg s).1 = .more ∧
      ((finishHeaders2 cfg s).2.ms = .content ∨ (finishHeaders2 cfg s).2.ms = .noLength)) := by
    by_cases hb : h.Bodyless m.requestMethod
    · rw [finishHeaders2_bodyless cfg hd w.blank w.kind hc hb]; exact .inl rfl
    · cases hf : hs.find? cfg.ord (b! "Content-Length") with
      | none =>
        rw [finishHeaders2_plain cfg hd w.blank w.order w.kind w.notHeadersOnly hc hb hf]
        split
        · exact .inl rfl
        · exact .inr ⟨rfl, .inr rfl⟩
      | some v =>
        by_cases hl : ∃ n, LengthValue n v
        · obtain ⟨n, hl⟩ := hl
          rw [finishHeaders2_value cfg hd w.blank w.order w.kind w.notHeadersOnly hc hb hf hl]
          split
          · exact .inl rfl
          · refine .inr ⟨rfl, .inl ?_⟩
            unfold createBuffer
            split <;> rfl
        · exact absurd ⟨hc, hb, v, hf, fun n hn => hl ⟨n, hn⟩⟩ hbad
  cases hr with
  | stop _ =>
    rw [hi]
    rcases key with k | ⟨k, _⟩ <;> simp only [k] <;> simp
  | next _ h2 h3 =>
    rw [hi] at h2 h3
    simp only at h2 h3
    rcases key with k | ⟨_, k⟩
    · rename_i h1
      rw [hi] at h1
      rw [k] at h1; cases h1
    · generalize (finishHeaders2 cfg s).2 = x at k h3
      have hx : (iter cfg x b).1 = .yes ∨ ((iter cfg x b).1 = .more ∧ (iter cfg x b).2.2 = []) := by
        unfold iter
        rcases k with k | k <;> rw [k] <;> simp only
        · unfold consumeContent
          split
          · exact .inl rfl
          · by_cases hle : x.remaining ≤ b.length
            · simp only [if_pos hle]; exact .inl trivial
            · simp only [if_neg hle]; exact .inr ⟨trivial, List.drop_length⟩
        · unfold consumeAsNextChunk
          rw [if_neg (by simpa using h2)]
          exact .inr ⟨trivial, rfl⟩
      cases h3 with
      | stop _ => rcases hx with hx | ⟨hx, _⟩ <;> rw [hx] <;> simp
      | next g1 g2 _ =>
        rcases hx with hx | ⟨_, hx⟩
        · rw [hx] at g1; cases g1
        · exact absurd hx g2

/-- **C100, the length**: a Content-Length that matters and cannot be read is an error at the end of the head. -/
theorem bad_length_reported (cfg : Cfg) (m : Msg) (h : Head) (w : Whole cfg m h) (hs : Dict) (a b : Bytes) (hhead : MessageHead h hs a b)
    (hbad : BadLength cfg.ord m.requestMethod h hs) (bufs : List Bytes) (hcut : Cuts bufs (a ++ b)) :
    ∃ o, outcome cfg (fresh cfg m) bufs = some o ∧ Refused o .invalidContentLength b := by
  rw [outcome_cuts cfg _ hcut (by simp [head_ne_nil hhead])]
  obtain ⟨s, hd, hi⟩ := iter_messageHead m hhead w.kind
  obtain ⟨h1, h2, v, h3, h4⟩ := hbad
  rw [finishHeaders2_bad cfg hd w.blank w.order w.kind h1 h2 h3 h4] at hi
  exact ⟨_, outcome_of_iter cfg (parseBegin_fresh cfg m w.blank.notMissing) hi (.inl (by simp)), endOutcome_refused cfg _ rfl⟩

/-- The reasons for which a parser of whole messages stops with the error `e` before `left`. -/
inductive Reason (cfg : Cfg) (m : Msg) (e : Err) (stream left : Bytes) : Prop
  /-- the head (C99) -/
  | head {read : Bytes} {c : UInt8} {rest : Bytes} : stream = read ++ c :: rest → left = c :: rest →
      Cause cfg.isRequest e read c → Reason cfg m e stream left
  /-- the length -/
  | length {h : Head} {hs : Dict} {a : Bytes} : stream = a ++ left → MessageHead h hs a left → cfg.isRequest = h.isRequest →
      BadLength cfg.ord m.requestMethod h hs → e = .invalidContentLength → Reason cfg m e stream left
  /-- the chunks -/
  | chunks {h : Head} {hs : Dict} {a t : Bytes} {c : UInt8} {rest : Bytes} : stream = a ++ (t ++ c :: rest) → left = c :: rest →
      MessageHead h hs a (t ++ c :: rest) → cfg.isRequest = h.isRequest → AnnouncesChunks cfg.ord hs →
      BodyCause cfg.handler h e t c → Reason cfg m e stream left

/-- **C100, every error has a reason.** Whenever a parser of whole messages reports an error, whatever the bytes and however
    they are cut into buffers, it is one of the causes of C99, a length that cannot be read, or one of the causes in chunked
    bodies, and the parser has stopped there. In particular a body whose length is given, and one that ends with the
    connection, is never refused. -/
theorem every_error (cfg : Cfg) (m : Msg) (hm : Blank m) (ord : OrderOk cfg.ord) (hdr : cfg.headersOnly = false)
    (hmax : cfg.maxContent + 1 < 2 ^ 64) (stream : Bytes) (bufs : List Bytes) (hcut : Cuts bufs stream) (o : Outcome)
    (ho : outcome cfg (fresh cfg m) bufs = some o) (hn : o.result = .no) :
    ∃ e, Refused o e o.unread ∧ Reason cfg m e stream o.unread := by
  by_cases hex : ∃ h hs t rest, MessageHead h hs t rest ∧ cfg.isRequest = h.isRequest ∧ stream = t ++ rest
  · obtain ⟨h, hs, a, b, hhead, hk, rfl⟩ := hex
    have w : Whole cfg m h := ⟨hm, ord, hk, hdr, hmax⟩
    by_cases hc : AnnouncesChunks cfg.ord hs
    · rw [outcome_cuts cfg _ hcut (by simp [head_ne_nil hhead])] at ho
      obtain ⟨r, h1, h2⟩ := runs_chunked ⟨w, hhead, hc⟩
      rw [outcome_of_runs cfg h1] at ho
      cases ho
      cases h2 with
      | complete => cases hn
      | waits => cases hn
      | full => cases hn
      | refused e1 e2 e3 e4 =>
        subst e1
        exact ⟨_, endOutcome_refused cfg _ e2, .chunks rfl rfl hhead hk hc e4⟩
    · by_cases hbad : BadLength cfg.ord m.requestMethod h hs
      · obtain ⟨o', e1, e2⟩ := bad_length_reported cfg m h w hs a b hhead hbad bufs hcut
        rw [ho] at e1
        cases e1
        rw [e2.unread]
        exact ⟨_, e2, .length rfl hhead hk hbad rfl⟩
      · exfalso
        rw [outcome_cuts cfg _ hcut (by simp [head_ne_nil hhead])] at ho
        obtain ⟨r, hr⟩ := runs_exists cfg _ (parseBegin (fresh cfg m)) (a ++ b) (Nat.le_refl _)
        rw [outcome_of_runs cfg hr] at ho
        cases ho
        rw [parseBegin_fresh cfg m hm.notMissing] at hr
        exact no_error_plain w hhead hc hbad hr hn
  · obtain ⟨o', e1, e2⟩ := refusal cfg m hm.notMissing stream (fun h hs t rest h1 h2 h3 => hex ⟨h, hs, t, rest, h1, h2, h3⟩) bufs hcut
    rw [ho] at e1
    cases e1
    rcases e2 with ⟨_, e2⟩ | ⟨read, c, rest, e, rfl, _, _, e3, e4⟩
    · rw [e2.result] at hn; cases hn
    · rw [e4.unread]
      exact ⟨e, e4, .head rfl rfl e3⟩

/-! ### Examples -/

-- chunked bodies after a usual head meet the hypotheses
theorem exSetting (n : Nat) (hn : n + 1 < 2 ^ 64) (b : Bytes) :
    Setting { reqCfg with maxContent := n } {} exampleHead chunkHeaders (wireHead exampleHead chunkHeaders) b :=
  ⟨⟨⟨rfl, rfl, rfl, rfl⟩, fun l => List.Perm.refl l, rfl, rfl, hn⟩,
    wire_in_grammar _ _ exampleSetting.headOk (chunkSetting n).headersOk _,
    (show AnnouncesChunks reqCfg.ord chunkHeaders from ⟨b! "chunked", by decide +kernel, [], [], by decide +kernel⟩)⟩

theorem size3 : SizeLine 3 (b! "3\r\n") := by
  have := SizeLine.mk (pad := []) (d := b! "3") (x := []) (by simp) (by decide) (by decide +kernel) (.blanks (by simp))
  have e : min (hexValue (b! "3")) (2 ^ 63 - 1) = 3 := by decide +kernel
  rw [e] at this
  exact this

-- a chunk that is longer than its size says
theorem exCause : BodyCause false exampleHead .chunkChar (b! "3\r\nabc") (c! "d") :=
  .chunks (.data (p := []) (line := b! "3\r\n") (d := b! "abc") .nil size3 (by decide) (by decide))

example : ∃ o, outcome { reqCfg with maxContent := 100 } (fresh { reqCfg with maxContent := 100 } {})
    [wireHead exampleHead chunkHeaders ++ (b! "3\r\nabc" ++ c! "d" :: b! "\r\n0\r\n\r\n")] = some o ∧
    Refused o .chunkChar (b! "d\r\n0\r\n\r\n") := by
  exact body_cause_reported_partial _ _ _ _ _ _ (b! "\r\n0\r\n\r\n") _ _ (exSetting 100 (by decide) _) exCause
    (fun _ h => absurd (overfull_lt h) (by decide)) _ ⟨by simp, by simp⟩

-- such a text is not a complete body
example : ∀ ds tr w rest, Chunked false (old exampleHead) ds tr w rest → b! "3\r\nabc" ++ c! "d" :: b! "\r\n" ≠ w ++ rest :=
  fun _ _ _ _ h e => cause_not_viable exCause ⟨_, _, _, _, h, b! "\r\n", by rw [← e]; rfl⟩

/-- What the parser makes of a chunked request with this body. -/
def stopBody (max : Nat) (b : Bytes) : Option Stop :=
  (outcome { reqCfg with maxContent := max } (fresh { reqCfg with maxContent := max } {}) [wireHead exampleHead chunkHeaders ++ b]).map
    fun o => ⟨o.result, o.error, o.unread⟩

example : stopBody 100 (b! "3\r\nabcd\r\n0\r\n\r\n") = some ⟨.no, some .chunkChar, b! "d\r\n0\r\n\r\n"⟩ := by decide +kernel
example : stopBody 100 (b! "x") = some ⟨.no, some .chunkChar, b! "x"⟩ := by decide +kernel
example : stopBody 100 (b! "3 x\r\nabc") = some ⟨.no, some .chunkChar, b! "x\r\nabc"⟩ := by decide +kernel
example : stopBody 100 (b! "3\r\nabc\r\n0\r\nA b: c\r\n\r\n") = some ⟨.no, some .headerChar, b! " b: c\r\n\r\n"⟩ := by decide +kernel
-- quoted extensions of a size may not hold a CR, but anything else
example : stopBody 100 (b! "3;a=\"b\"\r\nabc\r\n0\r\n") = some ⟨.more, none, []⟩ := by decide +kernel
-- with a maximum of two bytes the same text is not refused
example : Overfull 2 (b! "3\r\nabcd and so on") :=
  ⟨[], [], b! "3\r\n", b! "abc", 3, .nil, size3, by decide, ⟨b! "d and so on", by decide +kernel⟩, by decide⟩
example : stopBody 2 (b! "3\r\nabcd and so on") = some ⟨.more, none, []⟩ := by decide +kernel
example : stopBody 3 (b! "3\r\nabcd and so on") = some ⟨.no, some .chunkChar, b! "d and so on"⟩ := by decide +kernel

end Verif.Props.HttpRefusalBody
