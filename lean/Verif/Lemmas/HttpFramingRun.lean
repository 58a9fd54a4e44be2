import Verif.Lemmas.HttpFraming
/-
Trailers, and the passes of the main loop on the body of a message.
-/
namespace Verif.Http.Text

/-! ### The stored text of the head has no influence -/

/-- Replace the stored text. -/
def S.wr (w : Bytes) (s : S) : S := { s with raw := w }

theorem hswitch_wr (cfg : Cfg) (s : S) (w : Bytes) (c : UInt8) :
    hswitch cfg (S.wr w s) c = (hswitch cfg s c).map (S.wr w) := by
  have e : (S.wr w s).hs = s.hs := rfl
  cases h : s.hs <;> simp only [hswitch, h, e]
  all_goals (repeat' split)
  all_goals first | rfl | simp_all [S.wr]

theorem hswitch_withRaw (cfg : Cfg) (s : S) (w : Bytes) (c : UInt8) :
    hswitch cfg { s with raw := w } c = (hswitch cfg s c).map fun t => { t with raw := w } := hswitch_wr cfg s w c

theorem hstep_withRaw (cfg : Cfg) (s : S) (w : Bytes) (c : UInt8) :
    ∃ w', hstep cfg { s with raw := w } c = (hstep cfg s c).map fun t => { t with raw := w' } := by
  refine ⟨rawAdd cfg w [c], ?_⟩
  rw [hstep_raw, hstep_raw]
  have h1 := hswitch_withRaw cfg s (rawAdd cfg w [c]) c
  have h2 := hswitch_withRaw cfg s (rawAdd cfg s.raw [c]) c
  show hswitch cfg { s with raw := rawAdd cfg w [c] } c = _
  rw [h1, h2]
  cases hswitch cfg s c <;> rfl

theorem run_withRaw {cfg : Cfg} (buf : Bytes) : ∀ {s s' : S} {rest : Bytes} (w : Bytes),
    run (hstep cfg) s buf = (.yes, s', rest) →
    ∃ w', run (hstep cfg) { s with raw := w } buf = (.yes, { s' with raw := w' }, rest) := by
  induction buf with
  | nil => intro s s' rest w h; simp [run] at h
  | cons c buf ih =>
    intro s s' rest w h
    obtain ⟨w1, e⟩ := hstep_withRaw cfg s w c
    simp only [run] at h ⊢
    rw [e]
    cases hst : hstep cfg s c with
    | more s1 =>
      rw [hst] at h
      exact ih w1 h
    | done s1 k =>
      rw [hst] at h
      cases k <;>
      · simp only [Prod.mk.injEq, true_and] at h
        obtain ⟨rfl, rfl⟩ := h
        exact ⟨w1, rfl⟩
    | fail s1 x =>
      rw [hst] at h
      simp at h

/-! ### Trailers -/

theorem run_lines {cfg : Cfg} {o : Bool} {hs : Dict} {t rest : Bytes} (hl : Lines o hs t rest) {s r : S} (h : Ready cfg s r)
    (ho : o = (cfg.isRequest && r.msg.verMajor == 0)) :
    ∃ x w n v, run (hstep cfg) s (t ++ rest) = (.yes, { r with
      hs := x, raw := w, headerName := n, headerValue := v, msg := { r.msg with headers := r.msg.headers ++ hs } }, rest) := by
  obtain ⟨f, e, rfl, hf, he⟩ := hl
  obtain ⟨s2, n, v, p2, r2, _⟩ := steps_fields hf h ho
  obtain ⟨x, w, p3⟩ := run_end he r2 ho
  refine ⟨x, w, n, v, ?_⟩
  rw [List.append_assoc, p2, p3]

/-- The header machine on trailers. -/
theorem run_trailers {cfg : Cfg} {o : Bool} {hs : Dict} {u rest : Bytes} (hl : Lines o hs ([LF, CR] ++ u) rest) {s : S}
    (hs0 : s.hs = .headerStart) (ho : o = (cfg.isRequest && s.msg.verMajor == 0)) :
    ∃ x w n v, run (hstep cfg) s (u ++ rest) = (.yes, { s with
      hs := x, raw := w, headerName := n, headerValue := v, msg := { s.msg with headers := s.msg.headers ++ hs } }, rest) := by
  have hready : Ready cfg { s with hs := .headerWs } { s with hs := .headerWs } := by
    intro w
    constructor
    · simp [hswitch]
    · simp [hswitch, CR, LF]
  obtain ⟨x, w, n, v, e⟩ := run_lines hl hready ho
  have p := steps_lineEnd (o := o) hready ho .lfcr
  rw [List.append_assoc, p] at e
  obtain ⟨w', e'⟩ := run_withRaw _ s.raw e
  refine ⟨x, w', n, v, ?_⟩
  rw [← e']
  congr 1
  show s = _
  have : afterEnd [LF, CR] = .headerStart := by decide
  simp only [this, ← hs0]

theorem sect_sound (cfg : Cfg) (o : Bool) (hs0 : Dict) (buf : Bytes) : ∀ (s : S) (t : Bytes) (s' : S) (rest : Bytes),
    o = (cfg.isRequest && s.msg.verMajor == 0) → Sect o hs0 s t → run (hstep cfg) s buf = (.yes, s', rest) →
    ∃ hs u, t ++ buf = u ++ rest ∧ Lines o hs u rest := by
  induction buf with
  | nil => intro s t s' rest _ _ h; simp [run] at h
  | cons c buf ih =>
    intro s t s' rest ho hat h
    have hn := sect_switch cfg o hs0 { s with raw := rawAdd cfg s.raw [c] } t c ho hat
    rw [← hstep_raw] at hn
    simp only [run] at h
    cases hst : hstep cfg s c with
    | more s1 =>
      rw [hst] at h hn
      obtain ⟨hn, hh⟩ := hn
      have ho1 : o = (cfg.isRequest && s1.msg.verMajor == 0) := by
        rw [ho]
        cases hr : cfg.isRequest with
        | false => rfl
        | true =>
          simp only [headOf, hr, if_true, Head.request.injEq] at hh
          rw [hh.2.2.2.1]
      obtain ⟨hs, u, e1, e2⟩ := ih s1 (t ++ [c]) s' rest ho1 hn h
      exact ⟨hs, u, by rw [← e1]; simp, e2⟩
    | done s1 k =>
      rw [hst] at h hn
      cases k with
      | true =>
        simp only [Prod.mk.injEq, true_and] at h
        obtain ⟨rfl, rfl⟩ := h
        obtain ⟨_, hs, _, e2⟩ := hn
        exact ⟨hs, t ++ [c], by simp, e2 _⟩
      | false =>
        simp only [Prod.mk.injEq, true_and] at h
        obtain ⟨rfl, rfl⟩ := h
        obtain ⟨_, hs, _, e2⟩ := hn
        exact ⟨hs, t, by simp, e2 _⟩
    | fail s1 e =>
      rw [hst] at h
      simp at h

theorem sect_trailers {o : Bool} {s : S} (h : s.hs = .headerStart) : Sect o s.msg.headers s [LF, CR] := by
  unfold Sect
  rw [h]
  exact ⟨[], [LF, CR], ⟨[], [], [], .nil, .nil, rfl, by simp⟩, .lfcr, rfl, rfl⟩

/-! ### The passes of the main loop -/

/-- The header announces the length `n`. -/
theorem finishHeaders2_value (cfg : Cfg) {m : Msg} {h : Head} {hs : Dict} {t : Bytes} {s : S} (hd : HeadDone cfg m h hs t s)
    (hm : Blank m) (ho : OrderOk cfg.ord) (hr : cfg.isRequest = h.isRequest) (hdr : cfg.headersOnly = false)
    (hc : ¬ AnnouncesChunks cfg.ord hs) (hb : ¬ h.Bodyless m.requestMethod) {n : Nat} {v : Bytes}
    (hf : hs.find? cfg.ord (b! "Content-Length") = some v) (hl : LengthValue n v) :
    finishHeaders2 cfg s =
      if n = 0 then (.yes, { s with ms := .end_ })
      else (.more, createBuffer { s with
        ms := .content, remaining := n, msg := { s.msg with contentLength := min n cfg.maxContent } }) := by
  have hhs : s.msg.headers = hs := by rw [hd.headers, hm.noHeaders]; rfl
  have h1 : s.msg.isChunked = false := by
    rw [← Bool.not_eq_true, chunked_iff cfg hd hm]; exact hc
  have h2 : s.msg.contentLengthImplied cfg.isRequest = false := by
    rw [← Bool.not_eq_true, bodyless_iff cfg hd hr]; exact hb
  have hcast := (cast_iff v n).mpr hl
  have h3 : s.msg.headers.has (b! "Content-Length") = true := by rw [hhs]; exact has_of_find ho hf
  have h4 : s.msg.updateContentLength cfg.ord = some { s.msg with contentLength := n } := by
    simp only [Msg.updateContentLength, hhs, hf, hcast, Option.map_some]
  unfold finishHeaders2
  simp only [h1, h2, h3, h4, Bool.false_eq_true, if_false, if_true, hdr]
  split
  · rename_i h0
    simp only [h0, ← hd.contentLength, ← h1]
  · congr 4
    split <;> simp <;> omega

/-- The header cannot be read. -/
theorem finishHeaders2_bad (cfg : Cfg) {m : Msg} {h : Head} {hs : Dict} {t : Bytes} {s : S} (hd : HeadDone cfg m h hs t s)
    (hm : Blank m) (ho : OrderOk cfg.ord) (hr : cfg.isRequest = h.isRequest)
    (hc : ¬ AnnouncesChunks cfg.ord hs) (hb : ¬ h.Bodyless m.requestMethod) {v : Bytes}
    (hf : hs.find? cfg.ord (b! "Content-Length") = some v) (hl : ∀ n, ¬ LengthValue n v) :
    finishHeaders2 cfg s = (.no, { s with ec := some .invalidContentLength }) := by
  have hhs : s.msg.headers = hs := by rw [hd.headers, hm.noHeaders]; rfl
  have h1 : s.msg.isChunked = false := by
    rw [← Bool.not_eq_true, chunked_iff cfg hd hm]; exact hc
  have h2 : s.msg.contentLengthImplied cfg.isRequest = false := by
    rw [← Bool.not_eq_true, bodyless_iff cfg hd hr]; exact hb
  have hcast : lexicalCastSize (trim v) = none := by
    cases e : lexicalCastSize (trim v) with
    | none => rfl
    | some n => exact absurd ((cast_iff v n).mp e) (hl n)
  have h3 : s.msg.headers.has (b! "Content-Length") = true := by rw [hhs]; exact has_of_find ho hf
  have h4 : s.msg.updateContentLength cfg.ord = none := by
    simp only [Msg.updateContentLength, hhs, hf, hcast, Option.map_none]
  unfold finishHeaders2
  simp only [h1, h2, h3, h4, Bool.false_eq_true, if_false, if_true]

/-- The state at the end of a message. -/
structure Read (cfg : Cfg) (h : Head) (hs : Dict) (data : Bytes) (s : S) : Prop where
  ec : s.ec = none
  stored : h.StoredIn s.msg
  headers : s.msg.headers = hs
  missing : s.msg.missing = false
  fault : s.fault = none
  buffer : s.msg.contentLength = s.msg.content.length
  data : if cfg.handler then s.payload = data else s.msg.content = (data.take cfg.maxContent).map some

theorem concat_eq (s : S) (h : s.msg.chunkCache.length + 1 < 2 ^ 64) : concatenateChunks s = { s with
    msg := { s.msg with contentLength := s.msg.chunkCache.length, content := s.msg.chunkCache.map some } } := by
  unfold concatenateChunks
  rw [createBuffer_ok]
  · simp
  · unfold SIZE_MOD; simp only; omega

theorem runs_stop {cfg : Cfg} {s s' : S} {buf rest : Bytes} (h : iter cfg s buf = (.yes, s', rest)) :
    Runs cfg s buf (.yes, s', rest) := by
  have := Runs.stop (cfg := cfg) (s := s) (buf := buf) (by rw [h]; simp)
  rwa [h] at this

theorem runs_next {cfg : Cfg} {s s' : S} {buf rest : Bytes} {r : Tri × S × Bytes} (h : iter cfg s buf = (.more, s', rest))
    (hne : rest ≠ []) (hr : Runs cfg s' rest r) : Runs cfg s buf r := by
  refine .next (by rw [h]) (by rw [h]; exact hne) ?_
  rw [h]; exact hr

theorem cst_stored {h : Head} {cfg : Cfg} {s : S} {data z : Bytes} {a b : Nat} {x : CState} (hst : h.StoredIn s.msg) :
    h.StoredIn (cst cfg s data z a b x).msg := by
  unfold cst absorb
  split
  · exact hst
  · cases h <;> exact hst

theorem sizeLine_ne_nil {n : Nat} {t : Bytes} (h : SizeLine n t) : t ≠ [] := by
  cases h; simp

/-- The passes of the main loop on a chunked body. -/
theorem runs_chunked {cfg : Cfg} {m : Msg} {h : Head} {hs : Dict} {t : Bytes} {s : S} (hd : HeadDone cfg m h hs t s)
    (hm : Blank m) (hr : cfg.isRequest = h.isRequest) (hmax : cfg.maxContent + 1 < 2 ^ 64)
    {ds : List Bytes} {tr : Dict} {b rest : Bytes} (hb : Chunked cfg.handler (old h) ds tr b rest)
    (hfit : cfg.handler = false → ds.flatten.length ≤ cfg.maxContent) :
    b ++ rest ≠ [] ∧ ∃ s', Runs cfg { s with ms := .chunks } (b ++ rest) (.yes, s', rest) ∧ Read cfg h (hs ++ tr) ds.flatten s' := by
  cases hb with
  | mk h1 h2 h3 =>
    rename_i p line e
    refine ⟨by simp [sizeLine_ne_nil h2], ?_⟩
    have hhs : s.msg.headers = hs := by rw [hd.headers, hm.noHeaders]; rfl
    have hmiss : s.msg.missing = false := by rw [hd.missing, hm.notMissing]
    have hcache : s.msg.chunkCache = [] := by rw [hd.chunkCache, hm.noCache]
    have hcont : s.msg.content = [] := by rw [hd.content, hm.noContent]
    generalize hs2 : ({ s with ms := .chunks } : S).setL 0 = s2
    have hroom : room cfg s2 ds.flatten.length := by
      intro hh
      rw [← hs2]
      simp only [S.setL, hcache, List.length_nil, Nat.zero_add]
      exact hfit hh
    obtain ⟨z, hst⟩ := steps_lastLine cfg s2 (by rw [← hs2]; exact hd.cs) h1 h2 hroom
    have hstored : ∀ x, h.StoredIn (cst cfg s2 ds.flatten z 0 0 x).msg := fun x => cst_stored (by rw [← hs2]; exact hd.stored)
    have hi := iter_chunks cfg { s with ms := .chunks } (p ++ line ++ e ++ rest) rfl
    rw [parseChunks_eq, hs2, List.append_assoc (p ++ line), hst] at hi
    have hrun : ∀ {s' rest'}, run (cbyte cfg) (cst cfg s2 ds.flatten z 0 0 .expFinalCrOrFooters) (e ++ rest) =
        (.yes, s', rest') → ∃ k a c, iter cfg { s with ms := .chunks } (p ++ line ++ e ++ rest) =
          postC cfg (.yes, s'.upd k a c, rest') := by
      intro s' rest' hr
      rw [hr] at hi
      simp only [count, reduceCtorEq, if_false] at hi
      rw [List.append_assoc (p ++ line)]
      exact ⟨_, _, _, hi⟩
    clear hi
    cases h3 with
    | empty =>
      obtain ⟨k, a, c, hi⟩ := hrun (run_empty cfg s2 ds.flatten z rest)
      cases hh : cfg.handler with
      | true =>
        simp only [postC, hh, reduceCtorEq, and_false, if_false] at hi
        refine ⟨_, runs_stop hi, ?_⟩
        refine ⟨?_, hstored .expFinalLf, ?_, ?_, ?_, ?_, ?_⟩
        all_goals simp only [cst, absorb, hh, if_true, S.upd, ← hs2, S.setL]
        · exact hd.ec
        · rw [hhs]; simp
        · exact hmiss
        · exact hd.fault
        · rw [hd.contentLength, hcont]; rfl
        · rw [hd.payload]; simp
      | false =>
        have hl := hfit hh
        have hcc : ((cst cfg s2 ds.flatten z 0 0 .expFinalLf).upd k a c).msg.chunkCache = ds.flatten := by
          simp [cst, absorb, hh, S.upd, ← hs2, S.setL, hcache]
        simp only [postC, hh, and_self, if_true] at hi
        rw [concat_eq _ (by rw [hcc]; omega), hcc] at hi
        have hms : (cst cfg s2 ds.flatten z 0 0 .expFinalLf).ms = .chunks := by
          simp [cst, absorb, hh, ← hs2, S.setL]
        simp only [S.upd, hms, reduceCtorEq, if_false] at hi
        refine ⟨_, runs_stop hi, ?_⟩
        refine ⟨?_, ?_, ?_, ?_, ?_, ?_, ?_⟩
        · simp only [cst, absorb, hh, ← hs2, S.setL]; exact hd.ec
        · have := hstored .expFinalLf; cases h <;> exact this
        · simp only [cst, absorb, hh, ← hs2, S.setL]; rw [← hhs]; simp
        · simp only [cst, absorb, hh, ← hs2, S.setL]; exact hmiss
        · simp only [cst, absorb, hh, ← hs2, S.setL]; exact hd.fault
        · simp only [List.length_map]
        · rw [hh, List.take_of_length_le hl]; rfl
    | ignored hh hne =>
      rename_i c rest
      obtain ⟨k, a, c', hi⟩ := hrun (run_footers cfg s2 ds.flatten z rest c hne)
      simp only [postC, hh, reduceCtorEq, and_false, if_false] at hi
      refine ⟨_, runs_stop hi, ?_⟩
      refine ⟨?_, hstored .expFinalCrOrFooters, ?_, ?_, ?_, ?_, ?_⟩
      all_goals simp only [cst, absorb, hh, if_true, S.upd, ← hs2, S.setL]
      · exact hd.ec
      · rw [hhs]; simp
      · exact hmiss
      · exact hd.fault
      · rw [hd.contentLength, hcont]; rfl
      · rw [hd.payload]; simp
    | trailers hh hne hl =>
      rename_i c u
      obtain ⟨k, a, c', hi⟩ := hrun (run_footers cfg s2 ds.flatten z (u ++ rest) c hne)
      have hl' := hfit hh
      generalize hx : ({ cst cfg s2 ds.flatten z 0 0 .expFinalCrOrFooters with ms := .footers, hs := .headerStart } : S).upd k a c'
        = x at hi
      have hcc : x.msg.chunkCache = ds.flatten := by
        simp [← hx, cst, absorb, hh, S.upd, ← hs2, S.setL, hcache]
      have hms : x.ms = .footers := by rw [← hx]; rfl
      have hxs : x.hs = .headerStart := by rw [← hx]; rfl
      simp only [postC, hh, and_self, if_true] at hi
      rw [concat_eq _ (by rw [hcc]; omega), hcc] at hi
      simp only [hms, if_true] at hi
      generalize hy : ({ x with msg := { x.msg with
        contentLength := ds.flatten.length, content := ds.flatten.map some } } : S) = y
      have hy' : ({ x with ms := .footers, msg := { x.msg with
        contentLength := ds.flatten.length, content := ds.flatten.map some } } : S) = y := by rw [← hy, ← hms]
      have hi2 := iter_headers cfg y (c :: u ++ rest) (.inr (.inr (by rw [← hy]; exact hms)))
      have hent : enterH y = y := by unfold enterH; rw [← hy, if_neg (by rw [hms]; simp)]
      have hold : old h = (cfg.isRequest && (y.setL 0).msg.verMajor == 0) := by
        have hv : (y.setL 0).msg.verMajor = s.msg.verMajor := by
          simp [← hy, ← hx, S.upd, cst, absorb, hh, ← hs2, S.setL]
        rw [hv, hr]
        have := hd.stored
        cases h with
        | request => simp only [Head.isRequest, old, Bool.true_and]; rw [this.2.2.2.2.1]
        | response => rfl
      obtain ⟨q, w, n, v, e⟩ := run_trailers (cfg := cfg) (s := y.setL 0) hl (by rw [← hy]; exact hxs) hold
      rw [hent, parseHeaders_eq, e] at hi2
      have hyms : y.ms = .footers := by rw [← hy]; exact hms
      simp only [count, reduceCtorEq, if_false, Bool.false_eq_true, postH, S.upd, S.setL, hyms, and_false] at hi2
      rw [hy'] at hi
      refine ⟨_, runs_next hi (by simp) (runs_stop hi2), ?_⟩
      have hst' := hstored .expFinalCrOrFooters
      have hyst : h.StoredIn y.msg := by
        rw [← hy, ← hx]
        cases h <;> exact hst'
      have hym : y.msg.headers = hs ∧ y.msg.missing = false ∧ y.ec = none ∧ y.fault = none ∧
          y.msg.contentLength = ds.flatten.length ∧ y.msg.content = ds.flatten.map some := by
        rw [← hy, ← hx]
        simp only [S.upd, cst, absorb, hh, ← hs2, S.setL, Bool.false_eq_true, if_false]
        exact ⟨hhs, hmiss, hd.ec, hd.fault, trivial, trivial⟩
      obtain ⟨y1, y2, y3, y4, y5, y6⟩ := hym
      refine ⟨y3, ?_, ?_, y2, y4, ?_, ?_⟩
      · cases h <;> exact hyst
      · simp only [y1]
      · simp only [y5, y6, List.length_map]
      · rw [hh, List.take_of_length_le hl']; exact y6

/-- How the parser reads. -/
def reading (cfg : Cfg) (m : Msg) : Reading := ⟨cfg.ord, m.requestMethod, cfg.handler, cfg.maxContent⟩

/-- The circumstances: a new message, a parser of whole messages. -/
structure Whole (cfg : Cfg) (m : Msg) (h : Head) : Prop where
  blank : Blank m
  order : OrderOk cfg.ord
  kind : cfg.isRequest = h.isRequest
  notHeadersOnly : cfg.headersOnly = false
  max : cfg.maxContent + 1 < 2 ^ 64

/-- The passes of the main loop on a body of the grammar. -/
theorem runs_body {cfg : Cfg} {m : Msg} {h : Head} {hs : Dict} {t : Bytes} {s : S} (hd : HeadDone cfg m h hs t s)
    (w : Whole cfg m h) {data : Bytes} {tr : Dict} {b rest : Bytes} (hb : Body (reading cfg m) h hs data tr b rest) :
    ∃ s', Read cfg h (hs ++ tr) data s' ∧ ((finishHeaders2 cfg s = (.yes, s') ∧ b = []) ∨
      ∃ s1, finishHeaders2 cfg s = (.more, s1) ∧ b ++ rest ≠ [] ∧ Runs cfg s1 (b ++ rest) (.yes, s', rest)) := by
  have hhs : s.msg.headers = hs := by rw [hd.headers, w.blank.noHeaders]; rfl
  have hmiss : s.msg.missing = false := by rw [hd.missing, w.blank.notMissing]
  have hcont : s.msg.content = [] := by rw [hd.content, w.blank.noContent]
  have hplain : ∀ x, Read cfg h (hs ++ []) [] { s with ms := x } := by
    intro x
    refine ⟨hd.ec, hd.stored, by rw [List.append_nil]; exact hhs, hmiss, hd.fault, by simp [hd.contentLength, hcont], ?_⟩
    split
    · exact hd.payload
    · simpa using hcont
  cases hb with
  | none h1 h2 =>
    by_cases hbl : h.Bodyless m.requestMethod
    · exact ⟨_, hplain _, .inl ⟨finishHeaders2_bodyless cfg hd w.blank w.kind h1 hbl, rfl⟩⟩
    · have h2 := h2.resolve_left hbl
      have e := finishHeaders2_plain cfg hd w.blank w.order w.kind w.notHeadersOnly h1 hbl h2.2
      rw [if_pos (by rw [w.kind]; exact h2.1)] at e
      exact ⟨_, hplain _, .inl ⟨e, rfl⟩⟩
  | length h1 h2 h3 h4 =>
    rename_i v
    have e := finishHeaders2_value cfg hd w.blank w.order w.kind w.notHeadersOnly h1 h2 h3 h4
    by_cases h0 : data.length = 0
    · have hb : data = [] := List.length_eq_zero_iff.mp h0
      subst hb
      rw [if_pos h0] at e
      exact ⟨_, hplain _, .inl ⟨e, rfl⟩⟩
    · have hne : data ≠ [] := by rintro rfl; exact h0 rfl
      rw [if_neg h0, createBuffer_ok _ (by
        have := w.max
        unfold SIZE_MOD
        simp only
        omega)] at e
      cases hh : cfg.handler with
      | true =>
        refine ⟨_, ?_, .inr ⟨_, e, by simp [hne], runs_stop
          (iter_content_handler cfg _ (by rfl) hh data rest (by rfl) hne (by exact hd.contentRead))⟩⟩
        refine ⟨hd.ec, ?_, by rw [List.append_nil]; exact hhs, hmiss, hd.fault, by simp, ?_⟩
        · have := hd.stored; cases h <;> exact this
        · rw [if_pos hh]; simp [hd.payload]
      | false =>
        refine ⟨_, ?_, .inr ⟨_, e, by simp [hne], runs_stop
          (iter_content cfg _ (by rfl) hh data rest (by rfl) hne (by exact hd.contentRead) (by simp))⟩⟩
        refine ⟨hd.ec, ?_, by rw [List.append_nil]; exact hhs, hmiss, hd.fault, by simp [Nat.min_comm], ?_⟩
        · have := hd.stored; cases h <;> exact this
        · rw [if_neg (by simp [hh])]
  | chunks h1 h2 h3 =>
    obtain ⟨hne, s', h4, h5⟩ := runs_chunked hd w.blank w.kind w.max h2 h3
    exact ⟨s', h5, .inr ⟨_, finishHeaders2_chunks cfg hd w.blank w.notHeadersOnly h1, hne, h4⟩⟩

/-! ### Nothing else -/

theorem lineEnd_pos {o : Bool} {le : Bytes} (h : LineEnd o le) : 1 ≤ le.length := by cases h <;> simp

theorem emptyLine_pos {le e rest : Bytes} (h : EmptyLine le e rest) : 1 ≤ e.length := by cases h <;> simp

/-- A line end is not a complete text of lines. -/
theorem lines_long {o : Bool} {hs : Dict} {t rest : Bytes} (h : Lines o hs t rest) : 2 ≤ t.length ∧ t ≠ [LF, CR] := by
  obtain ⟨f, e, rfl, _, he⟩ := h
  cases he with
  | empty hg hl hm =>
    rename_i g le e
    have h1 := lineEnd_pos hl
    have h2 := emptyLine_pos hm
    refine ⟨by simp only [List.length_append]; omega, fun heq => ?_⟩
    have hlen := congrArg List.length heq
    simp only [List.length_append, List.length_cons, List.length_nil] at hlen
    have hf : f = [] := List.length_eq_zero_iff.mp (by omega)
    have hg0 : g = [] := List.length_eq_zero_iff.mp (by omega)
    subst hf hg0
    simp only [List.nil_append] at heq
    cases hm with
    | cr => revert heq; decide
    | lf => revert heq; decide
    | crlf hx => omega
    | lfcr hx => omega
    | cr1 hx => omega
    | lf1 hx => omega
  | old _ hg =>
    rename_i g _
    refine ⟨by simp only [List.length_append, List.length_cons, List.length_nil]; omega, fun heq => ?_⟩
    have hlen := congrArg List.length heq
    simp only [List.length_append, List.length_cons, List.length_nil] at hlen
    have hf : f = [] := List.length_eq_zero_iff.mp (by omega)
    have hg0 : g = [] := List.length_eq_zero_iff.mp (by omega)
    subst hf hg0
    revert heq; decide

theorem runs_yes {cfg : Cfg} {s s' : S} {buf rest : Bytes} (h : Runs cfg s buf (.yes, s', rest)) :
    iter cfg s buf = (.yes, s', rest) ∨
      ∃ s1 r1, iter cfg s buf = (.more, s1, r1) ∧ r1 ≠ [] ∧ Runs cfg s1 r1 (.yes, s', rest) := by
  generalize hr : ((.yes, s', rest) : Tri × S × Bytes) = r at h ⊢
  cases h with
  | stop => exact .inl rfl
  | next h1 h2 h3 =>
    refine .inr ⟨_, _, ?_, h2, h3⟩
    rw [← h1]

theorem count_yes {b : Bool} {buf : Bytes} {r : Tri × S × Bytes} {rc : Tri} {s' : S} {rest : Bytes}
    (h : count b buf r = (rc, s', rest)) (hn : rc ≠ .no) : ∃ k a c x, r = (rc, x, rest) ∧ s' = x.upd k a c := by
  obtain ⟨rc', x, rest'⟩ := r
  cases rc' with
  | no => simp only [count, if_true, Prod.mk.injEq] at h; exact absurd h.1.symm hn
  | yes =>
    simp only [count, reduceCtorEq, if_false, Prod.mk.injEq] at h
    obtain ⟨rfl, rfl, rfl⟩ := h
    exact ⟨_, _, _, x, rfl, rfl⟩
  | more =>
    simp only [count, reduceCtorEq, if_false, Prod.mk.injEq] at h
    obtain ⟨rfl, rfl, rfl⟩ := h
    exact ⟨_, _, _, x, rfl, rfl⟩

/-- If the main loop reports the end of a chunked body, it has read one of the grammar. -/
theorem chunked_sound {cfg : Cfg} {m : Msg} {h : Head} {hs : Dict} {t : Bytes} {s : S} (hd : HeadDone cfg m h hs t s)
    (hm : Blank m) (hr : cfg.isRequest = h.isRequest) (hmax : cfg.maxContent + 1 < 2 ^ 64) {buf rest : Bytes} {s' : S}
    (hb : Runs cfg { s with ms := .chunks } buf (.yes, s', rest)) :
    ∃ ds tr b, buf = b ++ rest ∧ Chunked cfg.handler (old h) ds tr b rest ∧
      (cfg.handler = false → ds.flatten.length ≤ cfg.maxContent) := by
  have hcache : s.msg.chunkCache = [] := by rw [hd.chunkCache, hm.noCache]
  generalize hs2 : ({ s with ms := .chunks } : S).setL 0 = s2
  have hat : CAt cfg s2 s2 [] := by
    refine ⟨[], _, _, _, _, cst_nil cfg s2, ?_, ?_⟩
    · intro hh; simp [← hs2, S.setL, hcache]
    · rw [show s2.cs = .sizeStart by rw [← hs2]; exact hd.cs]
      exact ⟨[], [], [], .nil, by simp [Pad], rfl, rfl⟩
  have hfit : ∀ {n}, room cfg s2 n → cfg.handler = false → n ≤ cfg.maxContent := by
    intro n hroom hh
    have := hroom hh
    rw [← hs2] at this
    simpa [S.setL, hcache] using this
  have hi := iter_chunks cfg { s with ms := .chunks } buf rfl
  rw [parseChunks_eq, hs2] at hi
  cases hrun : run (cbyte cfg) s2 buf with
  | mk rc q =>
    obtain ⟨x, r⟩ := q
    rw [hrun] at hi
    cases rc with
    | no =>
      simp only [count, postC, reduceCtorEq, false_and, if_false, if_true] at hi
      rcases runs_yes hb with h1 | ⟨_, _, h1, _⟩ <;> rw [hi] at h1 <;> simp at h1
    | more =>
      have hrest : r = [] := by
        have := run_more_rest (cbyte cfg) s2 buf (by rw [hrun])
        rw [hrun] at this; exact this
      subst hrest
      simp only [count, postC, reduceCtorEq, false_and, if_false] at hi
      rcases runs_yes hb with h1 | ⟨_, _, h1, h2, _⟩
      · rw [hi] at h1; simp at h1
      · rw [hi] at h1; simp only [Prod.mk.injEq, true_and] at h1; exact absurd h1.2.symm h2
    | yes =>
      obtain ⟨ds, p, line, g1, g2, g3, g4⟩ := chunks_sound cfg s2 buf s2 [] x r hat hrun
      simp only [List.nil_append] at g4
      simp only [count, reduceCtorEq, if_false, if_true] at hi
      cases hh : cfg.handler with
      | true =>
        simp only [postC, hh, reduceCtorEq, and_false, if_false] at hi
        have hrest : r = rest := by
          rcases runs_yes hb with h1 | ⟨_, _, h1, _⟩
          · rw [hi] at h1; simp only [Prod.mk.injEq, true_and] at h1; exact h1.2
          · rw [hi] at h1; simp at h1
        subst hrest
        rcases g4 with g4 | ⟨g4, c, r', rfl, g5⟩
        · exact ⟨ds, [], p ++ line ++ [CR, LF], g4, .mk g1 g2 .empty, fun h => nomatch h⟩
        · exact ⟨ds, [], p ++ line ++ [], by simpa using g4, .mk g1 g2 (.ignored rfl g5), fun h => nomatch h⟩
      | false =>
        have hle := hfit g3 hh
        -- what the machine did, by completeness
        obtain ⟨z, hst⟩ := steps_lastLine cfg s2 (by rw [← hs2]; exact hd.cs) g1 g2 g3
        rcases g4 with g4 | ⟨g4, c, r', rfl, g5⟩
        · have hx : x = cst cfg s2 ds.flatten z 0 0 .expFinalLf := by
            rw [g4, List.append_assoc (p ++ line), hst, run_empty] at hrun
            simp only [Prod.mk.injEq, true_and, and_true] at hrun
            exact hrun.symm
          have hms : x.ms = .chunks := by rw [hx]; simp [cst, absorb, hh, ← hs2, S.setL]
          have hcc : x.msg.chunkCache = ds.flatten := by rw [hx]; simp [cst, absorb, hh, ← hs2, S.setL, hcache]
          simp only [postC, hh, and_self, if_true] at hi
          rw [concat_eq _ (by simp only [S.upd, hcc]; omega)] at hi
          simp only [S.upd, hms, reduceCtorEq, if_false] at hi
          have hrest : r = rest := by
            rcases runs_yes hb with h1 | ⟨_, _, h1, _⟩
            · rw [hi] at h1; simp only [Prod.mk.injEq, true_and] at h1; exact h1.2
            · rw [hi] at h1; simp at h1
          subst hrest
          exact ⟨ds, [], p ++ line ++ [CR, LF], g4, .mk g1 g2 .empty, fun _ => hle⟩
        · have hx : x = { cst cfg s2 ds.flatten z 0 0 .expFinalCrOrFooters with ms := .footers, hs := .headerStart } := by
            rw [g4, hst, run_footers _ _ _ _ _ _ g5] at hrun
            simp only [Prod.mk.injEq, true_and, and_true] at hrun
            exact hrun.symm
          have hms : x.ms = .footers := by rw [hx]
          have hxs : x.hs = .headerStart := by rw [hx]
          have hcc : x.msg.chunkCache = ds.flatten := by rw [hx]; simp [cst, absorb, hh, ← hs2, S.setL, hcache]
          have hver : x.msg.verMajor = s.msg.verMajor := by rw [hx]; simp [cst, absorb, hh, ← hs2, S.setL]
          simp only [postC, hh, and_self, if_true] at hi
          rw [concat_eq _ (by simp only [S.upd, hcc]; omega)] at hi
          simp only [S.upd, hms, if_true] at hi
          generalize hy : ({ x with ms := .footers, lastRead := buf.length - (c :: r').length, totalRead := x.totalRead + (buf.length - (c :: r').length), contentRead := x.contentRead + (buf.length - (c :: r').length), msg := { x.msg with
            contentLength := x.msg.chunkCache.length, content := x.msg.chunkCache.map some } } : S) = y at hi
          have hy1 : y.ms = .footers := by rw [← hy]
          have hy2 : (y.setL 0).hs = .headerStart := by rw [← hy]; exact hxs
          have hy3 : (y.setL 0).msg.verMajor = s.msg.verMajor := by rw [← hy]; exact hver
          have hold : old h = (cfg.isRequest && (y.setL 0).msg.verMajor == 0) := by
            rw [hy3, hr]
            have := hd.stored
            cases h with
            | request => simp only [Head.isRequest, old, Bool.true_and]; rw [this.2.2.2.2.1]
            | response => rfl
          rcases runs_yes hb with h1 | ⟨s1, r1, h1, h2, h3⟩
          · rw [hi] at h1; simp at h1
          · rw [hi] at h1
            simp only [Prod.mk.injEq, true_and] at h1
            obtain ⟨rfl, rfl⟩ := h1
            have hi2 := iter_headers cfg y (c :: r') (.inr (.inr hy1))
            have hent : enterH y = y := by unfold enterH; rw [if_neg (by rw [hy1]; simp)]
            rw [hent, parseHeaders_eq] at hi2
            cases hrun2 : run (hstep cfg) (y.setL 0) (c :: r') with
            | mk rc2 q2 =>
              obtain ⟨x2, r2⟩ := q2
              rw [hrun2] at hi2
              cases rc2 with
              | no =>
                simp only [count, postH, reduceCtorEq, false_and, if_false, if_true] at hi2
                rcases runs_yes h3 with h1 | ⟨_, _, h1, _⟩ <;> rw [hi2] at h1 <;> simp at h1
              | more =>
                have hrest : r2 = [] := by
                  have := run_more_rest (hstep cfg) (y.setL 0) (c :: r') (by rw [hrun2])
                  rw [hrun2] at this; exact this
                subst hrest
                simp only [count, postH, reduceCtorEq, false_and, if_false] at hi2
                rcases runs_yes h3 with h1 | ⟨_, _, h1, h2, _⟩
                · rw [hi2] at h1; simp at h1
                · rw [hi2] at h1; simp only [Prod.mk.injEq, true_and] at h1; exact absurd h1.2.symm h2
              | yes =>
                obtain ⟨tr, u, e1, e2⟩ := sect_sound cfg (old h) (y.setL 0).msg.headers (c :: r') (y.setL 0) [LF, CR] x2 r2 hold
                  (sect_trailers hy2) hrun2
                have hlong := lines_long e2
                obtain ⟨u', rfl⟩ : ∃ u', u = [LF, CR] ++ u' := by
                  match u, hlong.1, e1 with
                  | a :: b :: u', _, e1 =>
                    simp only [List.cons_append, List.nil_append, List.cons.injEq] at e1
                    exact ⟨u', by rw [e1.1, e1.2.1]; rfl⟩
                rw [List.append_assoc] at e1
                have e1 := List.append_cancel_left e1
                cases u' with
                | nil => exact absurd rfl hlong.2
                | cons d u' =>
                  simp only [List.cons_append, List.cons.injEq] at e1
                  obtain ⟨rfl, rfl⟩ := e1
                  obtain ⟨q, w, n, v, e⟩ := run_trailers (cfg := cfg) (s := y.setL 0) e2 hy2 hold
                  have hx2 : x2.ms = .footers := by
                    have e' : c :: u' ++ r2 = c :: (u' ++ r2) := rfl
                    rw [e', hrun2] at e
                    simp only [Prod.mk.injEq, true_and, and_true] at e
                    rw [e]; exact hy1
                  simp only [count, postH, reduceCtorEq, if_false, S.upd, hx2, and_false] at hi2
                  have hrest : r2 = rest := by
                    rcases runs_yes h3 with h1 | ⟨_, _, h1, _⟩
                    · rw [hi2] at h1; simp only [Prod.mk.injEq, true_and] at h1; exact h1.2
                    · rw [hi2] at h1; simp at h1
                  subst hrest
                  exact ⟨ds, tr, p ++ line ++ c :: u', by rw [g4]; simp, .mk g1 g2 (.trailers rfl g5 e2), fun _ => hle⟩

theorem consumeAsNextChunk_rest (cfg : Cfg) (s : S) (buf : Bytes) : (consumeAsNextChunk cfg s buf).2 = [] := by
  unfold consumeAsNextChunk
  split
  · rename_i h; simpa using h
  · rfl

/-- If the main loop reports the end of a message, the body is one of the grammar. -/
theorem body_sound {cfg : Cfg} {m : Msg} {h : Head} {hs : Dict} {t : Bytes} {s : S} (hd : HeadDone cfg m h hs t s)
    (w : Whole cfg m h) {buf rest : Bytes} {s' : S}
    (hb : (finishHeaders2 cfg s).1 = .yes ∧ buf = rest ∨
      (finishHeaders2 cfg s).1 = .more ∧ Runs cfg (finishHeaders2 cfg s).2 buf (.yes, s', rest)) :
    ∃ data tr b, buf = b ++ rest ∧ Body (reading cfg m) h hs data tr b rest := by
  by_cases hc : AnnouncesChunks cfg.ord hs
  · rw [finishHeaders2_chunks cfg hd w.blank w.notHeadersOnly hc] at hb
    rcases hb with ⟨hb, _⟩ | ⟨_, hb⟩
    · exact nomatch hb
    · obtain ⟨ds, tr, b, e, h1, h2⟩ := chunked_sound hd w.blank w.kind w.max hb
      exact ⟨_, tr, b, e, .chunks hc h1 h2⟩
  · by_cases hbl : h.Bodyless m.requestMethod
    · rw [finishHeaders2_bodyless cfg hd w.blank w.kind hc hbl] at hb
      rcases hb with ⟨_, rfl⟩ | ⟨hb, _⟩
      · exact ⟨[], [], [], rfl, .none hc (.inl hbl)⟩
      · exact nomatch hb
    · cases hf : hs.find? cfg.ord (b! "Content-Length") with
      | none =>
        rw [finishHeaders2_plain cfg hd w.blank w.order w.kind w.notHeadersOnly hc hbl hf] at hb
        by_cases hreq : cfg.isRequest = true
        · rw [if_pos hreq] at hb
          rcases hb with ⟨_, rfl⟩ | ⟨hb, _⟩
          · exact ⟨[], [], [], rfl, .none hc (.inr ⟨by rw [← w.kind]; exact hreq, hf⟩)⟩
          · exact nomatch hb
        · rw [if_neg hreq] at hb
          rcases hb with ⟨hb, _⟩ | ⟨_, hb⟩
          · exact nomatch hb
          · exfalso
            generalize hs1 : ({ s with msg := { s.msg with chunkCache := [] }, ms := .noLength } : S) = s1 at hb
            have hms : s1.ms = .noLength := by rw [← hs1]
            have hi : ∃ x, iter cfg s1 buf = (.more, x, []) := by
              unfold iter
              simp only [hms]
              exact ⟨_, by rw [consumeAsNextChunk_rest]⟩
            obtain ⟨x, hi⟩ := hi
            rcases runs_yes hb with h1 | ⟨_, _, h1, h2, _⟩
            · rw [hi] at h1; simp at h1
            · rw [hi] at h1; simp only [Prod.mk.injEq, true_and] at h1; exact absurd h1.2.symm h2
      | some v =>
        by_cases hl : ∃ n, LengthValue n v
        · obtain ⟨n, hl⟩ := hl
          have e := finishHeaders2_value cfg hd w.blank w.order w.kind w.notHeadersOnly hc hbl hf hl
          rw [e] at hb
          by_cases h0 : n = 0
          · rw [if_pos h0] at hb
            rcases hb with ⟨_, rfl⟩ | ⟨hb, _⟩
            · exact ⟨[], [], [], rfl, .length hc hbl hf (by rw [h0] at hl; exact hl)⟩
            · exact nomatch hb
          · rw [if_neg h0, createBuffer_ok _ (by
              have := w.max
              unfold SIZE_MOD
              simp only
              omega)] at hb
            rcases hb with ⟨hb, _⟩ | ⟨_, hb⟩
            · exact nomatch hb
            · simp only at hb
              generalize hs1 : ({ s with
                ms := .content, remaining := n, msg := { s.msg with
                  contentLength := min n cfg.maxContent,
                  content := List.replicate (min n cfg.maxContent) none } } : S) = s1 at hb
              have hms : s1.ms = .content := by rw [← hs1]
              have hrem : s1.remaining = n := by rw [← hs1]
              have hi : iter cfg s1 buf = consumeContent cfg s1 buf := by
                unfold iter; simp only [hms]
              rw [consumeContent_eq, hrem] at hi
              by_cases hle : n ≤ buf.length
              · refine ⟨_, [], buf.take n, ?_, .length hc hbl hf (by rw [List.length_take, Nat.min_eq_left hle]; exact hl)⟩
                rw [if_neg (by omega)] at hi
                simp only [Nat.min_eq_left hle, hle, if_true] at hi
                have : rest = buf.drop n := by
                  rcases runs_yes hb with h1 | ⟨_, _, h1, _⟩
                  · rw [hi] at h1; simp only [Prod.mk.injEq, true_and] at h1; exact h1.2.symm
                  · rw [hi] at h1; simp at h1
                rw [this, List.take_append_drop]
              · exfalso
                rw [if_neg (by omega)] at hi
                simp only [Nat.min_eq_right (Nat.le_of_lt (Nat.lt_of_not_le hle)), hle, if_false, List.drop_length] at hi
                rcases runs_yes hb with h1 | ⟨_, _, h1, h2, _⟩
                · rw [hi] at h1; simp at h1
                · rw [hi] at h1; simp only [Prod.mk.injEq, true_and] at h1; exact absurd h1.2.symm h2
        · have hbad := finishHeaders2_bad cfg hd w.blank w.order w.kind hc hbl hf (fun n hn => hl ⟨n, hn⟩)
          rw [hbad] at hb
          rcases hb with ⟨hb, _⟩ | ⟨hb, _⟩ <;> exact nomatch hb

end Verif.Http.Text
