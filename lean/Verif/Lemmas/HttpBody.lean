import Verif.Lemmas.HttpHead
/-
What the parser does with bodies: of known length, chunked, and up to the end of the stream.
-/
namespace Verif.Http

/-! ### The end of a message -/

theorem finishForm_form (cfg : Cfg) (s : S) : ∃ q f,
    finishForm cfg s = { s with msg := { s.msg with queries := q }, fault := f } ∧
      (s.msg.contentLength ≤ s.msg.content.length → f = s.fault ∨ f = some .multipart) := by
  unfold finishForm
  dsimp only
  split
  · split
    · split
      · exact ⟨_, _, rfl, fun _ => by omega⟩
      · exact ⟨_, _, rfl, fun _ => .inl rfl⟩
    split
    · split
      · exact ⟨_, _, rfl, fun _ => by omega⟩
      · split
        · exact ⟨_, _, rfl, fun _ => .inl rfl⟩
        · exact ⟨_, _, rfl, fun _ => .inr rfl⟩
    · exact ⟨_, _, rfl, fun _ => .inl rfl⟩
  · exact ⟨_, _, rfl, fun _ => .inl rfl⟩

/-- Everything but the query parameters and the fault flag of a completed message is known. -/
theorem parseEnd_yes (cfg : Cfg) (s : S) : ∃ q f, parseEnd cfg .yes s 0 =
    { s with
        ms := .end_, lastRead := 0, fault := f,
        msg := { computeStatus { s.msg with isValid := true } true with queries := q } } ∧
      (s.msg.contentLength ≤ s.msg.content.length → f = s.fault ∨ f = some .multipart) := by
  obtain ⟨q, f, e, hf⟩ := finishForm_form cfg { s with ms := .end_, msg := computeStatus { s.msg with isValid := true } true }
  refine ⟨q, f, ?_, hf⟩
  unfold parseEnd
  simp only
  rw [finish_end, e]

/-- Without form data nothing is added. -/
theorem parseEnd_handler (cfg : Cfg) (s : S) (h : cfg.isRequest = false ∨ cfg.handler = true) : parseEnd cfg .yes s 0 =
    { s with ms := .end_, lastRead := 0, msg := computeStatus { s.msg with isValid := true } true } := by
  unfold parseEnd
  simp only
  rw [finish_end]
  unfold finishForm
  rcases h with h | h <;> simp [h]

/-! ### Headers found -/

theorem has_of_find {ord : Dict.Order} (ho : OrderOk ord) {d : Dict} {k v : Bytes} (h : d.find? ord k = some v) :
    d.has k = true := by
  unfold Dict.find? at h
  have hmem : v ∈ ord (d.values k) := List.mem_of_mem_head? h
  have hmem := (ho (d.values k)).mem_iff.mp hmem
  simp only [Dict.values, List.mem_map, List.mem_filter] at hmem
  obtain ⟨e, ⟨he, hk⟩, _⟩ := hmem
  simp only [Dict.has, List.any_eq_true]
  exact ⟨e, he, hk⟩

theorem has_of_find_none {ord : Dict.Order} (ho : OrderOk ord) {d : Dict} {k : Bytes} (h : d.find? ord k = none) :
    d.has k = false := by
  unfold Dict.find? at h
  have hnil : ord (d.values k) = [] := List.head?_eq_none_iff.mp h
  have hperm := ho (d.values k)
  rw [hnil] at hperm
  have hv : d.values k = [] := hperm.symm.eq_nil
  simp only [Dict.values, List.map_eq_nil_iff, List.filter_eq_nil_iff] at hv
  simp only [Dict.has, List.any_eq_false]
  exact hv

theorem findSub_isSome (pat : Bytes) (hp : pat ≠ []) (s : Bytes) :
    (findSub pat s).isSome = true ↔ ∃ a b, s = a ++ pat ++ b := by
  induction s with
  | nil =>
    simp only [findSub, List.isEmpty_iff, hp, if_false, Option.isSome_none, Bool.false_eq_true, false_iff]
    rintro ⟨a, b, h⟩
    simp at h
    exact hp h.2.1
  | cons c r ih =>
    simp only [findSub]
    split
    · rename_i h
      simp only [Option.isSome_some, true_iff]
      obtain ⟨t, ht⟩ := List.isPrefixOf_iff_prefix.mp h
      exact ⟨[], t, by simp [ht]⟩
    · rename_i h
      rw [Option.isSome_map, ih]
      constructor
      · rintro ⟨a, b, e⟩; exact ⟨c :: a, b, by simp [e]⟩
      · rintro ⟨a, b, e⟩
        cases a with
        | nil =>
          exact absurd (List.isPrefixOf_iff_prefix.mpr ⟨b, by simpa using e.symm⟩) h
        | cons x a =>
          simp only [List.cons_append, List.cons.injEq] at e
          exact ⟨a, b, e.2⟩

theorem chunked_iff (cfg : Cfg) {m : Msg} {h : Head} {hs : Dict} {t : Bytes} {s : S} (hd : HeadDone cfg m h hs t s) (hm : Blank m) :
    s.msg.isChunked = true ↔ AnnouncesChunks cfg.ord hs := by
  rw [hd.chunked, hm.noHeaders, List.nil_append]
  unfold AnnouncesChunks
  cases hs.find? cfg.ord (b! "Transfer-Encoding") with
  | none => simp
  | some v =>
    simp only [Msg.mentionsChunked]
    rw [findSub_isSome _ (by decide)]
    constructor
    · intro h; exact ⟨v, rfl, h⟩
    · rintro ⟨v', h, h'⟩; cases h; exact h'

theorem dropWhile_all {p : UInt8 → Bool} {a b : Bytes} (h : ∀ c ∈ a, p c = true) :
    (a ++ b).dropWhile p = b.dropWhile p := by
  induction a with
  | nil => rfl
  | cons c a ih =>
    simp only [List.cons_append, List.dropWhile_cons, h c (by simp), if_true]
    exact ih fun x hx => h x (by simp [hx])

theorem dropWhile_none {p : UInt8 → Bool} {a : Bytes} (h : ∀ c ∈ a, p c = false) : a.dropWhile p = a := by
  cases a with
  | nil => rfl
  | cons c a => simp [h c (by simp)]

theorem trim_pad (sp d sp' : Bytes) (hsp : ∀ c ∈ sp ++ sp', isSpace c = true) (hd : ∀ c ∈ d, isSpace c = false)
    (hne : d ≠ []) : trim (sp ++ d ++ sp') = d := by
  unfold trim
  rw [List.append_assoc, dropWhile_all (fun c hc => hsp c (by simp [hc]))]
  have h1 : (d ++ sp').dropWhile isSpace = d ++ sp' := by
    cases d with
    | nil => exact absurd rfl hne
    | cons c d => simp [hd c (by simp)]
  rw [h1, List.reverse_append, dropWhile_all (fun c hc => hsp c (by simp at hc; simp [hc])),
    dropWhile_none (fun c hc => hd c (by simpa using hc)), List.reverse_reverse]

theorem lexicalCastSize_digits (d : Bytes) (hne : d ≠ []) (hd : ∀ c ∈ d, isDigit c = true) (hlt : decVal d < SIZE_MOD) :
    lexicalCastSize d = some (decVal d) := by
  have hl : lexDigits d = some (decVal d) := by
    unfold lexDigits
    have : (d.isEmpty || !d.all isDigit) = false := by
      simp only [Bool.or_eq_false_iff, List.isEmpty_eq_false_iff, Bool.not_eq_false', List.all_eq_true]
      exact ⟨hne, hd⟩
    rw [this]; simp [hlt]
  cases d with
  | nil => exact absurd rfl hne
  | cons c r =>
    have hc := hd c (by simp)
    have h1 : c ≠ c! "-" := by rintro rfl; revert hc; decide
    have h2 : c ≠ c! "+" := by rintro rfl; revert hc; decide
    simp only [lexicalCastSize, h1, h2, if_false]
    exact hl

theorem digit_not_space (c : UInt8) (h : isDigit c = true) : isSpace c = false := by
  revert h; revert c; decide +kernel

theorem announcesLength_cast {ord : Dict.Order} {hs : Dict} {n : Nat} (h : AnnouncesLength ord hs n) (hn : n < SIZE_MOD) :
    ∃ v, hs.find? ord (b! "Content-Length") = some v ∧ lexicalCastSize (trim v) = some n := by
  obtain ⟨sp, d, sp', hf, hsp, hne, hd, hv⟩ := h
  refine ⟨_, hf, ?_⟩
  rw [trim_pad sp d sp' hsp (fun c hc => digit_not_space c (hd c hc)) hne,
    lexicalCastSize_digits d hne hd (by omega), hv]

/-! ### The decision about the body -/

theorem bodyless_iff (cfg : Cfg) {m : Msg} {h : Head} {hs : Dict} {t : Bytes} {s : S} (hd : HeadDone cfg m h hs t s)
    (hr : cfg.isRequest = h.isRequest) :
    s.msg.contentLengthImplied cfg.isRequest = true ↔ h.Bodyless m.requestMethod := by
  cases h with
  | request => simp only [hr, Head.isRequest, Msg.contentLengthImplied, Head.Bodyless]; simp
  | response major minor code text =>
    obtain ⟨h1, _⟩ := hd.stored
    simp only [hr, Head.isRequest, Msg.contentLengthImplied, Head.Bodyless, h1, hd.requestMethod]
    simp [or_assoc]

/-- The headers announce a length: the state before the body. -/
theorem finishHeaders2_length (cfg : Cfg) {m : Msg} {h : Head} {hs : Dict} {t : Bytes} {s : S} (hd : HeadDone cfg m h hs t s)
    (hm : Blank m) (ho : OrderOk cfg.ord) (hr : cfg.isRequest = h.isRequest) (hdr : cfg.headersOnly = false)
    (hc : ¬ AnnouncesChunks cfg.ord hs) (hb : ¬ h.Bodyless m.requestMethod) (n : Nat)
    (hl : AnnouncesLength cfg.ord hs n) (hn : n < SIZE_MOD) :
    finishHeaders2 cfg s =
      if n = 0 then (.yes, { s with ms := .end_ })
      else (.more, createBuffer { s with
        ms := .content, remaining := n, msg := { s.msg with contentLength := min n cfg.maxContent } }) := by
  have hhs : s.msg.headers = hs := by rw [hd.headers, hm.noHeaders]; rfl
  have h1 : s.msg.isChunked = false := by
    rw [← Bool.not_eq_true, chunked_iff cfg hd hm]; exact hc
  have h2 : s.msg.contentLengthImplied cfg.isRequest = false := by
    rw [← Bool.not_eq_true, bodyless_iff cfg hd hr]; exact hb
  obtain ⟨v, hf, hcast⟩ := announcesLength_cast hl hn
  have h3 : s.msg.headers.has (b! "Content-Length") = true := by rw [hhs]; exact has_of_find ho hf
  have h4 : s.msg.updateContentLength cfg.ord = some { s.msg with contentLength := n } := by
    simp only [Msg.updateContentLength, hhs, hf, hcast, Option.map_some]
  unfold finishHeaders2
  simp only [h1, h2, h3, h4, Bool.false_eq_true, if_false, if_true, hdr]
  split
  · rename_i h0
    simp only [h0, ← hd.contentLength, ← h1]
  · congr 4
    split <;> simp <;> omega

theorem finishHeaders2_chunks (cfg : Cfg) {m : Msg} {h : Head} {hs : Dict} {t : Bytes} {s : S} (hd : HeadDone cfg m h hs t s)
    (hm : Blank m) (hdr : cfg.headersOnly = false) (hc : AnnouncesChunks cfg.ord hs) :
    finishHeaders2 cfg s = (.more, { s with ms := .chunks }) := by
  have h1 : s.msg.isChunked = true := by
    rw [chunked_iff cfg hd hm]; exact hc
  unfold finishHeaders2
  simp [h1, hdr]

theorem finishHeaders2_bodyless (cfg : Cfg) {m : Msg} {h : Head} {hs : Dict} {t : Bytes} {s : S} (hd : HeadDone cfg m h hs t s)
    (hm : Blank m) (hr : cfg.isRequest = h.isRequest)
    (hc : ¬ AnnouncesChunks cfg.ord hs) (hb : h.Bodyless m.requestMethod) :
    finishHeaders2 cfg s = (.yes, { s with ms := .end_ }) := by
  have h1 : s.msg.isChunked = false := by
    rw [← Bool.not_eq_true, chunked_iff cfg hd hm]; exact hc
  have h2 : s.msg.contentLengthImplied cfg.isRequest = true := by
    rw [bodyless_iff cfg hd hr]; exact hb
  unfold finishHeaders2
  simp [h1, h2]

/-- Neither chunks nor a length are announced. -/
theorem finishHeaders2_plain (cfg : Cfg) {m : Msg} {h : Head} {hs : Dict} {t : Bytes} {s : S} (hd : HeadDone cfg m h hs t s)
    (hm : Blank m) (ho : OrderOk cfg.ord) (hr : cfg.isRequest = h.isRequest) (hdr : cfg.headersOnly = false)
    (hc : ¬ AnnouncesChunks cfg.ord hs) (hb : ¬ h.Bodyless m.requestMethod)
    (hl : hs.find? cfg.ord (b! "Content-Length") = none) :
    finishHeaders2 cfg s = if cfg.isRequest then (.yes, { s with ms := .end_ })
      else (.more, { s with msg := { s.msg with chunkCache := [] }, ms := .noLength }) := by
  have hhs : s.msg.headers = hs := by rw [hd.headers, hm.noHeaders]; rfl
  have h1 : s.msg.isChunked = false := by
    rw [← Bool.not_eq_true, chunked_iff cfg hd hm]; exact hc
  have h2 : s.msg.contentLengthImplied cfg.isRequest = false := by
    rw [← Bool.not_eq_true, bodyless_iff cfg hd hr]; exact hb
  have h3 : s.msg.headers.has (b! "Content-Length") = false := by rw [hhs]; exact has_of_find_none ho hl
  unfold finishHeaders2
  simp only [h1, h2, h3, Bool.false_eq_true, if_false, hdr]
  cases cfg.isRequest <;> simp

/-! ### A body of known length -/

theorem createBuffer_ok (s : S) (h : s.msg.contentLength + 1 ≠ SIZE_MOD) :
    createBuffer s = { s with msg := { s.msg with content := List.replicate s.msg.contentLength none } } := by
  unfold createBuffer; rw [if_neg h]

/-- Consume a whole body of known length. -/
theorem iter_content (cfg : Cfg) (s : S) (hms : s.ms = .content) (hh : cfg.handler = false) (body tail : Bytes)
    (hrem : s.remaining = body.length) (hne : body ≠ []) (hcr : s.contentRead = 0)
    (hbuf : s.msg.content.length = min body.length cfg.maxContent) :
    iter cfg s (body ++ tail) = (.yes, { s with
      remaining := 0, contentRead := body.length, totalRead := s.totalRead + body.length, lastRead := body.length,
      msg := { s.msg with content := (body.take cfg.maxContent).map some } }, tail) := by
  have hpos : 0 < body.length := List.length_pos_iff.mpr hne
  unfold iter
  simp only [hms]
  rw [consumeContent_eq, hrem]
  have hmin : min body.length (body ++ tail).length = body.length := by simp
  rw [if_neg (by omega)]
  simp only [hmin, List.take_left, List.drop_left, Nat.sub_self,
    show body.length ≤ (body ++ tail).length from by simp, if_true]
  have hst : store cfg { s with remaining := 0 } body =
      { s with remaining := 0, msg := { s.msg with content := (body.take cfg.maxContent).map some } } := by
    unfold store
    simp only [hh, Bool.false_eq_true, if_false, hcr]
    by_cases hm : 0 < cfg.maxContent
    · simp only [hm, if_true, Nat.sub_zero]
      unfold blit
      simp only [Nat.zero_add, hbuf, List.length_take]
      rw [if_neg (by omega)]
      have hd : s.msg.content.drop (min cfg.maxContent body.length) = [] := by
        rw [List.drop_eq_nil_iff, hbuf]; omega
      simp [hd]
    · have h0 : cfg.maxContent = 0 := by omega
      have hc : s.msg.content = [] := by
        rw [h0] at hbuf; simp only [Nat.min_zero] at hbuf; exact List.length_eq_zero_iff.mp hbuf
      simp only [h0, Nat.lt_irrefl, if_false, List.take_zero, List.map_nil, ← hc]
  rw [hst]
  simp [S.upd, hcr, hms]

/-- The same with a payload handler: every byte is handed over, whatever the maximum. -/
theorem iter_content_handler (cfg : Cfg) (s : S) (hms : s.ms = .content) (hh : cfg.handler = true) (body tail : Bytes)
    (hrem : s.remaining = body.length) (hne : body ≠ []) (hcr : s.contentRead = 0) :
    iter cfg s (body ++ tail) = (.yes, { s with
      remaining := 0, contentRead := body.length, totalRead := s.totalRead + body.length, lastRead := body.length,
      payload := s.payload ++ body }, tail) := by
  have hpos : 0 < body.length := List.length_pos_iff.mpr hne
  unfold iter
  simp only [hms]
  rw [consumeContent_eq, hrem]
  have hmin : min body.length (body ++ tail).length = body.length := by simp
  rw [if_neg (by omega)]
  simp only [hmin, List.take_left, List.drop_left, Nat.sub_self,
    show body.length ≤ (body ++ tail).length from by simp, if_true]
  simp [store, hh, S.upd, hcr, hms]

/-! ### Chunks -/

/-- Store chunk data. -/
def absorb (cfg : Cfg) (s : S) (d : Bytes) : S :=
  if cfg.handler then { s with payload := s.payload ++ d }
  else { s with msg := { s.msg with chunkCache := s.msg.chunkCache ++ d } }

/-- There is room for `n` more bytes. -/
def room (cfg : Cfg) (s : S) (n : Nat) : Prop := cfg.handler = false → s.msg.chunkCache.length + n ≤ cfg.maxContent

/-- The state after chunk data. -/
def dataState (cfg : Cfg) (s : S) (d : Bytes) : S :=
  { absorb cfg s d with
    chunkRead := s.chunkRead + d.length,
    cs := if s.chunkRead + d.length = s.chunkSize then .expCrAfterChunk else .chunk }

theorem cbyte_data (cfg : Cfg) (s : S) (c : UInt8) (hc : s.cs = .chunk) (hlt : s.chunkRead < s.chunkSize)
    (hr : room cfg s 1) : cbyte cfg s c = .more (dataState cfg s [c]) := by
  cases hh : cfg.handler with
  | true =>
    rw [cbyte_handler cfg s c hh hc hlt]
    simp [dataState, absorb, hh, bulk]
  | false =>
    have hroom := hr hh
    simp only [cbyte, cstep, hc, chunkData, hlt, hh, if_true, Bool.false_eq_true, if_false,
      show s.msg.chunkCache.length < cfg.maxContent from by omega, dataState, absorb, List.length_singleton]
    by_cases he : s.chunkRead + 1 = s.chunkSize
    · simp [he, CRes.toH]
    · simp [he, CRes.toH]

theorem run_data (cfg : Cfg) (d : Bytes) (t : Bytes) : ∀ (s : S), s.cs = .chunk → d ≠ [] →
    s.chunkRead + d.length ≤ s.chunkSize → room cfg s d.length →
      run (cbyte cfg) s (d ++ t) = run (cbyte cfg) (dataState cfg s d) t := by
  induction d with
  | nil => intro s _ h; exact absurd rfl h
  | cons c d ih =>
    intro s hc _ hle hr
    simp only [List.length_cons] at hle hr
    simp only [List.cons_append, run, cbyte_data cfg s c hc (by omega) (fun h => by have := hr h; omega)]
    by_cases hd : d = []
    · subst hd; simp
    · have hpos : 0 < d.length := List.length_pos_iff.mpr hd
      have hne : s.chunkRead + 1 ≠ s.chunkSize := by omega
      rw [ih (dataState cfg s [c]) (by simp [dataState, hne]) hd
        (by cases hh : cfg.handler <;> simp [dataState, absorb, hh] <;> omega)
        (fun hh => by have := hr hh; simp [dataState, absorb, hh]; omega)]
      congr 1
      cases hh : cfg.handler <;> simp [dataState, absorb, hh, Nat.add_assoc, Nat.add_comm 1]

/-- The size line of a chunk. -/
theorem steps_chunkSize (cfg : Cfg) (s : S) (n : Nat) (hc : s.cs = .sizeStart) (hn : n ≤ LONG_MAX) :
    Steps (cbyte cfg) s (toHex n ++ CRLF)
      { s with
          chunkSizeStr := toHex n, chunkRead := 0, chunkSize := n,
          cs := if n = 0 then .expFinalCrOrFooters else .chunk } := by
  obtain ⟨c, t, e⟩ : ∃ c t, toHex n = c :: t := List.exists_cons_of_ne_nil (toHex_ne_nil _)
  have hx := toHex_isHex n
  have hst := strtol16_toHex n
  rw [e] at hx hst ⊢
  have hc1 := hx c (by simp)
  have p1 : cbyte cfg s c = .more { s with chunkSizeStr := [c], cs := .size } := by
    simp [cbyte, cstep, hc, hc1, CRes.toH]
  have p2 := Steps.acc (step := cbyte cfg) (fun s t => { s with chunkSizeStr := s.chunkSizeStr ++ t })
    (fun s _ => s.cs = .size) (fun c => isHexDigit c = true) (fun s => by simp) (fun s a b => by simp)
    (fun s c n h1 h2 => ⟨by simp [cbyte, cstep, h1, h2, CRes.toH], h1⟩) t
    { s with chunkSizeStr := [c], cs := .size } rfl (fun x hx' => hx x (by simp [hx']))
  rw [show (c :: t) ++ CRLF = [c] ++ (t ++ ([0x0d] ++ [0x0a])) by simp [CRLF]]
  refine Steps.trans (.one p1) (Steps.trans p2 ?_)
  refine Steps.trans (t := { s with chunkSizeStr := c :: t, cs := .expLfAfterSize }) (.one ?_) (.one ?_)
  · have : isHexDigit 0x0d = false := by decide
    simp [cbyte, cstep, this, CR, CRes.toH]
  · have hz : (strtol16 (c :: t)).toNat = n := by rw [hst]; simp; omega
    simp only [cbyte, cstep, LF, hz, if_true]
    by_cases h0 : n = 0 <;> simp [h0, CRes.toH]

/-- The state after a chunk. -/
def chunkState (cfg : Cfg) (s : S) (d : Bytes) : S :=
  { absorb cfg s d with
    chunkSizeStr := toHex d.length, chunkRead := d.length, chunkSize := d.length, cs := .sizeStart }

theorem steps_chunk (cfg : Cfg) (s : S) (d : Bytes) (hc : s.cs = .sizeStart) (hne : d ≠ []) (hn : d.length ≤ LONG_MAX)
    (hr : room cfg s d.length) : Steps (cbyte cfg) s (chunkWire d) (chunkState cfg s d) := by
  have hpos : 0 < d.length := List.length_pos_iff.mpr hne
  intro rest
  have p1 := steps_chunkSize cfg s d.length hc hn
  rw [if_neg (by omega)] at p1
  rw [show chunkWire d ++ rest = (toHex d.length ++ CRLF) ++ (d ++ (CRLF ++ rest)) by simp [chunkWire]]
  rw [p1, run_data cfg d _ _ (by rfl) hne (by simp) (by exact hr)]
  have q1 : cbyte cfg (dataState cfg { s with
      chunkSizeStr := toHex d.length, chunkRead := 0, chunkSize := d.length, cs := .chunk } d) 0x0d =
      .more { absorb cfg s d with
        chunkSizeStr := toHex d.length, chunkRead := d.length, chunkSize := d.length, cs := .expLfAfterChunk } := by
    cases hh : cfg.handler <;> simp [dataState, absorb, hh, cbyte, cstep, CR, CRes.toH]
  have q2 : cbyte cfg { absorb cfg s d with
        chunkSizeStr := toHex d.length, chunkRead := d.length, chunkSize := d.length, cs := .expLfAfterChunk } 0x0a =
      .more (chunkState cfg s d) := by
    cases hh : cfg.handler <;> simp [absorb, hh, cbyte, cstep, LF, CRes.toH, chunkState]
  simp only [CRLF, List.cons_append, List.nil_append, run, q1, q2]

theorem run_chunks (cfg : Cfg) (ds : List Bytes) : ∀ (s : S), s.cs = .sizeStart →
    (∀ d ∈ ds, d ≠ [] ∧ d.length ≤ LONG_MAX) → room cfg s (total ds) → ∀ rest,
    ∃ z a b, run (cbyte cfg) s ((ds.map chunkWire).flatten ++ rest) =
      run (cbyte cfg) { absorb cfg s ds.flatten with chunkSizeStr := z, chunkRead := a, chunkSize := b, cs := .sizeStart } rest := by
  induction ds with
  | nil =>
    intro s hc _ _ rest
    refine ⟨s.chunkSizeStr, s.chunkRead, s.chunkSize, ?_⟩
    simp only [List.map_nil, List.flatten_nil, List.nil_append]
    congr 1
    cases hh : cfg.handler <;> simp [absorb, hh, ← hc]
  | cons d ds ih =>
    intro s hc hd hr rest
    obtain ⟨h1, h2⟩ := hd d (by simp)
    have hlen : total (d :: ds) = d.length + total ds := by simp [total]
    have p := steps_chunk cfg s d hc h1 h2 (fun hh => by have := hr hh; omega)
    obtain ⟨z, a, b, q⟩ := ih (chunkState cfg s d) rfl (fun x hx => hd x (by simp [hx]))
      (fun hh => by have := hr hh; simp [chunkState, absorb, hh]; omega) rest
    refine ⟨z, a, b, ?_⟩
    rw [List.map_cons, List.flatten_cons, List.append_assoc, p, q]
    congr 1
    cases hh : cfg.handler <;> simp [absorb, hh, chunkState]

theorem run_lastChunk (cfg : Cfg) (s : S) (hc : s.cs = .sizeStart) (rest : Bytes) :
    run (cbyte cfg) s (lastChunk ++ rest) =
      (.yes, { s with chunkSizeStr := b! "0", chunkRead := 0, chunkSize := 0, cs := .expFinalLf }, rest) := by
  have p := steps_chunkSize cfg s 0 hc (by simp)
  have e : lastChunk ++ rest = (toHex 0 ++ CRLF) ++ ([0x0d, 0x0a] ++ rest) := by
    rw [show toHex 0 = [48] from rfl]; rfl
  rw [e, p]
  simp only [if_true, show toHex 0 = b! "0" from rfl]
  have q1 : cbyte cfg { s with chunkSizeStr := b! "0", chunkRead := 0, chunkSize := 0, cs := .expFinalCrOrFooters } 0x0d =
      .more { s with chunkSizeStr := b! "0", chunkRead := 0, chunkSize := 0, cs := .expFinalLf } := by
    simp [cbyte, cstep, CR, CRes.toH]
  have q2 : cbyte cfg { s with chunkSizeStr := b! "0", chunkRead := 0, chunkSize := 0, cs := .expFinalLf } 0x0a =
      .done { s with chunkSizeStr := b! "0", chunkRead := 0, chunkSize := 0, cs := .expFinalLf } true := by
    simp [cbyte, cstep, LF, CRes.toH]
  simp only [List.cons_append, List.nil_append, run, q1, q2]

theorem run_chunkedWire (cfg : Cfg) (ds : List Bytes) (s : S) (hc : s.cs = .sizeStart)
    (hd : ∀ d ∈ ds, d ≠ [] ∧ d.length ≤ LONG_MAX) (hr : room cfg s (total ds)) (rest : Bytes) :
    run (cbyte cfg) s (chunkedWire ds ++ rest) =
      (.yes, { absorb cfg s ds.flatten with chunkSizeStr := b! "0", chunkRead := 0, chunkSize := 0, cs := .expFinalLf }, rest) := by
  obtain ⟨z, a, b, h⟩ := run_chunks cfg ds s hc hd hr (lastChunk ++ rest)
  rw [chunkedWire, List.append_assoc, h, run_lastChunk _ _ rfl]

/-- A chunk that does not fit: the parser gets stuck. -/
structure Stuck (cfg : Cfg) (s : S) : Prop where
  handler : cfg.handler = false
  cs : s.cs = .chunk
  full : cfg.maxContent ≤ s.msg.chunkCache.length
  lt : s.chunkRead < s.chunkSize

theorem run_stuck (cfg : Cfg) (s : S) (h : Stuck cfg s) (buf : Bytes) : run (cbyte cfg) s buf = (.more, s, []) := by
  induction buf with
  | nil => rfl
  | cons c t ih =>
    have : cbyte cfg s c = .more s := by
      simp [cbyte, cstep, h.cs, chunkData, h.lt, h.handler, show ¬ s.msg.chunkCache.length < cfg.maxContent from by
        have := h.full; omega, show ¬ s.chunkRead = s.chunkSize from by have := h.lt; omega, CRes.toH]
    simp only [run, this, ih]

/-- Chunks that exceed the maximum in total: the machine ends in a stuck state and never answers. -/
theorem run_oversize (cfg : Cfg) (hh : cfg.handler = false) (ds : List Bytes) : ∀ (s : S), s.cs = .sizeStart →
    (∀ d ∈ ds, d ≠ [] ∧ d.length ≤ LONG_MAX) → cfg.maxContent < s.msg.chunkCache.length + total ds →
    s.msg.chunkCache.length ≤ cfg.maxContent → ∀ rest,
    ∃ s', Stuck cfg s' ∧ s'.ms = s.ms ∧ s'.msg.chunkCache = (s.msg.chunkCache ++ ds.flatten).take cfg.maxContent ∧
      run (cbyte cfg) s ((ds.map chunkWire).flatten ++ rest) = (.more, s', []) := by
  induction ds with
  | nil => intro s _ _ h1 h2; simp [total] at h1; omega
  | cons d ds ih =>
    intro s hc hd hover hle rest
    obtain ⟨h1, h2⟩ := hd d (by simp)
    have hlen : total (d :: ds) = d.length + total ds := by simp [total]
    by_cases hfit : s.msg.chunkCache.length + d.length ≤ cfg.maxContent
    · have p := steps_chunk cfg s d hc h1 h2 (fun _ => hfit)
      have hcache : (chunkState cfg s d).msg.chunkCache = s.msg.chunkCache ++ d := by simp [chunkState, absorb, hh]
      obtain ⟨s', q1, q2, q3, q4⟩ := ih (chunkState cfg s d) rfl (fun x hx => hd x (by simp [hx]))
        (by rw [hcache, List.length_append]; omega) (by rw [hcache, List.length_append]; omega) rest
      refine ⟨s', q1, ?_, ?_, ?_⟩
      · rw [q2]; simp [chunkState, absorb, hh]
      · rw [q3, hcache]; simp
      · rw [List.map_cons, List.flatten_cons, List.append_assoc, p, q4]
    · have p1 := steps_chunkSize cfg s d.length hc h2
      have hpos : 0 < d.length := List.length_pos_iff.mpr h1
      rw [if_neg (by omega)] at p1
      generalize hS1 : ({ s with
        chunkSizeStr := toHex d.length, chunkRead := 0, chunkSize := d.length, cs := .chunk } : S) = s1 at p1
      have e1 : s1.cs = .chunk := by rw [← hS1]
      have e2 : s1.chunkRead = 0 := by rw [← hS1]
      have e3 : s1.chunkSize = d.length := by rw [← hS1]
      have e4 : s1.msg = s.msg := by rw [← hS1]
      have e5 : s1.ms = s.ms := by rw [← hS1]
      have hsplit : d = d.take (cfg.maxContent - s.msg.chunkCache.length) ++ d.drop (cfg.maxContent - s.msg.chunkCache.length) :=
        (List.take_append_drop _ _).symm
      have hw : ((d :: ds).map chunkWire).flatten ++ rest = (toHex d.length ++ CRLF) ++
          (d.take (cfg.maxContent - s.msg.chunkCache.length) ++ (d.drop (cfg.maxContent - s.msg.chunkCache.length) ++
            (CRLF ++ ((ds.map chunkWire).flatten ++ rest)))) := by
        rw [List.map_cons, List.flatten_cons, chunkWire]
        conv_lhs => enter [1, 1, 1, 2]; rw [hsplit]
        simp only [List.append_assoc]
      generalize hrest : d.drop (cfg.maxContent - s.msg.chunkCache.length) ++
            (CRLF ++ ((ds.map chunkWire).flatten ++ rest)) = rest' at hw
      rw [hw, p1]
      have htake : (s.msg.chunkCache ++ (d :: ds).flatten).take cfg.maxContent =
          s.msg.chunkCache ++ d.take (cfg.maxContent - s.msg.chunkCache.length) := by
        rw [List.take_append, List.take_of_length_le hle, List.flatten_cons, List.take_append_of_le_length (by omega)]
      by_cases hz : cfg.maxContent - s.msg.chunkCache.length = 0
      · have hst : Stuck cfg s1 := ⟨hh, e1, by rw [e4]; omega, by rw [e2, e3]; exact hpos⟩
        refine ⟨s1, hst, e5, ?_, ?_⟩
        · rw [htake, hz, e4]; simp
        · rw [hz, List.take_zero, List.nil_append]; exact run_stuck cfg s1 hst _
      · have hlt : (d.take (cfg.maxContent - s.msg.chunkCache.length)).length = cfg.maxContent - s.msg.chunkCache.length := by
          rw [List.length_take]; omega
        have hne : d.take (cfg.maxContent - s.msg.chunkCache.length) ≠ [] := by
          intro hnil; rw [hnil] at hlt; simp at hlt; omega
        rw [run_data cfg _ _ s1 e1 hne (by rw [e2, e3, hlt]; omega) (fun _ => by rw [e4, hlt]; omega)]
        have hst : Stuck cfg (dataState cfg s1 (d.take (cfg.maxContent - s.msg.chunkCache.length))) := by
          refine ⟨hh, ?_, ?_, ?_⟩
          · simp only [dataState, e2, e3, hlt]; rw [if_neg (by omega)]
          · simp only [dataState, absorb, hh, Bool.false_eq_true, if_false, e4, List.length_append, hlt]; omega
          · simp only [dataState, absorb, hh, Bool.false_eq_true, if_false, e2, e3, hlt]; omega
        refine ⟨_, hst, ?_, ?_, run_stuck cfg _ hst _⟩
        · simp [dataState, absorb, hh, e5]
        · rw [htake]; simp [dataState, absorb, hh, e4]

end Verif.Http
