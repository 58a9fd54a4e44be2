import Verif.Lemmas.HttpParse
import Verif.Lemmas.HttpBody
/-
The missing-data flags, the status of the message and `gcount` (and, with a payload handler, the content counter) have
no influence on anything else the parser does.
-/
namespace Verif.Http

/-- Replace the fields that have no influence. -/
def S.g (cfg : Cfg) (m a : Bool) (st : DataStatus) (l c : Nat) (s : S) : S :=
  { s with
    lastRead := l, contentRead := if cfg.handler then c else s.contentRead,
    msg := { s.msg with missing := m, afterMissing := a, status := st } }

/-- Forget them. -/
def erase (cfg : Cfg) (s : S) : S := s.g cfg false false .none 0 0

theorem erase_g (cfg : Cfg) (m a st l c) (s : S) : erase cfg (s.g cfg m a st l c) = erase cfg s := by
  unfold erase S.g; cases cfg.handler <;> rfl

theorem eq_g {cfg : Cfg} {s t : S} (h : erase cfg s = erase cfg t) :
    s = t.g cfg s.msg.missing s.msg.afterMissing s.msg.status s.lastRead s.contentRead := by
  have h1 : (erase cfg s).g cfg s.msg.missing s.msg.afterMissing s.msg.status s.lastRead s.contentRead = s := by
    unfold erase S.g; cases cfg.handler <;> rfl
  have h2 : (erase cfg t).g cfg s.msg.missing s.msg.afterMissing s.msg.status s.lastRead s.contentRead =
      t.g cfg s.msg.missing s.msg.afterMissing s.msg.status s.lastRead s.contentRead := by
    unfold erase S.g; cases cfg.handler <;> rfl
  rw [← h2, ← h, h1]

section
variable (cfg : Cfg) (m a : Bool) (st : DataStatus) (l c : Nat)

theorem hswitch_g (s : S) (x : UInt8) : hswitch cfg (s.g cfg m a st l c) x = (hswitch cfg s x).map (·.g cfg m a st l c) := by
  have e : (s.g cfg m a st l c).hs = s.hs := rfl
  cases h : s.hs <;> simp only [hswitch, h, e]
  all_goals (repeat' split)
  all_goals first | rfl | simp_all [S.g]

theorem hstep_g (s : S) (x : UInt8) : hstep cfg (s.g cfg m a st l c) x = (hstep cfg s x).map (·.g cfg m a st l c) := by
  simp only [hstep]
  cases cfg.saveRaw
  · exact hswitch_g cfg m a st l c s x
  · exact hswitch_g cfg m a st l c { s with raw := s.raw ++ [x] } x

theorem chunkData_g (s : S) (x : UInt8) : chunkData cfg (s.g cfg m a st l c) x [] =
    ((chunkData cfg s x []).1.g cfg m a st l c, (chunkData cfg s x []).2) := by
  have e1 : (s.g cfg m a st l c).chunkRead = s.chunkRead := rfl
  have e2 : (s.g cfg m a st l c).chunkSize = s.chunkSize := rfl
  have e3 : (s.g cfg m a st l c).msg.chunkCache = s.msg.chunkCache := rfl
  simp only [chunkData, e1, e2, e3]
  repeat' split
  all_goals rfl

theorem cbyte_g (s : S) (x : UInt8) : cbyte cfg (s.g cfg m a st l c) x = (cbyte cfg s x).map (·.g cfg m a st l c) := by
  have e : (s.g cfg m a st l c).cs = s.cs := rfl
  cases h : s.cs <;> simp only [cbyte, cstep, h, e]
  case chunk =>
    rw [chunkData_g]
    generalize chunkData cfg s x [] = r
    have e1 : (r.1.g cfg m a st l c).chunkRead = r.1.chunkRead := rfl
    have e2 : (r.1.g cfg m a st l c).chunkSize = r.1.chunkSize := rfl
    simp only [e1, e2]
    by_cases hr : r.1.chunkRead = r.1.chunkSize
    · simp only [hr, if_true]; rfl
    · simp only [hr, if_false]; rfl
  case expLfAfterSize =>
    have e1 : (s.g cfg m a st l c).chunkSizeStr = s.chunkSizeStr := rfl
    simp only [e1]
    by_cases hx : x = LF
    · simp only [hx, if_true]
      by_cases hn : (strtol16 s.chunkSizeStr).toNat = 0
      · simp only [hn, if_true]; rfl
      · simp only [hn, if_false]; rfl
    · simp only [hx, if_false]; rfl
  all_goals (repeat' split)
  all_goals rfl

theorem run_g (step : S → UInt8 → HRes)
    (h : ∀ s x, step (s.g cfg m a st l c) x = (step s x).map (·.g cfg m a st l c)) (s : S) (b : Bytes) :
    run step (s.g cfg m a st l c) b = mapR (·.g cfg m a st l c) (run step s b) := by
  induction b generalizing s with
  | nil => rfl
  | cons x b ih =>
    simp only [run, h]
    cases hx : step s x with
    | more s' => exact ih s'
    | done s' f => cases f <;> rfl
    | fail s' e => rfl

theorem count_g (content : Bool) (buf : Bytes) (r : Tri × S × Bytes) :
    mapR (erase cfg) (count content buf (mapR (·.g cfg m a st l c) r)) = mapR (erase cfg) (count content buf r) := by
  obtain ⟨rc, s, rest⟩ := r
  unfold count mapR
  dsimp only
  split
  · simp only [erase_g]
  · refine congrArg (Prod.mk rc) (congrArg (·, rest) ?_)
    unfold erase S.g S.upd
    cases cfg.handler <;> cases content <;> rfl

theorem createBuffer_g (s : S) : createBuffer (s.g cfg m a st l c) = (createBuffer s).g cfg m a st l c := by
  unfold createBuffer
  rw [show (s.g cfg m a st l c).msg.contentLength = s.msg.contentLength from rfl]
  split <;> rfl

theorem updateMessage_g (s : S) : updateMessage cfg (s.g cfg m a st l c) = (updateMessage cfg s).g cfg m a st l c := by
  unfold updateMessage
  cases cfg.isRequest <;> rfl

theorem concatenateChunks_g (s : S) :
    concatenateChunks (s.g cfg m a st l c) = (concatenateChunks s).g cfg m a st l c := by
  unfold concatenateChunks
  have : createBuffer { s.g cfg m a st l c with
        msg := { (s.g cfg m a st l c).msg with contentLength := (s.g cfg m a st l c).msg.chunkCache.length } }
    = (createBuffer { s with msg := { s.msg with contentLength := s.msg.chunkCache.length } }).g cfg m a st l c :=
    createBuffer_g cfg m a st l c { s with msg := { s.msg with contentLength := s.msg.chunkCache.length } }
  simp only [this]
  generalize createBuffer { s with msg := { s.msg with contentLength := s.msg.chunkCache.length } } = s'
  rw [show (s'.g cfg m a st l c).msg.chunkCache = s'.msg.chunkCache from rfl,
    show (s'.g cfg m a st l c).msg.content = s'.msg.content from rfl]
  split <;> rfl

theorem updateContentLength_g (ord : Dict.Order) (x : Msg) :
    ({ x with missing := m, afterMissing := a, status := st } : Msg).updateContentLength ord =
      (x.updateContentLength ord).map fun y => { y with missing := m, afterMissing := a, status := st } := by
  unfold Msg.updateContentLength
  dsimp only
  split
  · rfl
  · rw [Option.map_map]; rfl

theorem finishHeaders_g (s : S) :
    (finishHeaders cfg (s.g cfg m a st l c)).1 = (finishHeaders cfg s).1 ∧
    erase cfg (finishHeaders cfg (s.g cfg m a st l c)).2 = erase cfg (finishHeaders cfg s).2 := by
  rw [finishHeaders_eq, finishHeaders_eq]
  have : finishHeaders1 cfg (s.g cfg m a st l c) = (finishHeaders1 cfg s).g cfg m a st l 0 := by
    have h := updateMessage_g cfg m a st l 0
      { s with remaining := 0, contentRead := 0,
               msg := Msg.updateTransferEncoding cfg.ord { s.msg with contentLength := 0 } }
    refine Eq.trans ?_ h
    unfold finishHeaders1
    congr 1
    unfold S.g Msg.updateTransferEncoding
    cases hh : cfg.handler <;> (dsimp only; split <;> rfl)
  rw [this]
  generalize finishHeaders1 cfg s = t
  unfold finishHeaders2
  have e1 : (t.g cfg m a st l 0).msg.isChunked = t.msg.isChunked := rfl
  have e2 : (t.g cfg m a st l 0).msg.contentLengthImplied cfg.isRequest = t.msg.contentLengthImplied cfg.isRequest := rfl
  have e3 : (t.g cfg m a st l 0).msg.headers = t.msg.headers := rfl
  have e4 : (t.g cfg m a st l 0).msg = { t.msg with missing := m, afterMissing := a, status := st } := rfl
  rw [e1, e2, e3]
  split
  · refine ⟨rfl, ?_⟩
    rw [← erase_g cfg m a st l 0 { t with ms := .chunks }]; rfl
  split
  · refine ⟨rfl, ?_⟩
    rw [← erase_g cfg m a st l 0 { t with ms := .end_ }]; rfl
  split
  · rw [e4, updateContentLength_g]
    cases t.msg.updateContentLength cfg.ord with
    | none =>
      refine ⟨rfl, ?_⟩
      simp only [Option.map_none]
      rw [← erase_g cfg m a st l 0 { t with ec := _ }]; rfl
    | some y =>
      simp only [Option.map_some]
      split
      · refine ⟨rfl, ?_⟩
        rw [← erase_g cfg m a st l 0 { t with msg := y, ms := .end_ }]; rfl
      by_cases hx : cfg.maxContent < y.contentLength
      · simp only [if_pos hx]
        split
        · refine ⟨rfl, ?_⟩
          rw [← erase_g cfg m a st l 0 { t with ms := .content, remaining := y.contentLength, msg := { y with contentLength := cfg.maxContent } }]; rfl
        · refine ⟨rfl, ?_⟩
          rw [← erase_g cfg m a st l 0 (createBuffer { t with
            ms := .content, remaining := y.contentLength, msg := { y with contentLength := cfg.maxContent } }), ← createBuffer_g]; rfl
      · simp only [if_neg hx]
        split
        · refine ⟨rfl, ?_⟩
          rw [← erase_g cfg m a st l 0 { t with ms := .content, remaining := y.contentLength, msg := y }]; rfl
        · refine ⟨rfl, ?_⟩
          rw [← erase_g cfg m a st l 0 (createBuffer { t with
            ms := .content, remaining := y.contentLength, msg := y }), ← createBuffer_g]; rfl
  split
  · refine ⟨rfl, ?_⟩
    rw [← erase_g cfg m a st l 0 { t with msg := { t.msg with chunkCache := [] }, ms := .noLength }]; rfl
  · refine ⟨rfl, ?_⟩
    rw [← erase_g cfg m a st l 0 { t with ms := .end_ }]; rfl

theorem finishForm_g (s : S) : finishForm cfg (s.g cfg m a st l c) = (finishForm cfg s).g cfg m a st l c := by
  unfold finishForm
  have e1 : (s.g cfg m a st l c).msg.headers = s.msg.headers := rfl
  have e2 : (s.g cfg m a st l c).msg.content = s.msg.content := rfl
  have e3 : (s.g cfg m a st l c).msg.contentLength = s.msg.contentLength := rfl
  have e4 : (s.g cfg m a st l c).msg.queries = s.msg.queries := rfl
  rw [e1, e2, e3, e4]
  split
  · simp only
    split
    · split <;> rfl
    split
    · split
      · rfl
      · cases Multipart.parseMultipart s.msg.queries (s.msg.headers.get cfg.ord (b! "Content-Type"))
          ((s.msg.content.take s.msg.contentLength).map (·.getD 0)) <;> rfl
    · rfl
  · rfl

theorem store_g (s : S) (d : Bytes) : store cfg (s.g cfg m a st l c) d = (store cfg s d).g cfg m a st l c := by
  unfold store
  cases hh : cfg.handler
  · have e1 : (s.g cfg m a st l c).contentRead = s.contentRead := by unfold S.g; simp [hh]
    simp only [Bool.false_eq_true, if_false, e1]
    unfold blit
    rw [show (s.g cfg m a st l c).msg.content = s.msg.content from rfl]
    repeat' split
    all_goals rfl
  · rfl

theorem iter_g (s : S) (buf : Bytes) :
    mapR (erase cfg) (iter cfg (s.g cfg m a st l c) buf) = mapR (erase cfg) (iter cfg s buf) := by
  have hms : (s.g cfg m a st l c).ms = s.ms := rfl
  -- post-processing respects `erase`
  have hH : ∀ r r' : Tri × S × Bytes, mapR (erase cfg) r = mapR (erase cfg) r' →
      mapR (erase cfg) (postH cfg r) = mapR (erase cfg) (postH cfg r') := by
    rintro ⟨rc, u, rest⟩ ⟨rc', v, rest'⟩ h
    simp only [mapR, Prod.mk.injEq] at h
    obtain ⟨rfl, h2, rfl⟩ := h
    have hu := eq_g h2
    generalize u.msg.missing = m', u.msg.afterMissing = a', u.msg.status = st', u.lastRead = l', u.contentRead = c' at hu
    subst hu
    unfold postH
    dsimp only
    rw [show (v.g cfg m' a' st' l' c').ms = v.ms from rfl]
    split
    · obtain ⟨x, y⟩ := finishHeaders_g cfg m' a' st' l' c' v
      simp only [mapR, x, y]
    · simp only [mapR, erase_g]
  have hC : ∀ r r' : Tri × S × Bytes, mapR (erase cfg) r = mapR (erase cfg) r' →
      mapR (erase cfg) (postC cfg r) = mapR (erase cfg) (postC cfg r') := by
    rintro ⟨rc, u, rest⟩ ⟨rc', v, rest'⟩ h
    simp only [mapR, Prod.mk.injEq] at h
    obtain ⟨rfl, h2, rfl⟩ := h
    have hu := eq_g h2
    generalize u.msg.missing = m', u.msg.afterMissing = a', u.msg.status = st', u.lastRead = l', u.contentRead = c' at hu
    subst hu
    unfold postC
    dsimp only
    rw [concatenateChunks_g]
    split
    · simp only [mapR, erase_g]; rfl
    · simp only [mapR, erase_g]
  by_cases hh : s.ms = .start ∨ s.ms = .headers ∨ s.ms = .footers
  · rw [iter_headers cfg s buf hh, iter_headers cfg (s.g cfg m a st l c) buf hh]
    apply hH
    rw [parseHeaders_eq, parseHeaders_eq]
    have e : (enterH (s.g cfg m a st l c)).setL 0 = ((enterH s).setL 0).g cfg m a st 0 c := by
      unfold enterH
      rw [hms]
      split <;> rfl
    rw [e, run_g cfg m a st 0 c _ (hstep_g cfg m a st 0 c), count_g]
  · cases hs : s.ms with
    | start | headers | footers => simp [hs] at hh
    | chunks =>
      rw [iter_chunks cfg s buf hs, iter_chunks cfg (s.g cfg m a st l c) buf hs]
      apply hC
      rw [parseChunks_eq, parseChunks_eq]
      have e : (s.g cfg m a st l c).setL 0 = (s.setL 0).g cfg m a st 0 c := rfl
      rw [e, run_g cfg m a st 0 c _ (cbyte_g cfg m a st 0 c), count_g]
    | content =>
      unfold iter
      rw [hms]
      simp only [hs]
      rw [consumeContent_eq, consumeContent_eq]
      rw [show (s.g cfg m a st l c).remaining = s.remaining from rfl]
      split
      · simp only [mapR, erase_g]
      · simp only
        have e : store cfg { s.g cfg m a st l c with remaining := s.remaining - min s.remaining buf.length }
            (buf.take (min s.remaining buf.length)) =
          (store cfg { s with remaining := s.remaining - min s.remaining buf.length }
            (buf.take (min s.remaining buf.length))).g cfg m a st l c :=
          store_g cfg m a st l c { s with remaining := s.remaining - min s.remaining buf.length } _
        rw [e]
        generalize store cfg { s with remaining := s.remaining - min s.remaining buf.length }
            (buf.take (min s.remaining buf.length)) = v
        simp only [mapR]
        unfold erase S.g S.upd
        cases cfg.handler <;> rfl
    | noLength =>
      unfold iter consumeAsNextChunk
      rw [hms]
      simp only [hs]
      cases buf <;> cases hh : cfg.handler <;> simp [mapR, erase, S.g, hh]
    | end_ =>
      unfold iter
      rw [hms]
      simp only [hs, mapR, erase_g]

end

theorem iter_erase (cfg : Cfg) {s t : S} (h : erase cfg s = erase cfg t) (buf : Bytes) :
    mapR (erase cfg) (iter cfg s buf) = mapR (erase cfg) (iter cfg t buf) := by
  rw [eq_g h]; exact iter_g ..

theorem runs_erase (cfg : Cfg) {s buf r} (h : Runs cfg s buf r) : ∀ s', erase cfg s' = erase cfg s →
    ∃ r', Runs cfg s' buf r' ∧ mapR (erase cfg) r' = mapR (erase cfg) r := by
  induction h with
  | @stop s buf hs =>
    intro s' h'
    have e := iter_erase cfg h' buf
    have e1 : (iter cfg s' buf).1 = (iter cfg s buf).1 := by have := congrArg Prod.fst e; exact this
    have e2 : (iter cfg s' buf).2.2 = (iter cfg s buf).2.2 := congrArg (·.2.2) e
    exact ⟨_, .stop (by rw [e1, e2]; exact hs), e⟩
  | @next s buf r h1 h2 hr ih =>
    intro s' h'
    have e := iter_erase cfg h' buf
    have e1 : (iter cfg s' buf).1 = (iter cfg s buf).1 := by have := congrArg Prod.fst e; exact this
    have e2 : (iter cfg s' buf).2.2 = (iter cfg s buf).2.2 := congrArg (·.2.2) e
    have e3 : erase cfg (iter cfg s' buf).2.1 = erase cfg (iter cfg s buf).2.1 := congrArg (·.2.1) e
    obtain ⟨r', hr', ho⟩ := ih _ e3
    exact ⟨r', .next (by rw [e1]; exact h1) (by rw [e2]; exact h2) (by rw [e2]; exact hr'), ho⟩

theorem finish_erase (cfg : Cfg) {s t : S} (h : erase cfg s = erase cfg t) :
    erase cfg (finish cfg { s with ms := .end_ }) = erase cfg (finish cfg { t with ms := .end_ }) := by
  rw [finish_end, finish_end]
  obtain ⟨m', a', st', l', c', rfl⟩ : ∃ m' a' st' l' c', s = t.g cfg m' a' st' l' c' := ⟨_, _, _, _, _, eq_g h⟩
  have e1 : ({ t.g cfg m' a' st' l' c' with
      ms := .end_, msg := computeStatus { (t.g cfg m' a' st' l' c').msg with isValid := true } true } : S) =
    ({ t with ms := .end_, msg := computeStatus { t.msg with isValid := true } true } : S).g cfg m' a'
      (computeStatus { (t.g cfg m' a' st' l' c').msg with isValid := true } true).status l' c' := by
    unfold S.g computeStatus; cases cfg.handler <;> rfl
  refine (congrArg (erase cfg) (congrArg (finishForm cfg) e1)).trans ?_
  rw [finishForm_g, erase_g]

theorem parseEnd_erase (cfg : Cfg) (rc : Tri) {s t : S} (h : erase cfg s = erase cfg t) (n k : Nat) :
    erase cfg (parseEnd cfg rc s n) = erase cfg (parseEnd cfg rc t k) := by
  unfold parseEnd
  cases rc with
  | yes => exact finish_erase cfg h
  | no => exact h
  | more => exact h

theorem parseBegin_erase (cfg : Cfg) (s : S) : erase cfg (parseBegin s) = erase cfg s := by
  unfold parseBegin; split <;> rfl

/-- `parse` up to the fields without influence. -/
theorem parse_erase (cfg : Cfg) {s t : S} (h : erase cfg s = erase cfg t) (buf : Bytes) :
    (parse cfg s buf).map (mapR (erase cfg)) = (parse cfg t buf).map (mapR (erase cfg)) := by
  obtain ⟨r, k, hr, e⟩ := parse_runs cfg t buf
  obtain ⟨r', hr', ho⟩ := runs_erase cfg hr (parseBegin s) (by rw [parseBegin_erase, parseBegin_erase, h])
  obtain ⟨k', e'⟩ := parse_of_runs cfg hr'
  rw [e, e']
  obtain ⟨rc, u, rest⟩ := r
  obtain ⟨rc', u', rest'⟩ := r'
  simp only [mapR, Prod.mk.injEq] at ho
  obtain ⟨rfl, h2, rfl⟩ := ho
  simp only [Option.map_some, mapR, parseEnd_erase cfg rc' h2 k' k]

/-- A pass that asks for more is not at the end. -/
theorem iter_more_not_end (cfg : Cfg) (s : S) (buf : Bytes) (h : (iter cfg s buf).1 = .more) :
    (iter cfg s buf).2.1.ms ≠ .end_ := by
  by_cases hh : s.ms = .start ∨ s.ms = .headers ∨ s.ms = .footers
  · rw [iter_headers cfg s buf hh] at h ⊢
    have := parseHeaders_ms cfg (enterH s) buf
    have he : (enterH s).ms = .headers ∨ (enterH s).ms = .footers := enterH_ms s hh
    generalize parseHeaders cfg (enterH s) buf = r at *
    unfold postH at h ⊢
    split at h
    · rename_i hy
      rw [if_pos hy]
      have := finishHeaders_more_ms cfg _ h
      rcases this with h | h | h <;> simp [h]
    · rename_i hy
      rw [if_neg hy, this]
      rcases he with he | he <;> simp [he]
  · cases hs : s.ms with
    | start | headers | footers => simp [hs] at hh
    | chunks =>
      rw [iter_chunks cfg s buf hs] at h ⊢
      have hm := parseChunks_ms cfg s buf
      generalize parseChunks cfg s buf = r at *
      unfold postC at h ⊢
      split at h
      · rename_i hy
        rw [if_pos hy]
        dsimp only at h ⊢
        split at h
        · rename_i hf; rw [hf]; simp
        · simp at h
      · rename_i hy
        rw [if_neg hy, hm h, hs]; simp
    | content =>
      unfold iter; simp only [hs]
      rw [consumeContent_eq]
      split
      · simp [hs]
      · simp [S.upd, (store_contentRead _ _ _).2.2.2.1, hs]
    | noLength =>
      unfold iter consumeAsNextChunk; simp only [hs]
      cases buf <;> cases cfg.handler <;> simp
    | end_ => unfold iter at h; simp [hs] at h

theorem runs_more_not_end (cfg : Cfg) {s buf r} (h : Runs cfg s buf r) (hm : r.1 = .more) : r.2.1.ms ≠ .end_ := by
  induction h with
  | @stop s buf _ => exact iter_more_not_end cfg s buf hm
  | next _ _ _ ih => exact ih hm

end Verif.Http
