import Verif.Lemmas.HttpDicts
import Verif.Lemmas.HttpErase
import Verif.Model.HeadFirst
/-
After the head, the query parameters, the cookies, the mark that the message is valid, its status and `gcount` have no
influence on what the parser does.
-/
namespace Verif.Http

/-- Replace the fields that have no influence. -/
def S.q (q k : Dict) (v : Bool) (st : DataStatus) (l : Nat) (s : S) : S :=
  { s with lastRead := l, msg := { s.msg with queries := q, cookies := k, isValid := v, status := st } }

/-- Forget them. -/
def eraseQ (s : S) : S := s.q [] [] false .none 0

theorem eraseQ_q (q k v st l) (s : S) : eraseQ (s.q q k v st l) = eraseQ s := rfl

theorem eq_q {s t : S} (h : eraseQ s = eraseQ t) :
    s = t.q s.msg.queries s.msg.cookies s.msg.isValid s.msg.status s.lastRead := by
  have h1 : (eraseQ s).q s.msg.queries s.msg.cookies s.msg.isValid s.msg.status s.lastRead = s := rfl
  have h2 : (eraseQ t).q s.msg.queries s.msg.cookies s.msg.isValid s.msg.status s.lastRead =
      t.q s.msg.queries s.msg.cookies s.msg.isValid s.msg.status s.lastRead := rfl
  rw [← h2, ← h, h1]

section
variable (q k : Dict) (v : Bool) (st : DataStatus) (l : Nat)

theorem hswitch_q (cfg : Cfg) (s : S) (x : UInt8) : hswitch cfg (s.q q k v st l) x = (hswitch cfg s x).map (·.q q k v st l) := by
  have e : (s.q q k v st l).hs = s.hs := rfl
  cases h : s.hs <;> simp only [hswitch, h, e]
  all_goals (repeat' split)
  all_goals first | rfl | simp_all [S.q]

theorem hstep_q (cfg : Cfg) (s : S) (x : UInt8) : hstep cfg (s.q q k v st l) x = (hstep cfg s x).map (·.q q k v st l) := by
  simp only [hstep]
  cases cfg.saveRaw
  · exact hswitch_q q k v st l cfg s x
  · exact hswitch_q q k v st l cfg { s with raw := s.raw ++ [x] } x

theorem chunkData_q (cfg : Cfg) (s : S) (x : UInt8) : chunkData cfg (s.q q k v st l) x [] =
    ((chunkData cfg s x []).1.q q k v st l, (chunkData cfg s x []).2) := by
  have e1 : (s.q q k v st l).chunkRead = s.chunkRead := rfl
  have e2 : (s.q q k v st l).chunkSize = s.chunkSize := rfl
  have e3 : (s.q q k v st l).msg.chunkCache = s.msg.chunkCache := rfl
  simp only [chunkData, e1, e2, e3]
  repeat' split
  all_goals rfl

theorem cbyte_q (cfg : Cfg) (s : S) (x : UInt8) : cbyte cfg (s.q q k v st l) x = (cbyte cfg s x).map (·.q q k v st l) := by
  have e : (s.q q k v st l).cs = s.cs := rfl
  cases h : s.cs <;> simp only [cbyte, cstep, h, e]
  case chunk =>
    rw [chunkData_q]
    generalize chunkData cfg s x [] = r
    have e1 : (r.1.q q k v st l).chunkRead = r.1.chunkRead := rfl
    have e2 : (r.1.q q k v st l).chunkSize = r.1.chunkSize := rfl
    simp only [e1, e2]
    by_cases hr : r.1.chunkRead = r.1.chunkSize
    · simp only [hr, if_true]; rfl
    · simp only [hr, if_false]; rfl
  case expLfAfterSize =>
    have e1 : (s.q q k v st l).chunkSizeStr = s.chunkSizeStr := rfl
    simp only [e1]
    by_cases hx : x = LF
    · simp only [hx, if_true]
      by_cases hn : (strtol16 s.chunkSizeStr).toNat = 0
      · simp only [hn, if_true]; rfl
      · simp only [hn, if_false]; rfl
    · simp only [hx, if_false]; rfl
  all_goals (repeat' split)
  all_goals rfl

theorem run_q (step : S → UInt8 → HRes)
    (h : ∀ s x, step (s.q q k v st l) x = (step s x).map (·.q q k v st l)) (s : S) (b : Bytes) :
    run step (s.q q k v st l) b = mapR (·.q q k v st l) (run step s b) := by
  induction b generalizing s with
  | nil => rfl
  | cons x b ih =>
    simp only [run, h]
    cases hx : step s x with
    | more s' => exact ih s'
    | done s' f => cases f <;> rfl
    | fail s' e => rfl

theorem count_q (content : Bool) (buf : Bytes) (r : Tri × S × Bytes) :
    mapR eraseQ (count content buf (mapR (·.q q k v st l) r)) = mapR eraseQ (count content buf r) := by
  obtain ⟨rc, s, rest⟩ := r
  unfold count mapR
  dsimp only
  split <;> rfl

theorem createBuffer_q (s : S) : createBuffer (s.q q k v st l) = (createBuffer s).q q k v st l := by
  unfold createBuffer
  rw [show (s.q q k v st l).msg.contentLength = s.msg.contentLength from rfl]
  split <;> rfl

theorem concatenateChunks_q (s : S) :
    concatenateChunks (s.q q k v st l) = (concatenateChunks s).q q k v st l := by
  unfold concatenateChunks
  have : createBuffer { s.q q k v st l with
        msg := { (s.q q k v st l).msg with contentLength := (s.q q k v st l).msg.chunkCache.length } }
    = (createBuffer { s with msg := { s.msg with contentLength := s.msg.chunkCache.length } }).q q k v st l :=
    createBuffer_q q k v st l { s with msg := { s.msg with contentLength := s.msg.chunkCache.length } }
  simp only [this]
  generalize createBuffer { s with msg := { s.msg with contentLength := s.msg.chunkCache.length } } = s'
  rw [show (s'.q q k v st l).msg.chunkCache = s'.msg.chunkCache from rfl,
    show (s'.q q k v st l).msg.content = s'.msg.content from rfl]
  split <;> rfl

theorem store_q (cfg : Cfg) (s : S) (d : Bytes) : store cfg (s.q q k v st l) d = (store cfg s d).q q k v st l := by
  unfold store
  cases hh : cfg.handler
  · have e1 : (s.q q k v st l).contentRead = s.contentRead := rfl
    simp only [Bool.false_eq_true, if_false, e1]
    unfold blit
    rw [show (s.q q k v st l).msg.content = s.msg.content from rfl]
    repeat' split
    all_goals rfl
  · rfl

theorem iter_q (cfg : Cfg) (s : S) (buf : Bytes) (h0 : s.ms ≠ .start) (h1 : s.ms ≠ .headers) :
    mapR eraseQ (iter cfg (s.q q k v st l) buf) = mapR eraseQ (iter cfg s buf) := by
  have hms : (s.q q k v st l).ms = s.ms := rfl
  have hC : ∀ r r' : Tri × S × Bytes, mapR eraseQ r = mapR eraseQ r' →
      mapR eraseQ (postC cfg r) = mapR eraseQ (postC cfg r') := by
    rintro ⟨rc, u, rest⟩ ⟨rc', v, rest'⟩ h
    simp only [mapR, Prod.mk.injEq] at h
    obtain ⟨rfl, h2, rfl⟩ := h
    have hu := eq_q h2
    generalize u.msg.queries = m', u.msg.cookies = a', u.msg.isValid = b', u.msg.status = st', u.lastRead = l' at hu
    subst hu
    unfold postC
    dsimp only
    rw [concatenateChunks_q]
    split <;> rfl
  cases hs : s.ms with
  | start => exact absurd hs h0
  | headers => exact absurd hs h1
  | footers =>
    have hh : s.ms = .start ∨ s.ms = .headers ∨ s.ms = .footers := .inr (.inr hs)
    rw [iter_headers cfg s buf hh, iter_headers cfg (s.q q k v st l) buf hh]
    have hp : ∀ r : Tri × S × Bytes, r.2.1.ms = .footers → postH cfg r = r := by
      intro r hr; unfold postH; rw [if_neg (by rw [hr]; simp)]
    have he : enterH s = s := enterH_idem s h0
    have he' : enterH (s.q q k v st l) = s.q q k v st l := enterH_idem _ h0
    rw [he, he', hp (parseHeaders cfg s buf) (by rw [parseHeaders_ms]; exact hs),
      hp (parseHeaders cfg (s.q q k v st l) buf) (by rw [parseHeaders_ms]; exact hs), parseHeaders_eq, parseHeaders_eq]
    have e : (s.q q k v st l).setL 0 = (s.setL 0).q q k v st 0 := rfl
    rw [e, run_q q k v st 0 _ (hstep_q q k v st 0 cfg), count_q]
  | chunks =>
    rw [iter_chunks cfg s buf hs, iter_chunks cfg (s.q q k v st l) buf hs]
    apply hC
    rw [parseChunks_eq, parseChunks_eq]
    have e : (s.q q k v st l).setL 0 = (s.setL 0).q q k v st 0 := rfl
    rw [e, run_q q k v st 0 _ (cbyte_q q k v st 0 cfg), count_q]
  | content =>
    unfold iter
    rw [hms]
    simp only [hs]
    rw [consumeContent_eq, consumeContent_eq]
    rw [show (s.q q k v st l).remaining = s.remaining from rfl]
    split
    · rfl
    · simp only
      have e : store cfg { s.q q k v st l with remaining := s.remaining - min s.remaining buf.length }
          (buf.take (min s.remaining buf.length)) =
        (store cfg { s with remaining := s.remaining - min s.remaining buf.length }
          (buf.take (min s.remaining buf.length))).q q k v st l :=
        store_q q k v st l cfg { s with remaining := s.remaining - min s.remaining buf.length } _
      rw [e]
      rfl
  | noLength =>
    unfold iter consumeAsNextChunk
    rw [hms]
    simp only [hs]
    cases buf <;> cases hh : cfg.handler <;> simp [mapR, eraseQ, S.q]
  | end_ =>
    unfold iter
    rw [hms]
    simp only [hs]
    rfl

end

/-- The head has been read. -/
def Past (s : S) : Prop := s.ms ≠ .start ∧ s.ms ≠ .headers

theorem past_iter (cfg : Cfg) {s : S} (h : Past s) (buf : Bytes) : Past (iter cfg s buf).2.1 := by
  have := (invRun_afterHead cfg s.msg.cookies s.msg.queries).iter s buf ⟨rfl, rfl, h.1, h.2⟩
  exact ⟨this.notStart, this.notHeaders⟩

theorem past_runs (cfg : Cfg) {s buf r} (hr : Runs cfg s buf r) (h : Past s) : Past r.2.1 := by
  have := (invRun_afterHead cfg s.msg.cookies s.msg.queries).runs hr ⟨rfl, rfl, h.1, h.2⟩
  exact ⟨this.notStart, this.notHeaders⟩

theorem iter_eraseQ (cfg : Cfg) {s t : S} (h : eraseQ s = eraseQ t) (hp : Past t) (buf : Bytes) :
    mapR eraseQ (iter cfg s buf) = mapR eraseQ (iter cfg t buf) := by
  rw [eq_q h]; exact iter_q _ _ _ _ _ cfg t buf hp.1 hp.2

theorem runs_eraseQ (cfg : Cfg) {s buf r} (h : Runs cfg s buf r) : Past s → ∀ s', eraseQ s' = eraseQ s →
    ∃ r', Runs cfg s' buf r' ∧ mapR eraseQ r' = mapR eraseQ r := by
  induction h with
  | @stop s buf hs =>
    intro hp s' h'
    have e := iter_eraseQ cfg h' hp buf
    have e1 : (iter cfg s' buf).1 = (iter cfg s buf).1 := by have := congrArg Prod.fst e; exact this
    have e2 : (iter cfg s' buf).2.2 = (iter cfg s buf).2.2 := congrArg (·.2.2) e
    exact ⟨_, .stop (by rw [e1, e2]; exact hs), e⟩
  | @next s buf r h1 h2 hr ih =>
    intro hp s' h'
    have e := iter_eraseQ cfg h' hp buf
    have e1 : (iter cfg s' buf).1 = (iter cfg s buf).1 := by have := congrArg Prod.fst e; exact this
    have e2 : (iter cfg s' buf).2.2 = (iter cfg s buf).2.2 := congrArg (·.2.2) e
    have e3 : eraseQ (iter cfg s' buf).2.1 = eraseQ (iter cfg s buf).2.1 := congrArg (·.2.1) e
    obtain ⟨r', hr', ho⟩ := ih (past_iter cfg hp buf) _ e3
    exact ⟨r', .next (by rw [e1]; exact h1) (by rw [e2]; exact h2) (by rw [e2]; exact hr'), ho⟩

/-! ### The end of the message -/

/-- The form parser returned. -/
def isRet : Multipart.Res → Bool
  | .ret _ _ => true
  | _ => false

theorem step_dict (body bd : Bytes) (s : Multipart.St) (d : Dict) (p : Nat) (c : UInt8) :
    (∃ s' d' p', Multipart.step body bd s p c = .next s' p' ∧
      Multipart.step body bd { s with dict := d } p c = .next { s' with dict := d' } p') ∨
    ((∀ s' p', Multipart.step body bd s p c ≠ .next s' p') ∧
      Multipart.step body bd { s with dict := d } p c = Multipart.step body bd s p c) := by
  obtain ⟨x, hn, hv, fn, ct, fo, mi, di⟩ := s
  cases x <;> simp only [Multipart.step]
  case headerValue =>
    split
    · refine .inl ⟨_, d, _, rfl, ?_⟩
      unfold Multipart.endHeader
      dsimp only
      by_cases h1 : iequals hn (b! "Content-Type") = true
      · simp only [h1, if_true]
      · by_cases h2 : iequals hn (b! "Content-Disposition") = true
        · simp only [h1, h2, if_true, Bool.false_eq_true, if_false]
        · simp only [h1, h2, Bool.false_eq_true, if_false]
    · exact .inl ⟨_, d, _, rfl, rfl⟩
  all_goals (repeat' split)
  all_goals first
    | exact .inl ⟨_, d, _, rfl, rfl⟩
    | exact .inl ⟨_, _, _, rfl, rfl⟩
    | exact .inr ⟨by simp, rfl⟩

theorem loop_dict (body bd : Bytes) (fuel : Nat) : ∀ (s : Multipart.St) (d : Dict) (p : Nat),
    isRet (Multipart.loop body bd fuel { s with dict := d } p) = isRet (Multipart.loop body bd fuel s p) := by
  induction fuel with
  | zero => intro s d p; rfl
  | succ fuel ih =>
    intro s d p
    unfold Multipart.loop
    cases body[p]? with
    | none => rfl
    | some c =>
      dsimp only
      rcases step_dict body bd s d p c with ⟨s', d', p', h1, h2⟩ | ⟨h1, h2⟩
      · rw [h1, h2]; exact ih s' d' p'
      · rw [h2]
        cases hs : Multipart.step body bd s p c with
        | next s' p' => exact absurd hs (h1 s' p')
        | ret | negativeLength | outOfBounds => rfl

theorem parseMultipart_dict (d d' : Dict) (ct body : Bytes) :
    isRet (Multipart.parseMultipart d ct body) = isRet (Multipart.parseMultipart d' ct body) := by
  unfold Multipart.parseMultipart
  split
  · rfl
  split
  · rfl
  · exact (loop_dict body _ _ { dict := d' } d _)

theorem finishForm_q (cfg : Cfg) (q k : Dict) (v : Bool) (st : DataStatus) (l : Nat) (s : S) :
    ∃ q', finishForm cfg (s.q q k v st l) = (finishForm cfg s).q q' k v st l := by
  unfold finishForm
  have e1 : (s.q q k v st l).msg.headers = s.msg.headers := rfl
  have e2 : (s.q q k v st l).msg.content = s.msg.content := rfl
  have e3 : (s.q q k v st l).msg.contentLength = s.msg.contentLength := rfl
  rw [e1, e2, e3]
  split
  · simp only
    split
    · split
      · exact ⟨q, rfl⟩
      · exact ⟨_, rfl⟩
    split
    · split
      · exact ⟨q, rfl⟩
      · have := parseMultipart_dict (s.q q k v st l).msg.queries s.msg.queries (s.msg.headers.get cfg.ord (b! "Content-Type"))
          ((s.msg.content.take s.msg.contentLength).map (·.getD 0))
        revert this
        cases Multipart.parseMultipart (s.q q k v st l).msg.queries (s.msg.headers.get cfg.ord (b! "Content-Type"))
          ((s.msg.content.take s.msg.contentLength).map (·.getD 0)) <;>
        cases Multipart.parseMultipart s.msg.queries (s.msg.headers.get cfg.ord (b! "Content-Type"))
          ((s.msg.content.take s.msg.contentLength).map (·.getD 0)) <;>
        simp only [isRet, Bool.true_eq_false, Bool.false_eq_true, false_imp_iff, forall_const] <;>
        exact ⟨_, rfl⟩
    · exact ⟨q, rfl⟩
  · exact ⟨q, rfl⟩

theorem parseEnd_eraseQ (cfg : Cfg) (rc : Tri) {s t : S} (h : eraseQ s = eraseQ t) (n n' : Nat) :
    eraseQ (parseEnd cfg rc s n) = eraseQ (parseEnd cfg rc t n') := by
  unfold parseEnd
  cases rc with
  | yes =>
    dsimp only
    rw [finish_end, finish_end]
    obtain ⟨q, k, v, st, l, rfl⟩ : ∃ q k v st l, s = t.q q k v st l := ⟨_, _, _, _, _, eq_q h⟩
    obtain ⟨q', e⟩ := finishForm_q cfg q k true (computeStatus { (t.q q k v st l).msg with isValid := true } true).status l
      { t with ms := .end_, msg := computeStatus { t.msg with isValid := true } true }
    have e1 : ({ t.q q k v st l with
        ms := .end_, msg := computeStatus { (t.q q k v st l).msg with isValid := true } true } : S) =
      ({ t with ms := .end_, msg := computeStatus { t.msg with isValid := true } true } : S).q q k true
        (computeStatus { (t.q q k v st l).msg with isValid := true } true).status l := rfl
    rw [e1, e]
    rfl
  | no => exact h
  | more => exact h

theorem finishForm_valid (cfg : Cfg) (s : S) : (finishForm cfg s).msg.isValid = s.msg.isValid ∧
    (finishForm cfg s).msg.status = s.msg.status := by
  unfold finishForm
  dsimp only
  repeat' split
  all_goals exact ⟨rfl, rfl⟩

theorem parseEnd_valid (cfg : Cfg) (s : S) (n : Nat) : (parseEnd cfg .yes s n).msg.isValid = true ∧
    (parseEnd cfg .yes s n).msg.status = (computeStatus { s.msg with isValid := true } true).status :=
  finishForm_valid cfg { s with ms := .end_, msg := computeStatus { s.msg with isValid := true } true }

theorem past_parseEnd (cfg : Cfg) (rc : Tri) {s : S} (h : Past s) (n : Nat) : Past (parseEnd cfg rc s n) := by
  have hf : ∀ x : S, (finishForm cfg x).ms = x.ms := by
    intro x; unfold finishForm; dsimp only; repeat' split
    all_goals rfl
  unfold parseEnd Past
  cases rc with
  | yes => dsimp only; rw [finish_end, hf]; simp
  | no => exact h
  | more => exact h

theorem parseBegin_eraseQ {s t : S} (h : eraseQ s = eraseQ t) : eraseQ (parseBegin s) = eraseQ (parseBegin t) := by
  obtain ⟨q, k, v, st, l, rfl⟩ : ∃ q k v st l, s = t.q q k v st l := ⟨_, _, _, _, _, eq_q h⟩
  unfold parseBegin
  rw [show (t.q q k v st l).msg.missing = t.msg.missing from rfl]
  split <;> rfl

theorem past_parseBegin {s : S} (h : Past s) : Past (parseBegin s) := by
  unfold parseBegin; split <;> exact h

/-- Two results that agree. -/
def Agree (r r' : Tri × S × Bytes) : Prop :=
  r.1 = r'.1 ∧ eraseQ r.2.1 = eraseQ r'.2.1 ∧ r.2.2 = r'.2.2 ∧
    (r.1 = .yes → r.2.1.msg.isValid = r'.2.1.msg.isValid ∧ r.2.1.msg.status = r'.2.1.msg.status)

theorem parse_of_agree (cfg : Cfg) {r r' : Tri × S × Bytes} (h : mapR eraseQ r = mapR eraseQ r') (n n' : Nat) :
    Agree (r.1, parseEnd cfg r.1 r.2.1 n, r.2.2) (r'.1, parseEnd cfg r'.1 r'.2.1 n', r'.2.2) := by
  obtain ⟨rc, u, rest⟩ := r
  obtain ⟨rc', u', rest'⟩ := r'
  simp only [mapR, Prod.mk.injEq] at h
  obtain ⟨rfl, h2, rfl⟩ := h
  refine ⟨rfl, parseEnd_eraseQ cfg rc h2 _ _, rfl, ?_⟩
  rintro rfl
  have h3 : (computeStatus { u.msg with isValid := true } true).status =
      (computeStatus { u'.msg with isValid := true } true).status := by
    rw [eq_q h2]; rfl
  exact ⟨by rw [(parseEnd_valid cfg u n).1, (parseEnd_valid cfg u' n').1], by rw [(parseEnd_valid cfg u n).2, (parseEnd_valid cfg u' n').2, h3]⟩

theorem parse_eraseQ (cfg : Cfg) {s t : S} (h : eraseQ s = eraseQ t) (hp : Past t) (buf : Bytes) :
    ∃ r r', parse cfg s buf = some r ∧ parse cfg t buf = some r' ∧ Agree r r' ∧ Past r'.2.1 := by
  obtain ⟨r', n', hr', e'⟩ := parse_runs cfg t buf
  obtain ⟨r, hr, ho⟩ := runs_eraseQ cfg hr' (past_parseBegin hp) (parseBegin s) (parseBegin_eraseQ h)
  obtain ⟨n, e⟩ := parse_of_runs cfg hr
  exact ⟨_, _, e, e', parse_of_agree cfg ho n n', past_parseEnd cfg _ (past_runs cfg hr' (past_parseBegin hp)) _⟩

/-- Two results of a whole run that agree. -/
def AgreeAll (r r' : Tri × S × Bytes × List Bytes) : Prop :=
  Agree (r.1, r.2.1, r.2.2.1) (r'.1, r'.2.1, r'.2.2.1) ∧ r.2.2.2 = r'.2.2.2

theorem feed_of_agree (cfg : Cfg) (more : List Bytes)
    (ih : ∀ {s t : S}, eraseQ s = eraseQ t → Past t →
      ∃ r r', feed cfg s more = some r ∧ feed cfg t more = some r' ∧ AgreeAll r r') {s t : S} {b b' : Bytes}
    {r r' : Tri × S × Bytes} (h1 : parse cfg s b = some r) (h2 : parse cfg t b' = some r') (ha : Agree r r')
    (hp : Past r'.2.1) :
    ∃ q q', feed cfg s (b :: more) = some q ∧ feed cfg t (b' :: more) = some q' ∧ AgreeAll q q' := by
  obtain ⟨rc, u, rest⟩ := r
  obtain ⟨rc', u', rest'⟩ := r'
  obtain ⟨rfl, a2, rfl, a4⟩ := id ha
  dsimp only at a2 a4 hp
  simp only [feed, h1, h2]
  cases rc with
  | more => exact ih a2 hp
  | yes => exact ⟨_, _, rfl, rfl, ha, rfl⟩
  | no => exact ⟨_, _, rfl, rfl, ha, rfl⟩

theorem feed_eraseQ (cfg : Cfg) (bufs : List Bytes) : ∀ {s t : S}, eraseQ s = eraseQ t → Past t →
    (∃ r r', feed cfg s bufs = some r ∧ feed cfg t bufs = some r' ∧ AgreeAll r r') := by
  induction bufs with
  | nil => intro s t h hp; exact ⟨_, _, rfl, rfl, ⟨rfl, h, rfl, by simp⟩, rfl⟩
  | cons b bufs ih =>
    intro s t h hp
    obtain ⟨r, r', h1, h2, ha, hp'⟩ := parse_eraseQ cfg h hp b
    exact feed_of_agree cfg bufs ih h1 h2 ha hp'

/-! ### The head -/

theorem parseHeaders_headOnly (cfg : Cfg) (s : S) (buf : Bytes) :
    parseHeaders (headOnly cfg) s buf = parseHeaders cfg s buf := by
  have h : hstep (headOnly cfg) = hstep cfg := by funext s c; rfl
  rw [parseHeaders_eq, parseHeaders_eq, h]

theorem finishForm_headOnly (cfg : Cfg) (s : S) : finishForm (headOnly cfg) s = s := by
  unfold finishForm headOnly; simp

/-- The state after the head alone. -/
def headDone (s : S) (n : Nat) : S :=
  { s with ms := .end_, lastRead := n, msg := computeStatus { s.msg with isValid := true } true }

theorem parseEnd_headOnly (cfg : Cfg) (s : S) (n : Nat) : parseEnd (headOnly cfg) .yes s n = headDone s n := by
  unfold parseEnd; dsimp only; rw [finish_end, finishForm_headOnly]; rfl

theorem headOnly_not_more (cfg : Cfg) (x : S) : (finishHeaders (headOnly cfg) x).1 ≠ .more := by
  rw [finishHeaders_eq]
  unfold finishHeaders2
  rw [show (headOnly cfg).headersOnly = true from rfl]
  dsimp only
  repeat' split
  all_goals simp_all

theorem head_phase {s : S} (hs : s.ms = .start ∨ s.ms = .headers) :
    s.ms = .start ∨ s.ms = .headers ∨ s.ms = .footers := by
  rcases hs with h | h
  · exact .inl h
  · exact .inr (.inl h)

/-- While the head is not complete, it makes no difference that only the head is wanted. -/
theorem head_more {cfg : Cfg} {s s1 : S} {stream rest : Bytes} (hs : s.ms = .start ∨ s.ms = .headers)
    (hm : s.msg.missing = false) (h : parse (headOnly cfg) s stream = some (.more, s1, rest)) :
    parse cfg s stream = some (.more, s1, rest) ∧ s1.ms = .headers ∧ s1.msg.missing = false := by
  obtain ⟨r, n, hr, e⟩ := parse_runs (headOnly cfg) s stream
  have hb : parseBegin s = s := by unfold parseBegin; simp [hm]
  rw [hb] at hr
  rw [h] at e
  have hi := iter_headers (headOnly cfg) s stream (head_phase hs)
  have hi2 := iter_headers cfg s stream (head_phase hs)
  rw [parseHeaders_headOnly] at hi
  have hms := parseHeaders_ms cfg (enterH s) stream
  have hen : (enterH s).ms = .headers := by unfold enterH; rcases hs with hs | hs <;> simp [hs]
  rw [hen] at hms
  have hmore := headOnly_not_more cfg
  have hmr : (parseHeaders cfg (enterH s) stream).1 = .more → (parseHeaders cfg (enterH s) stream).2.2 = [] := by
    rw [parseHeaders_eq]; exact count_more_rest _ _ _ _
  have hfl := iter_flags cfg s stream
  rw [hi2] at hfl
  generalize parseHeaders cfg (enterH s) stream = q at *
  obtain ⟨rc, u, rest0⟩ := q
  dsimp only at hms hmr
  have hr' : r = iter (headOnly cfg) s stream := by
    cases hr with
    | stop => rfl
    | next h1 h2 _ =>
      exfalso
      rw [hi] at h1 h2
      unfold postH at h1 h2
      by_cases hy : rc = .yes
      · rw [if_pos ⟨hy, hms⟩] at h1; exact hmore _ h1
      · rw [if_neg (by simp [hy])] at h1 h2; exact h2 (hmr h1)
  subst hr'
  rw [hi] at e
  unfold postH at e hi2 hfl
  by_cases hy : rc = .yes
  · rw [if_pos ⟨hy, hms⟩] at e
    simp only [Option.some.injEq, Prod.mk.injEq] at e
    exact absurd e.1.symm (hmore _)
  · rw [if_neg (by simp [hy])] at e hi2 hfl
    simp only [Option.some.injEq, Prod.mk.injEq] at e
    obtain ⟨rfl, e2, rfl⟩ := e
    have hrest := hmr rfl
    subst hrest
    have hu : u.msg.missing = false := (by have := congrArg Prod.fst hfl; exact this : u.msg.missing = s.msg.missing).trans hm
    have hpc : parse cfg s stream = parse (headOnly cfg) s stream := by
      unfold parse
      rw [hb, parseLoop, parseLoop, hi, hi2]
      unfold postH
      simp only [reduceCtorEq, false_and, if_false, ne_eq, not_true_eq_false, and_false, Option.map_some]
      rfl
    rw [hpc, h]
    subst e2
    exact ⟨rfl, hms, hu⟩

theorem head_split {cfg : Cfg} {s s1 : S} {stream rest : Bytes} (hs : s.ms = .start ∨ s.ms = .headers) (hm : s.msg.missing = false)
    (h : parse (headOnly cfg) s stream = some (.yes, s1, rest)) :
    ∃ u n, parseHeaders cfg (enterH s) stream = (.yes, u, rest) ∧ u.ms = .headers ∧
      (finishHeaders (headOnly cfg) u).1 = .yes ∧ s1 = headDone (finishHeaders (headOnly cfg) u).2 n := by
  obtain ⟨r, n, hr, e⟩ := parse_runs (headOnly cfg) s stream
  have hb : parseBegin s = s := by unfold parseBegin; simp [hm]
  rw [hb] at hr
  rw [h] at e
  have hi := iter_headers (headOnly cfg) s stream (head_phase hs)
  rw [parseHeaders_headOnly] at hi
  have hms := parseHeaders_ms cfg (enterH s) stream
  have hen : (enterH s).ms = .headers := by unfold enterH; rcases hs with hs | hs <;> simp [hs]
  rw [hen] at hms
  have hmore := headOnly_not_more cfg
  have hmr : (parseHeaders cfg (enterH s) stream).1 = .more → (parseHeaders cfg (enterH s) stream).2.2 = [] := by
    rw [parseHeaders_eq]; exact count_more_rest _ _ _ _
  generalize parseHeaders cfg (enterH s) stream = q at *
  obtain ⟨rc, u, rest0⟩ := q
  dsimp only at hms hmr
  have hr' : r = iter (headOnly cfg) s stream := by
    cases hr with
    | stop => rfl
    | next h1 h2 _ =>
      exfalso
      rw [hi] at h1 h2
      unfold postH at h1 h2
      by_cases hy : rc = .yes
      · rw [if_pos ⟨hy, hms⟩] at h1; exact hmore _ h1
      · rw [if_neg (by simp [hy])] at h1 h2; exact h2 (hmr h1)
  subst hr'
  rw [hi] at e
  unfold postH at e
  by_cases hy : rc = .yes
  · rw [if_pos ⟨hy, hms⟩] at e
    simp only [Option.some.injEq, Prod.mk.injEq] at e
    obtain ⟨e1, e2, rfl⟩ := e
    rw [← e1, parseEnd_headOnly] at e2
    exact ⟨u, n, by rw [hy], hms, e1.symm, e2⟩
  · rw [if_neg (by simp [hy])] at e
    simp only [Option.some.injEq, Prod.mk.injEq] at e
    exact absurd e.1.symm hy

theorem finishHeaders1_again (cfg : Cfg) (u : S) (n r z : Nat) (cc : Bytes) (v : Bool) (st : DataStatus) : ∃ q k,
    finishHeaders1 cfg { finishHeaders1 cfg u with
      ms := .end_, lastRead := n, remaining := r
      msg := { (finishHeaders1 cfg u).msg with isValid := v, status := st, contentLength := z, chunkCache := cc } } =
    S.q q k v st n { finishHeaders1 cfg u with ms := .end_, msg := { (finishHeaders1 cfg u).msg with chunkCache := cc } } := by
  unfold finishHeaders1 updateMessage
  cases cfg.isRequest <;> exact ⟨_, _, rfl⟩

theorem updateContentLength_q (ord : Dict.Order) (q k : Dict) (v : Bool) (st : DataStatus) (cc : Bytes) (x : Msg) :
    ({ x with queries := q, cookies := k, isValid := v, status := st, chunkCache := cc } : Msg).updateContentLength ord =
      (x.updateContentLength ord).map fun y =>
        { y with queries := q, cookies := k, isValid := v, status := st, chunkCache := cc } := by
  unfold Msg.updateContentLength
  dsimp only
  split
  · rfl
  · rw [Option.map_map]; rfl

theorem updateContentLength_only {ord : Dict.Order} {x y : Msg} (h : x.updateContentLength ord = some y) :
    y = { x with contentLength := y.contentLength } := by
  unfold Msg.updateContentLength at h
  split at h
  · simp only [Option.some.injEq] at h; subst h; rfl
  · simp only [Option.map_eq_some_iff] at h; obtain ⟨n, _, rfl⟩ := h; rfl

/-- After the head alone, `skip_header_parsing` leads to the state in which the parser would have gone on. -/
theorem finish_again (cfg : Cfg) (hho : cfg.headersOnly = false) (u : S) (n : Nat)
    (h : (finishHeaders (headOnly cfg) u).1 = .yes) :
    eraseQ (skipHeaders cfg (headDone (finishHeaders (headOnly cfg) u).2 n)) = eraseQ (finishHeaders cfg u).2 ∧
    (finishHeaders cfg u).1 ≠ .no ∧ ((finishHeaders cfg u).1 = .yes → (finishHeaders cfg u).2.ms = .end_) ∧
    Past (finishHeaders cfg u).2 := by
  unfold skipHeaders
  rw [finishHeaders_eq, finishHeaders_eq, finishHeaders_eq] at *
  have e1 : finishHeaders1 (headOnly cfg) u = finishHeaders1 cfg u := rfl
  rw [e1] at h ⊢
  have again := finishHeaders1_again cfg u n
  generalize finishHeaders1 cfg u = t at *
  have hk : (headOnly cfg).headersOnly = true := rfl
  have hr : (headOnly cfg).isRequest = cfg.isRequest := rfl
  have ho : (headOnly cfg).ord = cfg.ord := rfl
  have hx : (headOnly cfg).maxContent = cfg.maxContent := rfl
  by_cases c1 : t.msg.isChunked = true
  · have f1 : finishHeaders2 (headOnly cfg) t = (.yes, { t with ms := .chunks }) := by unfold finishHeaders2; simp [c1, hk]
    have f2 : ∀ t' : S, t'.msg.isChunked = true → finishHeaders2 cfg t' = (.more, { t' with ms := .chunks }) := by
      intro t' c; unfold finishHeaders2; simp [c, hho]
    rw [f1, f2 t c1]
    obtain ⟨q, k, e⟩ := again t.remaining t.msg.contentLength t.msg.chunkCache true
      (computeStatus { t.msg with isValid := true } true).status
    refine ⟨?_, by simp, by simp, by simp [Past]⟩
    generalize hX : S.q q k _ _ _ _ = X at e
    refine (congrArg (fun x => eraseQ { (finishHeaders2 cfg x).2 with ec := t.ec }) e).trans ?_
    rw [f2 X (by rw [← hX]; exact c1), ← hX]
    rfl
  by_cases c2 : t.msg.contentLengthImplied cfg.isRequest = true
  · have f1 : finishHeaders2 (headOnly cfg) t = (.yes, { t with ms := .end_ }) := by unfold finishHeaders2; simp [c1, c2, hr]
    have f2 : ∀ t' : S, ¬ t'.msg.isChunked = true → t'.msg.contentLengthImplied cfg.isRequest = true →
        finishHeaders2 cfg t' = (.yes, { t' with ms := .end_ }) := by
      intro t' c c'; unfold finishHeaders2; simp [c, c']
    rw [f1, f2 t c1 c2]
    obtain ⟨q, k, e⟩ := again t.remaining t.msg.contentLength t.msg.chunkCache true
      (computeStatus { t.msg with isValid := true } true).status
    refine ⟨?_, by simp, by simp, by simp [Past]⟩
    generalize hX : S.q q k _ _ _ _ = X at e
    refine (congrArg (fun x => eraseQ { (finishHeaders2 cfg x).2 with ec := t.ec }) e).trans ?_
    rw [f2 X (by rw [← hX]; exact c1) (by rw [← hX]; exact c2), ← hX]
    rfl
  by_cases c3 : t.msg.headers.has (b! "Content-Length") = true
  · cases hm : t.msg.updateContentLength cfg.ord with
    | none =>
      exfalso
      unfold finishHeaders2 at h
      simp [c1, c2, c3, hr, ho, hm] at h
    | some m =>
      obtain ⟨z, rfl⟩ : ∃ z, m = { t.msg with contentLength := z } := ⟨_, updateContentLength_only hm⟩
      dsimp only at *
      by_cases c4 : z = 0
      · have f1 : finishHeaders2 (headOnly cfg) t = (.yes, { t with msg := { t.msg with contentLength := z }, ms := .end_ }) := by
          unfold finishHeaders2; simp [c1, c2, c3, c4, hr, ho, hm]
        have f2 : ∀ t' m', ¬ t'.msg.isChunked = true → ¬ t'.msg.contentLengthImplied cfg.isRequest = true →
            t'.msg.headers.has (b! "Content-Length") = true → t'.msg.updateContentLength cfg.ord = some m' →
            m'.contentLength = 0 → finishHeaders2 cfg t' = (.yes, { t' with msg := m', ms := .end_ }) := by
          intro t' m' a b c d e; unfold finishHeaders2; simp [a, b, c, d, e]
        rw [f1, f2 t _ c1 c2 c3 hm c4]
        obtain ⟨q, k, e⟩ := again t.remaining z t.msg.chunkCache true
          (computeStatus { t.msg with isValid := true } true).status
        refine ⟨?_, by simp, by simp, by simp [Past]⟩
        generalize hX : S.q q k _ _ _ _ = X at e
        have hu := updateContentLength_q cfg.ord q k true (computeStatus { t.msg with isValid := true } true).status t.msg.chunkCache t.msg
        rw [hm, Option.map_some] at hu
        refine (congrArg (fun x => eraseQ { (finishHeaders2 cfg x).2 with ec := t.ec }) e).trans ?_
        rw [f2 X _ (by rw [← hX]; exact c1) (by rw [← hX]; exact c2) (by rw [← hX]; exact c3) (by rw [← hX]; exact hu) c4, ← hX]
        rfl
      · have f1 : finishHeaders2 (headOnly cfg) t = (.yes, { t with
            ms := .content, remaining := z
            msg := if cfg.maxContent < z then { t.msg with contentLength := cfg.maxContent } else { t.msg with contentLength := z } }) := by
          unfold finishHeaders2; simp [c1, c2, c3, c4, hr, ho, hm, hk, hx]
        have f2 : ∀ t' m', ¬ t'.msg.isChunked = true → ¬ t'.msg.contentLengthImplied cfg.isRequest = true →
            t'.msg.headers.has (b! "Content-Length") = true → t'.msg.updateContentLength cfg.ord = some m' →
            ¬ m'.contentLength = 0 → finishHeaders2 cfg t' = (.more, createBuffer { t' with
              ms := .content, remaining := m'.contentLength
              msg := if cfg.maxContent < m'.contentLength then { m' with contentLength := cfg.maxContent } else m' }) := by
          intro t' m' a b c d e; unfold finishHeaders2; simp [a, b, c, d, e, hho]
        have f0 : (if cfg.maxContent < z then { t.msg with contentLength := cfg.maxContent } else { t.msg with contentLength := z } : Msg) =
            { t.msg with contentLength := if cfg.maxContent < z then cfg.maxContent else z } := by
          split <;> rfl
        rw [f1, f2 t _ c1 c2 c3 hm c4]
        rw [f0]
        obtain ⟨q, k, e⟩ := again z
          (if cfg.maxContent < z then cfg.maxContent else z) t.msg.chunkCache true
          (computeStatus { t.msg with isValid := true } true).status
        refine ⟨?_, by simp, by simp, by simp [Past, createBuffer_ms]⟩
        generalize hX : S.q q k _ _ _ _ = X at e
        have hu := updateContentLength_q cfg.ord q k true (computeStatus { t.msg with isValid := true } true).status t.msg.chunkCache t.msg
        rw [hm, Option.map_some] at hu
        refine (congrArg (fun x => eraseQ { (finishHeaders2 cfg x).2 with ec := t.ec }) e).trans ?_
        rw [f2 X _ (by rw [← hX]; exact c1) (by rw [← hX]; exact c2) (by rw [← hX]; exact c3) (by rw [← hX]; exact hu) c4, ← hX]
        by_cases hz : cfg.maxContent < z
        · simp only [hz, if_true]
          unfold createBuffer
          dsimp only
          split <;> rfl
        · simp only [hz, if_false]
          unfold createBuffer
          dsimp only
          split <;> rfl
  by_cases c5 : cfg.isRequest = true
  · have f1 : finishHeaders2 (headOnly cfg) t = (.yes, { t with ms := .end_ }) := by
      unfold finishHeaders2; rw [c5] at c2; simp [c1, c2, c3, c5, hr]
    have f2 : ∀ t' : S, ¬ t'.msg.isChunked = true → ¬ t'.msg.contentLengthImplied cfg.isRequest = true →
        ¬ t'.msg.headers.has (b! "Content-Length") = true →
        finishHeaders2 cfg t' = (.yes, { t' with ms := .end_ }) := by
      intro t' a b c; unfold finishHeaders2; rw [c5] at b; simp [a, b, c, c5]
    rw [f1, f2 t c1 c2 c3]
    obtain ⟨q, k, e⟩ := again t.remaining t.msg.contentLength t.msg.chunkCache true
      (computeStatus { t.msg with isValid := true } true).status
    refine ⟨?_, by simp, by simp, by simp [Past]⟩
    generalize hX : S.q q k _ _ _ _ = X at e
    refine (congrArg (fun x => eraseQ { (finishHeaders2 cfg x).2 with ec := t.ec }) e).trans ?_
    rw [f2 X (by rw [← hX]; exact c1) (by rw [← hX]; exact c2) (by rw [← hX]; exact c3), ← hX]
    rfl
  · have f1 : finishHeaders2 (headOnly cfg) t = (.yes, { t with msg := { t.msg with chunkCache := [] }, ms := .noLength }) := by
      unfold finishHeaders2; rw [Bool.eq_false_iff.2 c5] at c2; simp [c1, c2, c3, c5, hr, hk]
    have f2 : ∀ t' : S, ¬ t'.msg.isChunked = true → ¬ t'.msg.contentLengthImplied cfg.isRequest = true →
        ¬ t'.msg.headers.has (b! "Content-Length") = true →
        finishHeaders2 cfg t' = (.more, { t' with msg := { t'.msg with chunkCache := [] }, ms := .noLength }) := by
      intro t' a b c; unfold finishHeaders2; rw [Bool.eq_false_iff.2 c5] at b; simp [a, b, c, c5, hho]
    rw [f1, f2 t c1 c2 c3]
    obtain ⟨q, k, e⟩ := again t.remaining t.msg.contentLength [] true
      (computeStatus { t.msg with isValid := true } true).status
    refine ⟨?_, by simp, by simp, by simp [Past]⟩
    generalize hX : S.q q k _ _ _ _ = X at e
    refine (congrArg (fun x => eraseQ { (finishHeaders2 cfg x).2 with ec := t.ec }) e).trans ?_
    rw [f2 X (by rw [← hX]; exact c1) (by rw [← hX]; exact c2) (by rw [← hX]; exact c3), ← hX]
    rfl

/-- The head and then the body: the same result as at once. -/
theorem parse_head_first {cfg : Cfg} (hho : cfg.headersOnly = false) {s s1 : S} {stream rest : Bytes} (hs : s.ms = .start ∨ s.ms = .headers)
    (hm : s.msg.missing = false) (hne : rest ≠ []) (h : parse (headOnly cfg) s stream = some (.yes, s1, rest)) :
    ∃ r r', parse cfg s stream = some r ∧ parse cfg (skipHeaders cfg s1) rest = some r' ∧ Agree r' r ∧ Past r.2.1 := by
  obtain ⟨u, n, hp, hu, hy, rfl⟩ := head_split hs hm h
  obtain ⟨e, hno, hend, hpast⟩ := finish_again cfg hho u n hy
  have hb : parseBegin s = s := by unfold parseBegin; simp [hm]
  have hi := iter_headers cfg s stream (head_phase hs)
  rw [hp] at hi
  unfold postH at hi
  rw [if_pos ⟨rfl, hu⟩] at hi
  have hfl : (finishHeaders cfg u).2.msg.missing = false := by
    have h1 := iter_flags cfg s stream
    rw [hi] at h1
    have := congrArg Prod.fst h1
    exact this.trans hm
  have hb2 : ∀ x : S, eraseQ x = eraseQ (finishHeaders cfg u).2 → parseBegin x = x := by
    intro x hx
    unfold parseBegin
    have : x.msg.missing = false := by rw [eq_q hx]; exact hfl
    simp [this]
  generalize hA : (finishHeaders cfg u).2 = sA at *
  generalize hB : skipHeaders cfg (headDone (finishHeaders (headOnly cfg) u).2 n) = sB at *
  cases hrc : (finishHeaders cfg u).1 with
  | no => exact absurd hrc hno
  | more =>
    rw [hrc] at hi
    obtain ⟨r, hr⟩ := runs_exists cfg 3 sA rest (rank_le _)
    have hr1 : Runs cfg (parseBegin s) stream r := by
      rw [hb]
      exact .next (by rw [hi]) (by rw [hi]; exact hne) (by rw [hi]; exact hr)
    obtain ⟨r', hr', ho⟩ := runs_eraseQ cfg hr hpast sB e
    obtain ⟨k, e1⟩ := parse_of_runs cfg hr1
    obtain ⟨k', e2⟩ := parse_of_runs cfg (show Runs cfg (parseBegin sB) rest r' by rw [hb2 sB e]; exact hr')
    exact ⟨_, _, e1, e2, parse_of_agree cfg ho k' k, past_parseEnd cfg _ (past_runs cfg hr hpast) _⟩
  | yes =>
    rw [hrc] at hi
    have hr1 : Runs cfg (parseBegin s) stream (iter cfg s stream) := by
      rw [hb]
      exact .stop (by rw [hi]; simp)
    have hBe : sB.ms = .end_ := by rw [eq_q e]; exact hend hrc
    have hi2 : iter cfg sB rest = (.yes, sB, rest) := by unfold iter; simp only [hBe]
    have hr2 : Runs cfg (parseBegin sB) rest (iter cfg sB rest) := by
      rw [hb2 sB e]
      exact .stop (by rw [hi2]; simp)
    obtain ⟨k, e1⟩ := parse_of_runs cfg hr1
    obtain ⟨k', e2⟩ := parse_of_runs cfg hr2
    rw [hi] at e1
    rw [hi2] at e2
    refine ⟨_, _, e1, e2, parse_of_agree cfg (r := (.yes, sB, rest)) (r' := (.yes, sA, rest)) ?_ k' k, past_parseEnd cfg _ hpast _⟩
    simp only [mapR, e]

theorem feed_head_first {cfg : Cfg} (hho : cfg.headersOnly = false) {s s1 : S} {stream rest : Bytes} (hs : s.ms = .start ∨ s.ms = .headers)
    (hm : s.msg.missing = false) (hne : rest ≠ []) (h : parse (headOnly cfg) s stream = some (.yes, s1, rest))
    (more : List Bytes) :
    ∃ r r', feed cfg s (stream :: more) = some r ∧ feed cfg (skipHeaders cfg s1) (rest :: more) = some r' ∧ AgreeAll r' r := by
  obtain ⟨r, r', h1, h2, ha, hp⟩ := parse_head_first hho hs hm hne h
  obtain ⟨q, q', a, b, c⟩ := feed_of_agree cfg more (fun h h' => feed_eraseQ cfg more h h') h2 h1 ha hp
  exact ⟨q', q, b, a, c⟩

/-! ### Query parameters and cookies -/

/-- The same query parameters and cookies. -/
def SameDicts (s t : S) : Prop := s.msg.queries = t.msg.queries ∧ s.msg.cookies = t.msg.cookies

theorem runs_dicts (cfg : Cfg) {s buf r} (hr : Runs cfg s buf r) (h : Past s) : SameDicts r.2.1 s := by
  have := (invRun_afterHead cfg s.msg.cookies s.msg.queries).runs hr ⟨rfl, rfl, h.1, h.2⟩
  exact ⟨this.queries, this.cookies⟩

theorem finishForm_same (cfg : Cfg) (k : Dict) (v : Bool) (st : DataStatus) (l : Nat) (s : S) :
    finishForm cfg (s.q s.msg.queries k v st l) = (finishForm cfg s).q (finishForm cfg s).msg.queries k v st l := by
  unfold finishForm
  have e1 : (s.q s.msg.queries k v st l).msg.headers = s.msg.headers := rfl
  have e2 : (s.q s.msg.queries k v st l).msg.content = s.msg.content := rfl
  have e3 : (s.q s.msg.queries k v st l).msg.contentLength = s.msg.contentLength := rfl
  have e4 : (s.q s.msg.queries k v st l).msg.queries = s.msg.queries := rfl
  rw [e1, e2, e3, e4]
  split
  · simp only
    split
    · split <;> rfl
    split
    · split
      · rfl
      · cases Multipart.parseMultipart s.msg.queries (s.msg.headers.get cfg.ord (b! "Content-Type"))
          ((s.msg.content.take s.msg.contentLength).map (·.getD 0)) <;> rfl
    · rfl
  · rfl

theorem parseEnd_dicts (cfg : Cfg) (rc : Tri) {s t : S} (h : eraseQ s = eraseQ t) (hd : SameDicts s t) (n n' : Nat) :
    SameDicts (parseEnd cfg rc s n) (parseEnd cfg rc t n') := by
  unfold parseEnd
  cases rc with
  | yes =>
    dsimp only
    rw [finish_end, finish_end]
    obtain ⟨hq, hk⟩ := hd
    have hs := eq_q h
    rw [hq, hk] at hs
    generalize s.msg.isValid = v, s.msg.status = st, s.lastRead = l at hs
    subst hs
    have e := finishForm_same cfg t.msg.cookies true (computeStatus { (t.q t.msg.queries t.msg.cookies v st l).msg with isValid := true } true).status l
      { t with ms := .end_, msg := computeStatus { t.msg with isValid := true } true }
    refine ⟨(congrArg (·.msg.queries) e).trans rfl, (congrArg (·.msg.cookies) e).trans ?_⟩
    show t.msg.cookies = _
    unfold finishForm
    dsimp only
    repeat' split
    all_goals rfl
  | no => exact hd
  | more => exact hd

theorem parseBegin_dicts (s : S) : SameDicts (parseBegin s) s := by
  unfold parseBegin; split <;> exact ⟨rfl, rfl⟩

theorem SameDicts.symm {s t : S} (h : SameDicts s t) : SameDicts t s := ⟨h.1.symm, h.2.symm⟩
theorem SameDicts.trans {s t u : S} (h : SameDicts s t) (h' : SameDicts t u) : SameDicts s u :=
  ⟨h.1.trans h'.1, h.2.trans h'.2⟩

theorem past_of_eraseQ {s t : S} (h : eraseQ s = eraseQ t) (hp : Past t) : Past s := by
  rw [eq_q h]; exact hp

theorem parse_dicts (cfg : Cfg) {s t : S} (h : eraseQ s = eraseQ t) (hd : SameDicts s t) (hp : Past t) (buf : Bytes)
    {r r' : Tri × S × Bytes} (h1 : parse cfg s buf = some r) (h2 : parse cfg t buf = some r') : SameDicts r.2.1 r'.2.1 := by
  obtain ⟨q', n', hr', e'⟩ := parse_runs cfg t buf
  obtain ⟨q, hr, ho⟩ := runs_eraseQ cfg hr' (past_parseBegin hp) (parseBegin s) (parseBegin_eraseQ h)
  obtain ⟨n, e⟩ := parse_of_runs cfg hr
  rw [h1] at e
  rw [h2] at e'
  simp only [Option.some.injEq] at e e'
  subst e e'
  have hq : q.1 = q'.1 := by have := congrArg Prod.fst ho; exact this
  have he : eraseQ q.2.1 = eraseQ q'.2.1 := congrArg (·.2.1) ho
  dsimp only
  rw [hq]
  refine parseEnd_dicts cfg _ he ?_ _ _
  exact (runs_dicts cfg hr (past_parseBegin (past_of_eraseQ h hp))).trans ((parseBegin_dicts s).trans
    (hd.trans ((runs_dicts cfg hr' (past_parseBegin hp)).trans (parseBegin_dicts t)).symm))

theorem feed_dicts (cfg : Cfg) (bufs : List Bytes) : ∀ {s t : S}, eraseQ s = eraseQ t → SameDicts s t → Past t →
    ∀ {r r'}, feed cfg s bufs = some r → feed cfg t bufs = some r' → SameDicts r.2.1 r'.2.1 := by
  induction bufs with
  | nil => intro s t h hd hp r r' h1 h2; simp only [feed, Option.some.injEq] at h1 h2; subst h1 h2; exact hd
  | cons b bufs ih =>
    intro s t h hd hp r r' h1 h2
    obtain ⟨q, q', p1, p2, ha, hp'⟩ := parse_eraseQ cfg h hp b
    have hd' := parse_dicts cfg h hd hp b p1 p2
    obtain ⟨rc, u, rest⟩ := q
    obtain ⟨rc', u', rest'⟩ := q'
    obtain ⟨rfl, a2, rfl, a4⟩ := id ha
    dsimp only at a2 hp' hd'
    simp only [feed, p1, p2] at h1 h2
    cases rc with
    | more => exact ih a2 hd' hp' h1 h2
    | yes => simp only [Option.some.injEq] at h1 h2; subst h1 h2; exact hd'
    | no => simp only [Option.some.injEq] at h1 h2; subst h1 h2; exact hd'

theorem finishHeaders2_dicts (cfg : Cfg) (s : S) : SameDicts (finishHeaders2 cfg s).2 s := by
  unfold finishHeaders2
  split
  · exact ⟨rfl, rfl⟩
  split
  · exact ⟨rfl, rfl⟩
  split
  · split
    · exact ⟨rfl, rfl⟩
    · rename_i m hm
      obtain ⟨z, rfl⟩ : ∃ z, m = { s.msg with contentLength := z } := ⟨_, updateContentLength_only hm⟩
      split
      · exact ⟨rfl, rfl⟩
      · dsimp only
        unfold createBuffer
        (repeat' split) <;> exact ⟨rfl, rfl⟩
  split
  · exact ⟨rfl, rfl⟩
  · exact ⟨rfl, rfl⟩

/-- The head brings no query parameters and no cookies. -/
def NoDicts (cfg : Cfg) (s : S) : Prop :=
  (cfg.isRequest = true → s.query = []) ∧
    s.msg.headers.values (if cfg.isRequest then b! "Cookie" else b! "Set-Cookie") = []

theorem finishHeaders_dicts (cfg : Cfg) (ho : OrderOk cfg.ord) (s : S) (h : NoDicts cfg s) :
    SameDicts (finishHeaders cfg s).2 s := by
  rw [finishHeaders_eq]
  refine (finishHeaders2_dicts cfg _).trans ?_
  have hn : cfg.ord [] = [] := (ho []).eq_nil
  obtain ⟨h1, h2⟩ := h
  unfold finishHeaders1 updateMessage SameDicts
  cases hr : cfg.isRequest
  · rw [hr] at h2
    simp only [Bool.false_eq_true, if_false] at h2 ⊢
    rw [show (Msg.updateTransferEncoding cfg.ord { s.msg with contentLength := 0 }).headers = s.msg.headers from rfl, h2, hn]
    exact ⟨rfl, rfl⟩
  · rw [hr] at h2
    simp only [if_true] at h2 ⊢
    rw [show (Msg.updateTransferEncoding cfg.ord { s.msg with contentLength := 0 }).headers = s.msg.headers from rfl, h2, hn, h1 hr]
    exact ⟨rfl, rfl⟩

theorem finishHeaders_kept (cfg : Cfg) (s : S) : (finishHeaders cfg s).2.query = s.query ∧
    (finishHeaders cfg s).2.msg.headers = s.msg.headers ∧
    (cfg.isRequest = true → (finishHeaders cfg s).2.msg.queryString = s.query) := by
  rw [finishHeaders_eq]
  have h1 : (finishHeaders1 cfg s).query = s.query ∧ (finishHeaders1 cfg s).msg.headers = s.msg.headers ∧
      (cfg.isRequest = true → (finishHeaders1 cfg s).msg.queryString = s.query) := by
    unfold finishHeaders1 updateMessage
    cases hr : cfg.isRequest
    · exact ⟨rfl, rfl, by simp⟩
    · exact ⟨rfl, rfl, fun _ => rfl⟩
  generalize finishHeaders1 cfg s = t at *
  have h2 : (finishHeaders2 cfg t).2.query = t.query ∧ (finishHeaders2 cfg t).2.msg.headers = t.msg.headers ∧
      (finishHeaders2 cfg t).2.msg.queryString = t.msg.queryString := by
    unfold finishHeaders2
    split
    · exact ⟨rfl, rfl, rfl⟩
    split
    · exact ⟨rfl, rfl, rfl⟩
    split
    · split
      · exact ⟨rfl, rfl, rfl⟩
      · rename_i m hm
        obtain ⟨z, rfl⟩ : ∃ z, m = { t.msg with contentLength := z } := ⟨_, updateContentLength_only hm⟩
        split
        · exact ⟨rfl, rfl, rfl⟩
        · dsimp only
          unfold createBuffer
          (repeat' split) <;> exact ⟨rfl, rfl, rfl⟩
    split
    · exact ⟨rfl, rfl, rfl⟩
    · exact ⟨rfl, rfl, rfl⟩
  exact ⟨h2.1.trans h1.1, h2.2.1.trans h1.2.1, fun h => h2.2.2.trans (h1.2.2 h)⟩

/-- If the head has no query string and no cookies, nothing is read twice. -/
theorem skip_dicts (cfg : Cfg) (ho : OrderOk cfg.ord) (u : S) (n : Nat)
    (h1 : cfg.isRequest = true → (headDone (finishHeaders (headOnly cfg) u).2 n).msg.queryString = [])
    (h2 : (headDone (finishHeaders (headOnly cfg) u).2 n).msg.headers.values
      (if cfg.isRequest then b! "Cookie" else b! "Set-Cookie") = []) :
    SameDicts (skipHeaders cfg (headDone (finishHeaders (headOnly cfg) u).2 n)) (finishHeaders cfg u).2 := by
  have hk := finishHeaders_kept (headOnly cfg) u
  have h3 : cfg.isRequest = true → u.query = [] := fun h => (hk.2.2 h).symm.trans (h1 h)
  have h4 : u.msg.headers.values (if cfg.isRequest then b! "Cookie" else b! "Set-Cookie") = [] := by
    rw [← hk.2.1]; exact h2
  have d1 : SameDicts (finishHeaders (headOnly cfg) u).2 u := finishHeaders_dicts (headOnly cfg) ho u ⟨h3, h4⟩
  have d2 : SameDicts (finishHeaders cfg u).2 u := finishHeaders_dicts cfg ho u ⟨h3, h4⟩
  have d3 : SameDicts (finishHeaders cfg (headDone (finishHeaders (headOnly cfg) u).2 n)).2
      (headDone (finishHeaders (headOnly cfg) u).2 n) :=
    finishHeaders_dicts cfg ho _ ⟨fun h => hk.1.trans (h3 h), h2⟩
  exact SameDicts.trans (t := headDone (finishHeaders (headOnly cfg) u).2 n) d3 (d1.trans d2.symm)

theorem parse_head_first_dicts {cfg : Cfg} (hho : cfg.headersOnly = false) (ho : OrderOk cfg.ord) {s s1 : S}
    {stream rest : Bytes} (hs : s.ms = .start ∨ s.ms = .headers) (hm : s.msg.missing = false) (hne : rest ≠ [])
    (h : parse (headOnly cfg) s stream = some (.yes, s1, rest))
    (h1 : cfg.isRequest = true → s1.msg.queryString = [])
    (h2 : s1.msg.headers.values (if cfg.isRequest then b! "Cookie" else b! "Set-Cookie") = []) {p p'}
    (hp1 : parse cfg s stream = some p) (hp2 : parse cfg (skipHeaders cfg s1) rest = some p') :
    SameDicts p'.2.1 p.2.1 := by
  obtain ⟨u, n, hp, hu, hy, rfl⟩ := head_split hs hm h
  obtain ⟨e, hno, hend, hpast⟩ := finish_again cfg hho u n hy
  have hd := skip_dicts cfg ho u n h1 h2
  have hb : parseBegin s = s := by unfold parseBegin; simp [hm]
  have hi := iter_headers cfg s stream (head_phase hs)
  rw [hp] at hi
  unfold postH at hi
  rw [if_pos ⟨rfl, hu⟩] at hi
  have hfl : (finishHeaders cfg u).2.msg.missing = false := by
    have h1 := iter_flags cfg s stream
    rw [hi] at h1
    have := congrArg Prod.fst h1
    exact this.trans hm
  have hb2 : ∀ x : S, eraseQ x = eraseQ (finishHeaders cfg u).2 → parseBegin x = x := by
    intro x hx
    unfold parseBegin
    have : x.msg.missing = false := by rw [eq_q hx]; exact hfl
    simp [this]
  generalize hA : (finishHeaders cfg u).2 = sA at *
  generalize hB : skipHeaders cfg (headDone (finishHeaders (headOnly cfg) u).2 n) = sB at *
  cases hrc : (finishHeaders cfg u).1 with
  | no => exact absurd hrc hno
  | more =>
    rw [hrc] at hi
    obtain ⟨r, hr⟩ := runs_exists cfg 3 sA rest (rank_le _)
    have hr1 : Runs cfg (parseBegin s) stream r := by
      rw [hb]
      exact .next (by rw [hi]) (by rw [hi]; exact hne) (by rw [hi]; exact hr)
    obtain ⟨r', hr', hoo⟩ := runs_eraseQ cfg hr hpast sB e
    obtain ⟨k, e1⟩ := parse_of_runs cfg hr1
    obtain ⟨k', e2⟩ := parse_of_runs cfg (show Runs cfg (parseBegin sB) rest r' by rw [hb2 sB e]; exact hr')
    rw [hp1] at e1
    rw [hp2] at e2
    simp only [Option.some.injEq] at e1 e2
    subst e1 e2
    have hq : r'.1 = r.1 := by have := congrArg Prod.fst hoo; exact this
    have he : eraseQ r'.2.1 = eraseQ r.2.1 := congrArg (·.2.1) hoo
    dsimp only
    rw [hq]
    exact parseEnd_dicts cfg _ he ((runs_dicts cfg hr' (past_of_eraseQ e hpast)).trans
      (hd.trans (runs_dicts cfg hr hpast).symm)) _ _
  | yes =>
    rw [hrc] at hi
    have hr1 : Runs cfg (parseBegin s) stream (iter cfg s stream) := by
      rw [hb]
      exact .stop (by rw [hi]; simp)
    have hBe : sB.ms = .end_ := by rw [eq_q e]; exact hend hrc
    have hi2 : iter cfg sB rest = (.yes, sB, rest) := by unfold iter; simp only [hBe]
    have hr2 : Runs cfg (parseBegin sB) rest (iter cfg sB rest) := by
      rw [hb2 sB e]
      exact .stop (by rw [hi2]; simp)
    obtain ⟨k, e1⟩ := parse_of_runs cfg hr1
    obtain ⟨k', e2⟩ := parse_of_runs cfg hr2
    rw [hi] at e1
    rw [hi2] at e2
    rw [hp1] at e1
    rw [hp2] at e2
    simp only [Option.some.injEq] at e1 e2
    subst e1 e2
    exact parseEnd_dicts cfg _ e hd _ _

/-- ... and the whole run ends with the same query parameters and cookies. -/
theorem feed_head_first_dicts {cfg : Cfg} (hho : cfg.headersOnly = false) (ho : OrderOk cfg.ord) {s s1 : S}
    {stream rest : Bytes} (hs : s.ms = .start ∨ s.ms = .headers) (hm : s.msg.missing = false) (hne : rest ≠ [])
    (h : parse (headOnly cfg) s stream = some (.yes, s1, rest))
    (h1 : cfg.isRequest = true → s1.msg.queryString = [])
    (h2 : s1.msg.headers.values (if cfg.isRequest then b! "Cookie" else b! "Set-Cookie") = []) (more : List Bytes) {r r'}
    (f1 : feed cfg s (stream :: more) = some r) (f2 : feed cfg (skipHeaders cfg s1) (rest :: more) = some r') :
    SameDicts r'.2.1 r.2.1 := by
  obtain ⟨p, p', hp1, hp2, ha, hpast⟩ := parse_head_first hho hs hm hne h
  have hd1 := parse_head_first_dicts hho ho hs hm hne h h1 h2 hp1 hp2
  obtain ⟨rc, v, rest1⟩ := p
  obtain ⟨rc', v', rest2⟩ := p'
  obtain ⟨rfl, a2, rfl, a4⟩ := id ha
  dsimp only at a2 hd1 hpast
  simp only [feed, hp1, hp2] at f1 f2
  cases rc' with
  | more => exact feed_dicts cfg more a2 hd1 hpast f2 f1
  | yes => simp only [Option.some.injEq] at f1 f2; subst f1 f2; exact hd1
  | no => simp only [Option.some.injEq] at f1 f2; subst f1 f2; exact hd1

/-- The head came alone: everything else comes later. -/
theorem feed_head_alone {cfg : Cfg} (hho : cfg.headersOnly = false) {s s1 : S} {stream : Bytes} (hs : s.ms = .start ∨ s.ms = .headers)
    (hm : s.msg.missing = false) (h : parse (headOnly cfg) s stream = some (.yes, s1, []))
    (hb : ∀ t, parse cfg s stream ≠ some (.yes, t, [])) (more : List Bytes) :
    ∃ r r', feed cfg s (stream :: more) = some r ∧ feed cfg (skipHeaders cfg s1) more = some r' ∧ AgreeAll r' r := by
  obtain ⟨u, n, hp, hu, hy, rfl⟩ := head_split hs hm h
  obtain ⟨e, hno, hend, hpast⟩ := finish_again cfg hho u n hy
  have hbg : parseBegin s = s := by unfold parseBegin; simp [hm]
  have hi := iter_headers cfg s stream (head_phase hs)
  rw [hp] at hi
  unfold postH at hi
  rw [if_pos ⟨rfl, hu⟩] at hi
  generalize hA : (finishHeaders cfg u).2 = sA at *
  generalize hB : skipHeaders cfg (headDone (finishHeaders (headOnly cfg) u).2 n) = sB at *
  cases hrc : (finishHeaders cfg u).1 with
  | no => exact absurd hrc hno
  | yes =>
    exfalso
    rw [hrc] at hi
    have hr1 : Runs cfg (parseBegin s) stream (iter cfg s stream) := by
      rw [hbg]
      exact .stop (by rw [hi]; simp)
    obtain ⟨k, e1⟩ := parse_of_runs cfg hr1
    rw [hi] at e1
    exact hb _ e1
  | more =>
    rw [hrc] at hi
    have hr1 : Runs cfg (parseBegin s) stream (iter cfg s stream) := by
      rw [hbg]
      exact .stop (by rw [hi]; simp)
    obtain ⟨k, e1⟩ := parse_of_runs cfg hr1
    rw [hi] at e1
    have e2 : eraseQ sB = eraseQ (parseEnd cfg .more sA k) := e
    obtain ⟨r, r', q1, q2, q3⟩ := feed_eraseQ cfg more e2 (past_parseEnd cfg _ hpast _)
    refine ⟨r', r, ?_, q1, q3⟩
    simp only [feed, e1]
    exact q2

theorem finishHeaders2_line (cfg : Cfg) (t : S) : (finishHeaders2 cfg t).2.msg.method = t.msg.method ∧
    (finishHeaders2 cfg t).2.msg.resource = t.msg.resource ∧
    (finishHeaders2 cfg t).2.msg.originalResource = t.msg.originalResource ∧
    (finishHeaders2 cfg t).2.msg.queryString = t.msg.queryString ∧
    (finishHeaders2 cfg t).2.msg.statusCode = t.msg.statusCode ∧
    (finishHeaders2 cfg t).2.msg.statusMessage = t.msg.statusMessage := by
  unfold finishHeaders2
  split
  · exact ⟨rfl, rfl, rfl, rfl, rfl, rfl⟩
  split
  · exact ⟨rfl, rfl, rfl, rfl, rfl, rfl⟩
  split
  · split
    · exact ⟨rfl, rfl, rfl, rfl, rfl, rfl⟩
    · rename_i m hm
      obtain ⟨z, rfl⟩ : ∃ z, m = { t.msg with contentLength := z } := ⟨_, updateContentLength_only hm⟩
      split
      · exact ⟨rfl, rfl, rfl, rfl, rfl, rfl⟩
      · dsimp only
        unfold createBuffer
        (repeat' split) <;> exact ⟨rfl, rfl, rfl, rfl, rfl, rfl⟩
  split
  · exact ⟨rfl, rfl, rfl, rfl, rfl, rfl⟩
  · exact ⟨rfl, rfl, rfl, rfl, rfl, rfl⟩

/-- The head may come in several pieces. -/
theorem head_pieces {cfg : Cfg} (pieces : List Bytes) : ∀ {s s1 : S} {rest : Bytes} {more : List Bytes},
    (s.ms = .start ∨ s.ms = .headers) → s.msg.missing = false →
    feed (headOnly cfg) s pieces = some (.yes, s1, rest, more) →
    ∃ s' b, (s'.ms = .start ∨ s'.ms = .headers) ∧ s'.msg.missing = false ∧
      parse (headOnly cfg) s' b = some (.yes, s1, rest) ∧ feed cfg s pieces = feed cfg s' (b :: more) := by
  induction pieces with
  | nil => intro s s1 rest more hs hm h; simp [feed] at h
  | cons b pieces ih =>
    intro s s1 rest more hs hm h
    cases hp : parse (headOnly cfg) s b with
    | none => simp [feed, hp] at h
    | some r =>
      obtain ⟨rc, t, rest'⟩ := r
      simp only [feed, hp] at h
      cases rc with
      | more =>
        obtain ⟨e1, e2, e3⟩ := head_more hs hm hp
        obtain ⟨s', b', a1, a2, a3, a4⟩ := ih (.inr e2) e3 h
        refine ⟨s', b', a1, a2, a3, ?_⟩
        rw [← a4]
        simp only [feed, e1]
      | yes =>
        simp only [Option.some.injEq, Prod.mk.injEq, true_and] at h
        obtain ⟨rfl, rfl, rfl⟩ := h
        exact ⟨s, b, hs, hm, hp, rfl⟩
      | no => simp at h

end Verif.Http
