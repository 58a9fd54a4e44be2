import Verif.Lemmas.HttpAppend
/-
Append law for one pass of the main loop of `parse`.
-/
namespace Verif.Http

/-! ### `lastRead` is never read (except to be reported) -/

theorem createBuffer_setL (s : S) (k : Nat) : createBuffer (s.setL k) = (createBuffer s).setL k := by
  unfold createBuffer
  rw [show (s.setL k).msg = s.msg from rfl]
  split <;> rfl

theorem updateMessage_setL (cfg : Cfg) (s : S) (k : Nat) :
    updateMessage cfg (s.setL k) = (updateMessage cfg s).setL k := by
  unfold updateMessage
  cases cfg.isRequest <;> rfl

theorem concatenateChunks_setL (s : S) (k : Nat) :
    concatenateChunks (s.setL k) = (concatenateChunks s).setL k := by
  unfold concatenateChunks
  have : createBuffer { s.setL k with msg := { (s.setL k).msg with contentLength := (s.setL k).msg.chunkCache.length } }
    = (createBuffer { s with msg := { s.msg with contentLength := s.msg.chunkCache.length } }).setL k :=
    createBuffer_setL { s with msg := { s.msg with contentLength := s.msg.chunkCache.length } } k
  simp only [this]
  generalize createBuffer { s with msg := { s.msg with contentLength := s.msg.chunkCache.length } } = s'
  rw [show (s'.setL k).msg = s'.msg from rfl]
  split <;> rfl

/-- The part of `finishHeaders` after the message has been updated. -/
def finishHeaders2 (cfg : Cfg) (s : S) : Tri × S :=
  if s.msg.isChunked then
    (if cfg.headersOnly then .yes else .more, { s with ms := .chunks })
  else if s.msg.contentLengthImplied cfg.isRequest then
    (.yes, { s with ms := .end_ })
  else if s.msg.headers.has (b! "Content-Length") then
    match s.msg.updateContentLength cfg.ord with
    | none => (.no, { s with ec := some .invalidContentLength })
    | some m =>
      if m.contentLength = 0 then (.yes, { s with msg := m, ms := .end_ })
      else
        let s := { s with
          ms := .content, remaining := m.contentLength,
          msg := if cfg.maxContent < m.contentLength then { m with contentLength := cfg.maxContent } else m }
        if cfg.headersOnly then (.yes, s) else (.more, createBuffer s)
  else if !cfg.isRequest then
    (if cfg.headersOnly then .yes else .more,
      { s with msg := { s.msg with chunkCache := [] }, ms := .noLength })
  else (.yes, { s with ms := .end_ })

/-- The part of `finishHeaders` before. -/
def finishHeaders1 (cfg : Cfg) (s : S) : S :=
  updateMessage cfg { s with remaining := 0, contentRead := 0,
                             msg := ({ s.msg with contentLength := 0 }).updateTransferEncoding cfg.ord }

theorem finishHeaders_eq (cfg : Cfg) (s : S) :
    finishHeaders cfg s = finishHeaders2 cfg (finishHeaders1 cfg s) := rfl

theorem finishHeaders_setL (cfg : Cfg) (s : S) (k : Nat) :
    finishHeaders cfg (s.setL k) = ((finishHeaders cfg s).1, (finishHeaders cfg s).2.setL k) := by
  rw [finishHeaders_eq, finishHeaders_eq]
  have : finishHeaders1 cfg (s.setL k) = (finishHeaders1 cfg s).setL k :=
    updateMessage_setL cfg
      { s with remaining := 0, contentRead := 0,
               msg := Msg.updateTransferEncoding cfg.ord { s.msg with contentLength := 0 } } k
  rw [this]
  generalize finishHeaders1 cfg s = t
  unfold finishHeaders2
  rw [show (t.setL k).msg = t.msg from rfl]
  split
  · rfl
  split
  · rfl
  split
  · cases t.msg.updateContentLength cfg.ord with
    | none => rfl
    | some m =>
      simp only
      split
      · rfl
      split
      · rfl
      · exact congrArg (Prod.mk Tri.more) (createBuffer_setL { t with
          ms := .content, remaining := m.contentLength,
          msg := if cfg.maxContent < m.contentLength then { m with contentLength := cfg.maxContent } else m } k)
  split <;> rfl

theorem finishForm_setL (cfg : Cfg) (s : S) (k : Nat) :
    finishForm cfg (s.setL k) = (finishForm cfg s).setL k := by
  unfold finishForm
  rw [show (s.setL k).msg = s.msg from rfl]
  split
  · simp only
    split
    · split <;> rfl
    split
    · split
      · rfl
      · cases Multipart.parseMultipart s.msg.queries (s.msg.headers.get cfg.ord (b! "Content-Type"))
          ((s.msg.content.take s.msg.contentLength).map (·.getD 0)) <;> rfl
    · rfl
  · rfl

theorem finish_end (cfg : Cfg) (s : S) : finish cfg { s with ms := .end_ } =
    finishForm cfg { s with ms := .end_, msg := computeStatus { s.msg with isValid := true } true } := rfl

/-! ### Post-processing of the two byte loops -/

/-- `finish_header_parsing` if the headers are complete. -/
def postH (cfg : Cfg) (r : Tri × S × Bytes) : Tri × S × Bytes :=
  if r.1 = .yes ∧ r.2.1.ms = .headers then
    ((finishHeaders cfg r.2.1).1, (finishHeaders cfg r.2.1).2, r.2.2)
  else r

/-- `concatenate_chunks` if the chunks are complete. -/
def postC (cfg : Cfg) (r : Tri × S × Bytes) : Tri × S × Bytes :=
  if r.1 = .yes ∧ cfg.handler = false then
    (if (concatenateChunks r.2.1).ms = .footers then .more else .yes, concatenateChunks r.2.1, r.2.2)
  else r

/-- State in which `parse_headers` is entered. -/
def enterH (s : S) : S := if s.ms = .start then { s with ms := .headers } else s

theorem iter_headers (cfg : Cfg) (s : S) (buf : Bytes) (h : s.ms = .start ∨ s.ms = .headers ∨ s.ms = .footers) :
    iter cfg s buf = postH cfg (parseHeaders cfg (enterH s) buf) := by
  unfold iter postH enterH
  rcases h with h | h | h <;> simp only [h]

theorem iter_chunks (cfg : Cfg) (s : S) (buf : Bytes) (h : s.ms = .chunks) :
    iter cfg s buf = postC cfg (parseChunks cfg s buf) := by
  unfold iter postC
  simp only [h]

/-- What is needed of a post-processing step. -/
structure Post (p : Tri × S × Bytes → Tri × S × Bytes) : Prop where
  id_of_ne : ∀ r, r.1 ≠ .yes → p r = r
  obs : ∀ s k rest, obs (p (.yes, s.setL k, rest)) = obs (p (.yes, s, rest))
  app : ∀ rc s rest b, p (rc, s, rest ++ b) = ((p (rc, s, rest)).1, (p (rc, s, rest)).2.1, (p (rc, s, rest)).2.2 ++ b)

theorem postH_ok (cfg : Cfg) : Post (postH cfg) := by
  refine ⟨?_, ?_, ?_⟩
  · intro r h; simp [postH, h]
  · intro s k rest
    unfold postH
    simp only [finishHeaders_setL, true_and, show (s.setL k).ms = s.ms from rfl]
    split
    · simp only [Http.obs, setL_setL, show ∀ t : S, (t.setL k).upd 0 0 0 = t.upd 0 0 0 from fun _ => rfl]
    · rfl
  · intro rc s rest b
    unfold postH; simp only
    split <;> rfl

theorem postC_ok (cfg : Cfg) : Post (postC cfg) := by
  refine ⟨?_, ?_, ?_⟩
  · intro r h; simp [postC, h]
  · intro s k rest
    unfold postC
    simp only [concatenateChunks_setL, true_and, show ∀ t : S, (t.setL k).ms = t.ms from fun _ => rfl]
    split
    · simp only [Http.obs, setL_setL, show ∀ t : S, (t.setL k).upd 0 0 0 = t.upd 0 0 0 from fun _ => rfl]
    · rfl
  · intro rc s rest b
    unfold postC; simp only
    split <;> rfl

theorem Post.obs_congr {p} (hp : Post p) (r r' : Tri × S × Bytes) (h : Http.obs r = Http.obs r') :
    Http.obs (p r) = Http.obs (p r') := by
  obtain ⟨rc, s, rest⟩ := r
  obtain ⟨rc', s', rest'⟩ := r'
  have h1 : rc = rc' := congrArg Prod.fst h
  subst h1
  by_cases hy : rc = .yes
  · subst hy
    simp only [Http.obs, reduceCtorEq, if_false, Prod.mk.injEq, true_and] at h
    obtain ⟨h2, h3⟩ := h
    subst h3
    rw [eq_setL h2]
    exact hp.obs _ _ _
  · rw [hp.id_of_ne _ hy, hp.id_of_ne _ hy]; exact h

/-! ### Append law for one pass -/

/-- Either the pass absorbs `a` and continues with `b`, or it finishes within `a`. -/
def IterAppend (cfg : Cfg) (s : S) (a b : Bytes) : Prop :=
  (∃ s1, iter cfg s a = (.more, s1, []) ∧ obs (iter cfg s (a ++ b)) = obs (iter cfg s1 b))
  ∨ iter cfg s (a ++ b) = ((iter cfg s a).1, (iter cfg s a).2.1, (iter cfg s a).2.2 ++ b)

theorem iterAppend_of_phase (cfg : Cfg) (s : S) (a b : Bytes) (f : S → Bytes → Tri × S × Bytes)
    (p : Tri × S × Bytes → Tri × S × Bytes) (hp : Post p) (g : S → S)
    (h1 : ∀ buf, iter cfg s buf = p (f (g s) buf))
    (h2 : (f (g s) a).1 = .more → ∀ buf, iter cfg (f (g s) a).2.1 buf = p (f (f (g s) a).2.1 buf))
    (h : PhaseAppend f (g s) a b) : IterAppend cfg s a b := by
  unfold IterAppend
  rcases h with ⟨hm, hr, ho⟩ | ⟨hm, ho⟩
  · left
    refine ⟨(f (g s) a).2.1, ?_, ?_⟩
    · rw [h1, hp.id_of_ne _ (by rw [hm]; simp)]
      rw [← hm, ← hr]
    · rw [h1, h2 hm]
      exact hp.obs_congr _ _ ho
  · right
    rw [h1, h1, ho]
    exact hp.app _ _ _ _

theorem hswitch_ms (cfg : Cfg) (s : S) (c : UInt8) :
    (∀ s', hswitch cfg s c = .more s' → s'.ms = s.ms) ∧ (∀ s' f, hswitch cfg s c = .done s' f → s'.ms = s.ms)
    ∧ (∀ s' e, hswitch cfg s c = .fail s' e → s'.ms = s.ms) := by
  cases h : s.hs <;> simp only [hswitch, h]
  all_goals (repeat' split)
  all_goals simp only [HRes.more.injEq, HRes.done.injEq, HRes.fail.injEq, reduceCtorEq, false_implies,
    implies_true, and_true, true_and, and_imp]
  all_goals (intros; subst_vars; rfl)

theorem hstep_ms (cfg : Cfg) (s : S) (c : UInt8) :
    (∀ s', hstep cfg s c = .more s' → s'.ms = s.ms) ∧ (∀ s' f, hstep cfg s c = .done s' f → s'.ms = s.ms)
    ∧ (∀ s' e, hstep cfg s c = .fail s' e → s'.ms = s.ms) := by
  unfold hstep
  cases cfg.saveRaw
  · exact hswitch_ms cfg s c
  · exact hswitch_ms cfg { s with raw := s.raw ++ [c] } c

theorem count_ms (content : Bool) (buf : Bytes) (r : Tri × S × Bytes) : (count content buf r).2.1.ms = r.2.1.ms := by
  unfold count; split <;> rfl

theorem parseHeaders_ms (cfg : Cfg) (s : S) (buf : Bytes) : (parseHeaders cfg s buf).2.1.ms = s.ms := by
  rw [parseHeaders_eq, count_ms]
  refine run_inv (hstep cfg) (fun t => t.ms = s.ms) ?_ ?_ ?_ (s.setL 0) buf rfl
  · intro t c t' h e; rw [(hstep_ms cfg t c).1 _ e, h]
  · intro t c t' f h e; rw [(hstep_ms cfg t c).2.1 _ _ e, h]
  · intro t c t' f h e; exact ((hstep_ms cfg t c).2.2 _ _ e).trans h

theorem cbyte_ms (cfg : Cfg) (s : S) (c : UInt8) (s' : S) (h : cbyte cfg s c = .more s') : s'.ms = s.ms := by
  revert h
  cases hc : s.cs <;> simp only [cbyte, cstep, hc]
  case chunk =>
    have : (chunkData cfg s c []).1.ms = s.ms := by unfold chunkData; (repeat' split) <;> rfl
    split <;> (simp only [CRes.toH, HRes.more.injEq]; intro h; subst h; exact this)
  all_goals (repeat' split)
  all_goals simp only [CRes.toH, HRes.more.injEq, reduceCtorEq, false_implies]
  all_goals (intro h; subst h; rfl)

theorem run_more_ms (step : S → UInt8 → HRes) (h : ∀ s c s', step s c = .more s' → s'.ms = s.ms) (s : S) (b : Bytes) :
    (run step s b).1 = .more → (run step s b).2.1.ms = s.ms := by
  induction b generalizing s with
  | nil => intro _; rfl
  | cons c t ih =>
    simp only [run]
    cases hx : step s c with
    | more s' => intro hm; rw [ih s' hm]; exact h _ _ _ hx
    | done s' f => cases f <;> simp
    | fail s' e => simp

theorem count_fst (content : Bool) (buf : Bytes) (r : Tri × S × Bytes) : (count content buf r).1 = r.1 := by
  unfold count; split <;> rfl

theorem count_rest (content : Bool) (buf : Bytes) (r : Tri × S × Bytes) : (count content buf r).2.2 = r.2.2 := by
  unfold count; split <;> rfl

theorem parseChunks_ms (cfg : Cfg) (s : S) (buf : Bytes) (h : (parseChunks cfg s buf).1 = .more) :
    (parseChunks cfg s buf).2.1.ms = s.ms := by
  rw [parseChunks_eq, count_fst] at h
  rw [parseChunks_eq, count_ms]
  exact run_more_ms _ (cbyte_ms cfg) _ _ h

theorem enterH_idem (s : S) (h : s.ms ≠ .start) : enterH s = s := by unfold enterH; simp [h]

theorem enterH_ms (s : S) (h : s.ms = .start ∨ s.ms = .headers ∨ s.ms = .footers) :
    (enterH s).ms = .headers ∨ (enterH s).ms = .footers := by
  unfold enterH
  rcases h with h | h | h <;> simp [h]

theorem iterAppend_headers (cfg : Cfg) (s : S) (a b : Bytes)
    (h : s.ms = .start ∨ s.ms = .headers ∨ s.ms = .footers) : IterAppend cfg s a b := by
  refine iterAppend_of_phase cfg s a b (parseHeaders cfg) (postH cfg) (postH_ok cfg) enterH
    (fun buf => iter_headers cfg s buf h) ?_ (parseHeaders_append cfg _ a b)
  intro _ buf
  have hms := parseHeaders_ms cfg (enterH s) a
  have he := enterH_ms s h
  rw [iter_headers]
  · rw [enterH_idem]
    rw [hms]; rcases he with he | he <;> rw [he] <;> simp
  · right; rw [hms]; exact he

theorem iterAppend_chunks (cfg : Cfg) (s : S) (a b : Bytes) (h : s.ms = .chunks) : IterAppend cfg s a b := by
  refine iterAppend_of_phase cfg s a b (parseChunks cfg) (postC cfg) (postC_ok cfg) id
    (fun buf => iter_chunks cfg s buf h) ?_ (parseChunks_append cfg _ a b)
  intro hm buf
  exact iter_chunks cfg _ buf ((parseChunks_ms cfg s a hm).trans h)

/-! ### Content -/

theorem blit_blit (s : S) (off : Nat) (d1 d2 : Bytes) (h : d2 ≠ []) :
    blit (blit s off d1) (off + d1.length) d2 = blit s off (d1 ++ d2) := by
  have hpos : 0 < d2.length := List.length_pos_iff.mpr h
  unfold blit
  by_cases h1 : s.msg.content.length < off + d1.length
  · have h2 : s.msg.content.length < off + (d1 ++ d2).length := by simp; omega
    have h3 : (0 : Nat) < off + d1.length + d2.length := by omega
    simp only [h1, h2, if_true, List.length_nil, h3]
  · have hlen : (s.msg.content.take off ++ d1.map some ++ s.msg.content.drop (off + d1.length)).length
        = s.msg.content.length := by simp; omega
    simp only [h1, if_false]
    simp only [hlen]
    by_cases h2 : s.msg.content.length < off + d1.length + d2.length
    · have h3 : s.msg.content.length < off + (d1 ++ d2).length := by simp; omega
      simp only [h2, h3, if_true]
    · have h3 : ¬ s.msg.content.length < off + (d1 ++ d2).length := by simp; omega
      simp only [h2, h3, if_false]
      congr 2
      have ht : (s.msg.content.take off ++ d1.map some).length = off + d1.length := by simp; omega
      rw [List.take_append_of_le_length (by omega), List.take_of_length_le (by omega)]
      rw [List.drop_append, List.drop_of_length_le (by omega), ht, List.drop_drop]
      simp only [List.map_append, List.nil_append, List.append_assoc, List.length_append]
      congr 4
      omega

/-- Storing part of `consume_content`. -/
def store (cfg : Cfg) (s : S) (d : Bytes) : S :=
  if cfg.handler then { s with payload := s.payload ++ d }
  else if s.contentRead < cfg.maxContent then blit s s.contentRead (d.take (cfg.maxContent - s.contentRead))
  else s

theorem consumeContent_eq (cfg : Cfg) (s : S) (buf : Bytes) : consumeContent cfg s buf =
    if s.remaining = 0 then (.yes, s, buf)
    else
      let n := min s.remaining buf.length
      let s' := store cfg { s with remaining := s.remaining - n } (buf.take n)
      (if s.remaining ≤ buf.length then .yes else .more,
        s'.upd n (s'.totalRead + n) (s'.contentRead + n), buf.drop n) := by
  unfold consumeContent
  split
  · rfl
  · have key : ∀ (t : S) (n : Nat), n ≤ buf.length →
        storeContent cfg t buf n = store cfg t (buf.take n) := by
      intro t n hn
      unfold store storeContent
      split
      · rfl
      split
      · split
        · rw [List.take_take, Nat.min_eq_left (by omega)]
        · rw [List.take_take, Nat.min_eq_right (by omega)]
      · rfl
    by_cases h : s.remaining ≤ buf.length
    · simp only [h, if_true, Nat.min_eq_left h]
      rw [key _ _ h]; rfl
    · simp only [h, if_false, Nat.min_eq_right (show buf.length ≤ s.remaining by omega)]
      rw [key _ _ (Nat.le_refl _)]; rfl

theorem store_setL (cfg : Cfg) (s : S) (k : Nat) (d : Bytes) : store cfg (s.setL k) d = (store cfg s d).setL k := by
  unfold store blit
  rw [show (s.setL k).contentRead = s.contentRead from rfl, show (s.setL k).msg = s.msg from rfl]
  (repeat' split) <;> rfl

/-- `store` only touches payload, content and fault. -/
theorem store_upd (cfg : Cfg) (s : S) (d : Bytes) (r l t : Nat) :
    store cfg { s with remaining := r, lastRead := l, totalRead := t } d =
      { store cfg s d with remaining := r, lastRead := l, totalRead := t } := by
  unfold store blit
  (repeat' split) <;> rfl

theorem store_contentRead (cfg : Cfg) (s : S) (d : Bytes) :
    (store cfg s d).contentRead = s.contentRead ∧ (store cfg s d).totalRead = s.totalRead
    ∧ (store cfg s d).remaining = s.remaining ∧ (store cfg s d).ms = s.ms
    ∧ (store cfg s d).lastRead = s.lastRead := by
  unfold store blit
  (repeat' split) <;> exact ⟨rfl, rfl, rfl, rfl, rfl⟩

theorem blit_contentRead (s : S) (off c : Nat) (d : Bytes) :
    blit { s with contentRead := c } off d = { blit s off d with contentRead := c } := by
  unfold blit
  simp only
  split <;> rfl

theorem store_store (cfg : Cfg) (s : S) (d1 d2 : Bytes) (h : d2 ≠ []) :
    store cfg { store cfg s d1 with contentRead := s.contentRead + d1.length } d2 =
      { store cfg s (d1 ++ d2) with contentRead := s.contentRead + d1.length } := by
  unfold store
  cases hh : cfg.handler
  · simp only [Bool.false_eq_true, if_false]
    by_cases h1 : s.contentRead < cfg.maxContent
    · simp only [h1, if_true]
      by_cases h2 : s.contentRead + d1.length < cfg.maxContent
      · simp only [h2, if_true]
        rw [blit_contentRead]
        have e1 : d1.take (cfg.maxContent - s.contentRead) = d1 := List.take_of_length_le (by omega)
        rw [e1, blit_blit]
        · rw [List.take_append, e1]
          have e2 : cfg.maxContent - (s.contentRead + d1.length) = cfg.maxContent - s.contentRead - d1.length := by
            omega
          rw [e2]
        · intro h0
          have := List.length_pos_iff.mpr h
          have := congrArg List.length h0
          rw [List.length_take, List.length_nil] at this
          change min (cfg.maxContent - (s.contentRead + d1.length)) d2.length = 0 at this
          omega
      · simp only [h2, if_false]
        rw [List.take_append_of_le_length (by omega)]
    · have h2 : ¬ s.contentRead + d1.length < cfg.maxContent := by omega
      simp only [h1, h2, if_false]
  · simp

theorem iterAppend_content (cfg : Cfg) (s : S) (a b : Bytes) (hb : b ≠ []) (h : s.ms = .content) :
    IterAppend cfg s a b := by
  have hi : ∀ (t : S) buf, t.ms = .content → iter cfg t buf = consumeContent cfg t buf := by
    intro t buf ht; unfold iter; simp only [ht]
  have hbl := List.length_pos_iff.mpr hb
  unfold IterAppend
  rw [hi s _ h, hi s _ h, consumeContent_eq, consumeContent_eq]
  by_cases h0 : s.remaining = 0
  · right; simp only [h0, if_true]
  by_cases hr : s.remaining ≤ a.length
  · right
    have hr2 : s.remaining ≤ (a ++ b).length := by simp; omega
    simp only [h0, hr, hr2, if_true, if_false, Nat.min_eq_left]
    rw [List.take_append_of_le_length hr, List.drop_append_of_le_length hr]
  · left
    simp only [h0, hr, if_false, Nat.min_eq_right (show a.length ≤ s.remaining by omega)]
    simp only [List.take_length, List.drop_length]
    refine ⟨_, rfl, ?_⟩
    set s0 : S := { s with remaining := s.remaining - a.length } with hs0
    obtain ⟨e1, e2, e3, e4, e5⟩ := store_contentRead cfg s0 a
    rw [hi]
    swap
    · change (store cfg s0 a).ms = _; rw [e4]; exact h
    rw [consumeContent_eq]
    have er : ((store cfg s0 a).upd a.length ((store cfg s0 a).totalRead + a.length)
        ((store cfg s0 a).contentRead + a.length)).remaining = s.remaining - a.length := e3
    simp only [er]
    have hrem : ¬ (s.remaining - a.length = 0) := by omega
    rw [if_neg hrem]
    set m := min (s.remaining - a.length) b.length with hm
    have hmin : min s.remaining (a ++ b).length = a.length + m := by simp; omega
    rw [hmin]
    have htk : (a ++ b).take (a.length + m) = a ++ b.take m := by
      rw [List.take_append, List.take_of_length_le (by omega)]; congr 2; omega
    have hdr : (a ++ b).drop (a.length + m) = b.drop m := by
      rw [List.drop_append, List.drop_of_length_le (by omega)]
      simp
    rw [htk, hdr]
    have hle : (s.remaining ≤ (a ++ b).length) ↔ (s.remaining - a.length ≤ b.length) := by simp; omega
    simp only [hle]
    have hne : b.take m ≠ [] := by
      intro hx
      have := congrArg List.length hx
      rw [List.length_take, List.length_nil] at this
      change min m b.length = 0 at this
      omega
    have hss := store_store cfg s0 a (b.take m) hne
    obtain ⟨f1, f2, f3, f4, f5⟩ := store_contentRead cfg s0 (a ++ b.take m)
    -- state on the right: counters of `s0` advanced by `a`
    have hR : store cfg { (store cfg s0 a).upd a.length ((store cfg s0 a).totalRead + a.length)
          ((store cfg s0 a).contentRead + a.length) with remaining := s.remaining - a.length - m } (b.take m)
        = ({ store cfg s0 (a ++ b.take m) with
              contentRead := s.contentRead + a.length, remaining := s.remaining - a.length - m,
              lastRead := a.length, totalRead := s.totalRead + a.length } : S) := by
      have hx : ({ (store cfg s0 a).upd a.length ((store cfg s0 a).totalRead + a.length)
          ((store cfg s0 a).contentRead + a.length) with remaining := s.remaining - a.length - m } : S)
          = ({ ({ store cfg s0 a with contentRead := s0.contentRead + a.length } : S) with
               remaining := s.remaining - a.length - m, lastRead := a.length,
               totalRead := s.totalRead + a.length } : S) := by
        simp only [S.upd, e1, e2]; rfl
      rw [hx, store_upd, hss]
    have hL : store cfg { s with remaining := s.remaining - (a.length + m) } (a ++ b.take m)
        = ({ store cfg s0 (a ++ b.take m) with
              remaining := s.remaining - (a.length + m), lastRead := s.lastRead, totalRead := s.totalRead } : S) := by
      have := store_upd cfg s0 (a ++ b.take m) (s.remaining - (a.length + m)) s.lastRead s.totalRead
      rw [← this]
    rw [hR, hL]
    simp only [obs, S.upd, S.setL]
    have hrc : (if s.remaining - a.length ≤ b.length then Tri.yes else Tri.more) ≠ .no := by split <;> simp
    simp only [hrc, if_false, Prod.mk.injEq, true_and, and_true]
    simp only [f1, S.mk.injEq, true_and, and_true]
    refine ⟨by omega, ?_, by omega⟩
    change s.contentRead + (a.length + m) = _
    omega

theorem iterAppend_noLength (cfg : Cfg) (s : S) (a b : Bytes) (ha : a ≠ []) (hb : b ≠ []) (h : s.ms = .noLength) :
    IterAppend cfg s a b := by
  have hab : a ++ b ≠ [] := by simp [ha]
  have hi : ∀ (t : S) buf, t.ms = .noLength →
      iter cfg t buf = (.more, (consumeAsNextChunk cfg t buf).1, (consumeAsNextChunk cfg t buf).2) := by
    intro t buf ht; unfold iter; simp only [ht]
  unfold IterAppend
  left
  rw [hi s _ h, hi s _ h]
  have e : ∀ (t : S) (buf : Bytes), buf ≠ [] → consumeAsNextChunk cfg t buf =
      ({ (if cfg.handler then { t with payload := t.payload ++ buf }
          else { t with msg := { t.msg with
            chunkCache := t.msg.chunkCache ++ buf.take (cfg.maxContent - t.msg.chunkCache.length) } } : S) with
          lastRead := buf.length, totalRead := t.totalRead + buf.length,
          contentRead := t.contentRead + buf.length }, []) := by
    intro t buf hbuf
    unfold consumeAsNextChunk
    cases buf with
    | nil => exact absurd rfl hbuf
    | cons x y => cases cfg.handler <;> rfl
  rw [e s a ha, e s _ hab]
  refine ⟨_, rfl, ?_⟩
  rw [hi]
  swap
  · cases cfg.handler <;> exact h
  rw [e _ b hb]
  cases hh : cfg.handler
  · simp only [obs, Bool.false_eq_true, reduceCtorEq, if_false, S.setL, Prod.mk.injEq, true_and, and_true,
      S.mk.injEq, Msg.mk.injEq, List.length_append]
    refine ⟨by omega, by omega, ?_⟩
    rw [List.append_assoc, List.take_append]
    congr 3
    simp; omega
  · simp only [obs, reduceCtorEq, if_true, if_false, S.setL, Prod.mk.injEq, true_and, and_true,
      S.mk.injEq, List.length_append, List.append_assoc]
    exact ⟨by omega, by omega⟩

theorem iter_append (cfg : Cfg) (s : S) (a b : Bytes) (ha : a ≠ []) (hb : b ≠ []) : IterAppend cfg s a b := by
  cases h : s.ms with
  | start => exact iterAppend_headers cfg s a b (by simp [h])
  | headers => exact iterAppend_headers cfg s a b (by simp [h])
  | footers => exact iterAppend_headers cfg s a b (by simp [h])
  | chunks => exact iterAppend_chunks cfg s a b h
  | content => exact iterAppend_content cfg s a b hb h
  | noLength => exact iterAppend_noLength cfg s a b ha hb h
  | end_ => right; unfold iter; simp only [h]

end Verif.Http
