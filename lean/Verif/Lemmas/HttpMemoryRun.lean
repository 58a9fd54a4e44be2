import Verif.Lemmas.HttpMemoryForm
/-
What parser and message hold after reading `n` bytes.
-/
namespace Verif.Http

/-- What is stored of the header that is being read. -/
def pending (s : S) : Nat :=
  match s.hs with
  | .headerName => s.headerName.length
  | .spaceBeforeValue | .headerValue => s.headerName.length + s.headerValue.length + 1
  | _ => 0

/-- The state after `n` bytes; `x` is what a form has added to the parameters. -/
structure Held (cfg : Cfg) (n x : Nat) (s : S) : Prop where
  head : s.method.length + s.resource.length + s.query.length + s.statusMessage.length + space s.msg.headers +
    pending s ≤ n
  name : s.headerName.length ≤ n
  value : s.headerValue.length ≤ n
  size : s.chunkSizeStr.length ≤ n
  cache : s.msg.chunkCache.length ≤ cfg.maxContent
  content : s.msg.content.length ≤ cfg.maxContent
  cookies : space s.msg.cookies ≤ n
  line : s.msg.method.length + s.msg.resource.length + s.msg.originalResource.length + s.msg.queryString.length ≤ 2 * n + 3
  text : s.msg.statusMessage.length ≤ n + 2
  queries : space s.msg.queries ≤ 1025 * (n + 1) + x

/-- Nothing was taken from the headers before their end. -/
def Early (s : S) : Prop := s.ms = .start ∨ s.ms = .headers → s.msg.cookies = [] ∧ s.msg.queries = []

/-- A predicate of the state after a byte that was read, and one of the state after a byte that was not, or was
    only recognized. -/
def HRes.All (P Q : S → Prop) : HRes → Prop
  | .more s => P s
  | .done s _ => Q s
  | .fail s _ => Q s

theorem Held.mono {cfg : Cfg} {n n' x : Nat} {s : S} (h : Held cfg n x s) (hn : n ≤ n') : Held cfg n' x s := by
  obtain ⟨h1, h2, h3, h4, h5, h6, h7, h8, h9, h10⟩ := h
  constructor <;> first | assumption | omega

theorem hswitch_held (cfg : Cfg) (n x : Nat) (s : S) (c : UInt8) (h : Held cfg n x s) :
    (hswitch cfg s c).All (Held cfg (n + 1) x) (Held cfg n x) := by
  have h0 := h
  obtain ⟨h1, h2, h3, h4, h5, h6, h7, h8, h9, h10⟩ := h
  cases hs : s.hs <;> simp only [hswitch, hs]
  all_goals simp only [pending, hs] at h1
  all_goals (repeat' split)
  all_goals first
    | exact h0
    | exact h0.mono (Nat.le_succ n)
    | (simp only [HRes.All, S.noVersion, S.startName, S.addHeader]
       constructor <;> simp only [pending, space_insert, List.length_append, List.length_cons, List.length_nil] <;> omega)

theorem hswitch_early (cfg : Cfg) (s : S) (c : UInt8) (h : Early s) : Early (hswitch cfg s c).st := by
  have key : ∀ s' : S, s'.ms = s.ms → s'.msg.cookies = s.msg.cookies → s'.msg.queries = s.msg.queries → Early s' := by
    intro s' e1 e2 e3; unfold Early; rw [e1, e2, e3]; exact h
  cases hs : s.hs <;> simp only [hswitch, hs]
  all_goals (repeat' split)
  all_goals exact key _ rfl rfl rfl

theorem hstep_held {cfg : Cfg} (hraw : cfg.saveRaw = false) (n x : Nat) (s : S) (c : UInt8) (h : Held cfg n x s) :
    (hstep cfg s c).All (Held cfg (n + 1) x) (Held cfg n x) := by
  unfold hstep; rw [if_neg (by simp [hraw])]; exact hswitch_held cfg n x s c h

theorem hstep_early {cfg : Cfg} (hraw : cfg.saveRaw = false) (s : S) (c : UInt8) (h : Early s) :
    Early (hstep cfg s c).st := by
  unfold hstep; rw [if_neg (by simp [hraw])]; exact hswitch_early cfg s c h

theorem chunkData_held (cfg : Cfg) (n x : Nat) (s : S) (c : UInt8) (t : Bytes) (h : Held cfg n x s) :
    Held cfg n x (chunkData cfg s c t).1 := by
  unfold chunkData
  split
  · split
    · exact ⟨h.1, h.2, h.3, h.4, h.5, h.6, h.7, h.8, h.9, h.10⟩
    · split
      · refine ⟨h.1, h.2, h.3, h.4, ?_, h.6, h.7, h.8, h.9, h.10⟩
        simp only [List.length_append, List.length_cons, List.length_nil]; omega
      · exact h
  · exact h

theorem Held.setCs {cfg : Cfg} {n x : Nat} {s : S} (h : Held cfg n x s) (cs : CState) :
    Held cfg n x { s with cs := cs } := ⟨h.1, h.2, h.3, h.4, h.5, h.6, h.7, h.8, h.9, h.10⟩

theorem cbyte_held (cfg : Cfg) (n x : Nat) (s : S) (c : UInt8) (h : Held cfg n x s) :
    (cbyte cfg s c).All (Held cfg (n + 1) x) (Held cfg n x) := by
  have h' := h.mono (Nat.le_succ n)
  cases hc : s.cs <;> simp only [cbyte, cstep, hc]
  case chunk =>
    have h1 := chunkData_held cfg (n + 1) x s c [] h'
    generalize chunkData cfg s c [] = q at *
    split
    · exact h1.setCs _
    · exact h1
  case expFinalCrOrFooters =>
    split
    · exact h'.setCs _
    · refine ⟨?_, h.2, h.3, h.4, h.5, h.6, h.7, h.8, h.9, h.10⟩
      have := h.head
      simp only [pending] at *
      omega
  all_goals (repeat' split)
  all_goals first
    | exact h
    | exact h'
    | exact h'.setCs _
    | exact ⟨h'.1, h'.2, h'.3, h'.4, h'.5, h'.6, h'.7, h'.8, h'.9, h'.10⟩
    | (refine ⟨h'.1, h'.2, h'.3, ?_, h'.5, h'.6, h'.7, h'.8, h'.9, h'.10⟩
       have := h.size
       simp only [List.length_append, List.length_cons, List.length_nil]; omega)

theorem cbyte_late (cfg : Cfg) (s : S) (c : UInt8) (h : s.ms = .chunks ∨ s.ms = .footers) :
    (cbyte cfg s c).st.ms = .chunks ∨ (cbyte cfg s c).st.ms = .footers := by
  have hd : (chunkData cfg s c []).1.ms = s.ms := by unfold chunkData; (repeat' split) <;> rfl
  cases hc : s.cs <;> simp only [cbyte, cstep, hc]
  case chunk =>
    generalize chunkData cfg s c [] = q at *
    split <;> (simp only [CRes.toH, HRes.st]; rw [hd]; exact h)
  case expFinalCrOrFooters =>
    split
    · exact h
    · exact .inr rfl
  all_goals (repeat' split)
  all_goals exact h

/-- A run over a buffer. -/
theorem run_held {cfg : Cfg} (step : S → UInt8 → HRes) (x : Nat)
    (hstep : ∀ n s c, Held cfg n x s → (step s c).All (Held cfg (n + 1) x) (Held cfg n x)) (b : Bytes) :
    ∀ (n : Nat) (s : S), Held cfg n x s → Held cfg (n + (b.length - (run step s b).2.2.length)) x (run step s b).2.1 := by
  induction b with
  | nil => intro n s h; exact h
  | cons c t ih =>
    intro n s h
    have hs := hstep n s c h
    unfold run
    cases e : step s c with
    | more s' =>
      rw [e] at hs
      have h1 := ih (n + 1) s' hs
      have h2 := run_rest_le step s' t
      dsimp only
      refine h1.mono ?_
      simp only [List.length_cons]; omega
    | done s' f =>
      rw [e] at hs
      cases f
      · exact Held.mono hs (Nat.le_add_right _ _)
      · exact Held.mono hs (Nat.le_add_right _ _)
    | fail s' f =>
      rw [e] at hs
      have hs : Held cfg n x s' := hs
      exact Held.mono ⟨hs.1, hs.2, hs.3, hs.4, hs.5, hs.6, hs.7, hs.8, hs.9, hs.10⟩ (Nat.le_add_right _ _)

theorem createBuffer_held {cfg : Cfg} {n x : Nat} {s : S} (h : Held cfg n x s)
    (hl : s.msg.contentLength ≤ cfg.maxContent) : Held cfg n x (createBuffer s) := by
  unfold createBuffer
  split
  · exact ⟨h.1, h.2, h.3, h.4, h.5, Nat.zero_le _, h.7, h.8, h.9, h.10⟩
  · refine ⟨h.1, h.2, h.3, h.4, h.5, ?_, h.7, h.8, h.9, h.10⟩
    simp only [List.length_replicate]; exact hl

theorem concatenateChunks_held {cfg : Cfg} {n x : Nat} {s : S} (h : Held cfg n x s) :
    Held cfg n x (concatenateChunks s) := by
  have h1 : Held cfg n x (createBuffer { s with msg := { s.msg with contentLength := s.msg.chunkCache.length } }) :=
    createBuffer_held ⟨h.1, h.2, h.3, h.4, h.5, h.6, h.7, h.8, h.9, h.10⟩ h.cache
  unfold concatenateChunks
  dsimp only
  generalize createBuffer { s with msg := { s.msg with contentLength := s.msg.chunkCache.length } } = t at *
  split
  · exact ⟨h1.1, h1.2, h1.3, h1.4, h1.5, h1.6, h1.7, h1.8, h1.9, h1.10⟩
  · refine ⟨h1.1, h1.2, h1.3, h1.4, h1.5, ?_, h1.7, h1.8, h1.9, h1.10⟩
    simp only [List.length_map]; exact h1.5

theorem finishHeaders1_held {cfg : Cfg} (ho : OrderOk cfg.ord) {n : Nat} {s : S} (h : Held cfg n 0 s)
    (he : s.msg.cookies = [] ∧ s.msg.queries = []) : Held cfg n 0 (finishHeaders1 cfg s) := by
  have h1 := h.head
  have h8 := h.line
  have hck : ∀ b k, space (addCookies b s.msg.cookies (cfg.ord (s.msg.headers.values k))) ≤ n := by
    intro b k
    have := cookies_space ho b s.msg.cookies s.msg.headers k
    rw [he.1, space_nil] at *
    omega
  have hq : s.query.length ≤ n := by omega
  unfold finishHeaders1 updateMessage
  dsimp only
  split
  · refine ⟨h.1, h.2, h.3, h.4, h.5, h.6, hck _ _, ?_, h.9, ?_⟩
    · show s.method.length + s.resource.length + s.resource.length + s.query.length ≤ 2 * n + 3
      omega
    · show space (if s.query.isEmpty then s.msg.queries else (Query.parseUrlEncoded s.msg.queries s.query).2) ≤ _
      have := query_space [] s.query
      rw [space_nil] at this
      rw [he.2]
      split
      · rw [space_nil]; exact Nat.zero_le _
      · rw [Nat.zero_add] at this
        exact Nat.le_trans this (Nat.le_trans (Nat.mul_le_mul_left 1025 (Nat.succ_le_succ hq)) (Nat.le_add_right _ _))
  · refine ⟨h.1, h.2, h.3, h.4, h.5, h.6, hck _ _, h.8, ?_, h.10⟩
    show s.statusMessage.length ≤ n + 2
    omega

theorem updateContentLength_only {ord : Dict.Order} {m m' : Msg} (h : m.updateContentLength ord = some m') :
    m' = { m with contentLength := m'.contentLength } := by
  unfold Msg.updateContentLength at h
  split at h
  · simp only [Option.some.injEq] at h; subst h; rfl
  · simp only [Option.map_eq_some_iff] at h
    obtain ⟨k, _, rfl⟩ := h
    rfl

theorem finishHeaders_held {cfg : Cfg} (ho : OrderOk cfg.ord) {n : Nat} {s : S} (h : Held cfg n 0 s)
    (he : s.msg.cookies = [] ∧ s.msg.queries = []) :
    Held cfg n 0 (finishHeaders cfg s).2 ∧ ((finishHeaders cfg s).1 ≠ .no → Early (finishHeaders cfg s).2) := by
  rw [finishHeaders_eq]
  have h := finishHeaders1_held ho h he
  generalize finishHeaders1 cfg s = t at *
  have late : ∀ u : S, u.ms ≠ .start → u.ms ≠ .headers → Early u := fun u h1 h2 h3 => by
    rcases h3 with h3 | h3
    · exact absurd h3 h1
    · exact absurd h3 h2
  unfold finishHeaders2
  split
  · exact ⟨⟨h.1, h.2, h.3, h.4, h.5, h.6, h.7, h.8, h.9, h.10⟩,
      fun _ => late _ (fun h => nomatch h) (fun h => (nomatch h))⟩
  split
  · exact ⟨⟨h.1, h.2, h.3, h.4, h.5, h.6, h.7, h.8, h.9, h.10⟩,
      fun _ => late _ (fun h => nomatch h) (fun h => (nomatch h))⟩
  split
  · cases hm : t.msg.updateContentLength cfg.ord with
    | none => exact ⟨⟨h.1, h.2, h.3, h.4, h.5, h.6, h.7, h.8, h.9, h.10⟩, fun hc => absurd rfl hc⟩
    | some m =>
      have hm' := updateContentLength_only hm
      generalize m.contentLength = k at *
      subst hm'
      dsimp only
      split
      · exact ⟨⟨h.1, h.2, h.3, h.4, h.5, h.6, h.7, h.8, h.9, h.10⟩,
          fun _ => late _ (fun h => nomatch h) (fun h => (nomatch h))⟩
      generalize hm2 : (if cfg.maxContent < k then { t.msg with contentLength := cfg.maxContent }
        else { t.msg with contentLength := k }) = m2
      have hm3 : ∃ j, j ≤ cfg.maxContent ∧ m2 = { t.msg with contentLength := j } := by
        subst hm2
        split
        · exact ⟨_, Nat.le_refl _, rfl⟩
        · exact ⟨k, by omega, rfl⟩
      obtain ⟨j, hj, rfl⟩ := hm3
      split
      · exact ⟨⟨h.1, h.2, h.3, h.4, h.5, h.6, h.7, h.8, h.9, h.10⟩,
          fun _ => late _ (fun h => nomatch h) (fun h => (nomatch h))⟩
      · refine ⟨createBuffer_held ⟨h.1, h.2, h.3, h.4, h.5, h.6, h.7, h.8, h.9, h.10⟩ hj, fun _ => late _ ?_ ?_⟩
        · rw [createBuffer_ms]; exact fun h => nomatch h
        · rw [createBuffer_ms]; exact fun h => nomatch h
  split
  · exact ⟨⟨h.1, h.2, h.3, h.4, Nat.zero_le _, h.6, h.7, h.8, h.9, h.10⟩,
      fun _ => late _ (fun h => nomatch h) (fun h => (nomatch h))⟩
  · exact ⟨⟨h.1, h.2, h.3, h.4, h.5, h.6, h.7, h.8, h.9, h.10⟩,
      fun _ => late _ (fun h => nomatch h) (fun h => (nomatch h))⟩

theorem blit_held {cfg : Cfg} {n x : Nat} {s : S} (h : Held cfg n x s) (off : Nat) (d : Bytes) :
    Held cfg n x (blit s off d) := by
  unfold blit
  split
  · exact ⟨h.1, h.2, h.3, h.4, h.5, Nat.zero_le _, h.7, h.8, h.9, h.10⟩
  · refine ⟨h.1, h.2, h.3, h.4, h.5, ?_, h.7, h.8, h.9, h.10⟩
    have := h.content
    simp only [List.length_append, List.length_take, List.length_map, List.length_drop]
    omega

theorem Held.upd {cfg : Cfg} {n x : Nat} {s : S} (h : Held cfg n x s) (l t c : Nat) : Held cfg n x (s.upd l t c) :=
  ⟨h.1, h.2, h.3, h.4, h.5, h.6, h.7, h.8, h.9, h.10⟩

theorem count_held {cfg : Cfg} {n x : Nat} (b : Bool) (buf : Bytes) (r : Tri × S × Bytes) (h : Held cfg n x r.2.1) :
    Held cfg n x (count b buf r).2.1 := by
  unfold Http.count; split
  · exact h
  · exact h.upd _ _ _

theorem count_keeps (b : Bool) (buf : Bytes) (r : Tri × S × Bytes) :
    (count b buf r).2.2 = r.2.2 ∧ (count b buf r).1 = r.1 ∧ (count b buf r).2.1.ms = r.2.1.ms ∧
      (count b buf r).2.1.msg = r.2.1.msg := by
  unfold Http.count; split <;> exact ⟨rfl, rfl, rfl, rfl⟩

/-- One pass through the states of `parse`. -/
theorem iter_held {cfg : Cfg} (hraw : cfg.saveRaw = false) (ho : OrderOk cfg.ord) {n : Nat} {s : S} (buf : Bytes)
    (h : Held cfg n 0 s) (he : Early s) :
    Held cfg (n + (buf.length - (iter cfg s buf).2.2.length)) 0 (iter cfg s buf).2.1 ∧
      ((iter cfg s buf).1 ≠ .no → Early (iter cfg s buf).2.1) ∧ (iter cfg s buf).2.2.length ≤ buf.length := by
  have late : ∀ u : S, u.ms ≠ .start → u.ms ≠ .headers → Early u := fun u h1 h2 h3 => by
    rcases h3 with h3 | h3
    · exact absurd h3 h1
    · exact absurd h3 h2
  by_cases hh : s.ms = .start ∨ s.ms = .headers ∨ s.ms = .footers
  · rw [iter_headers cfg s buf hh, parseHeaders_eq]
    have h0 : Held cfg n 0 ((enterH s).setL 0) := by
      unfold enterH; split <;> exact ⟨h.1, h.2, h.3, h.4, h.5, h.6, h.7, h.8, h.9, h.10⟩
    have he0 : Early ((enterH s).setL 0) := by
      unfold enterH; split
      · rename_i hst; intro _; exact he (.inl hst)
      · exact he
    have h1 := run_held (hstep cfg) 0 (fun n s c => hstep_held hraw n 0 s c) buf n _ h0
    have h2 : Early (run (hstep cfg) ((enterH s).setL 0) buf).2.1 := by
      refine run_inv (hstep cfg) Early ?_ ?_ ?_ _ _ he0
      · intro s c s' hs e; have := hstep_early hraw s c hs; rw [e] at this; exact this
      · intro s c s' f hs e; have := hstep_early hraw s c hs; rw [e] at this; exact this
      · intro s c s' f hs e; have := hstep_early hraw s c hs; rw [e] at this; exact this
    have h3 := run_rest_le (hstep cfg) ((enterH s).setL 0) buf
    generalize run (hstep cfg) ((enterH s).setL 0) buf = r at *
    obtain ⟨e1, e2, e3, e4⟩ := count_keeps false buf r
    have h4 := count_held false buf r h1
    have h5 : Early (count false buf r).2.1 := by unfold Early; rw [e3, e4]; exact h2
    rw [← e1] at h3 h4
    generalize count false buf r = q at *
    unfold postH
    split
    · rename_i hy
      obtain ⟨a, b⟩ := finishHeaders_held ho h4 (h5 (.inr hy.2))
      exact ⟨a, b, h3⟩
    · exact ⟨h4, fun _ => h5, h3⟩
  · cases hs : s.ms with
    | start | headers | footers => simp [hs] at hh
    | chunks =>
      rw [iter_chunks cfg s buf hs, parseChunks_eq]
      have h0 : Held cfg n 0 (s.setL 0) := ⟨h.1, h.2, h.3, h.4, h.5, h.6, h.7, h.8, h.9, h.10⟩
      have h1 := run_held (cbyte cfg) 0 (fun n s c => cbyte_held cfg n 0 s c) buf n _ h0
      have h2 : (run (cbyte cfg) (s.setL 0) buf).2.1.ms = .chunks ∨ (run (cbyte cfg) (s.setL 0) buf).2.1.ms = .footers := by
        refine run_inv (cbyte cfg) (fun s => s.ms = .chunks ∨ s.ms = .footers) ?_ ?_ ?_ _ _ (.inl hs)
        · intro s c s' hs e; have := cbyte_late cfg s c hs; rw [e] at this; exact this
        · intro s c s' f hs e; have := cbyte_late cfg s c hs; rw [e] at this; exact this
        · intro s c s' f hs e; have := cbyte_late cfg s c hs; rw [e] at this; exact this
      have h3 := run_rest_le (cbyte cfg) (s.setL 0) buf
      generalize run (cbyte cfg) (s.setL 0) buf = r at *
      obtain ⟨e1, e2, e3, e4⟩ := count_keeps true buf r
      have h4 := count_held true buf r h1
      rw [← e1] at h3 h4
      rw [← e3] at h2
      generalize count true buf r = q at *
      have hne : q.2.1.ms ≠ .start ∧ q.2.1.ms ≠ .headers := by
        rcases h2 with h2 | h2 <;> rw [h2] <;> exact ⟨(fun h => nomatch h), (fun h => nomatch h)⟩
      unfold postC
      split
      · refine ⟨concatenateChunks_held h4, fun _ => late _ ?_ ?_, h3⟩
        · rw [concatenateChunks_ms]; exact hne.1
        · rw [concatenateChunks_ms]; exact hne.2
      · exact ⟨h4, fun _ => late _ hne.1 hne.2, h3⟩
    | content =>
      unfold Http.iter; simp only [hs]
      rw [consumeContent_eq]
      split
      · exact ⟨h.mono (Nat.le_add_right _ _), fun _ => he, Nat.le_refl _⟩
      · have h0 : Held cfg n 0 { s with remaining := s.remaining - min s.remaining buf.length } :=
          ⟨h.1, h.2, h.3, h.4, h.5, h.6, h.7, h.8, h.9, h.10⟩
        have h1 : Held cfg n 0 (store cfg { s with remaining := s.remaining - min s.remaining buf.length }
            (buf.take (min s.remaining buf.length))) := by
          unfold store
          split
          · exact ⟨h.1, h.2, h.3, h.4, h.5, h.6, h.7, h.8, h.9, h.10⟩
          split
          · exact blit_held h0 _ _
          · exact h0
        have h2 : (store cfg { s with remaining := s.remaining - min s.remaining buf.length }
            (buf.take (min s.remaining buf.length))).ms = .content := by
          unfold store blit
          repeat' split
          all_goals exact hs
        dsimp only
        generalize store cfg { s with remaining := s.remaining - min s.remaining buf.length }
            (buf.take (min s.remaining buf.length)) = t at *
        refine ⟨(h1.upd _ _ _).mono (Nat.le_add_right _ _), fun _ => late _ ?_ ?_, by simp⟩
        · show t.ms ≠ _; rw [h2]; exact fun h => nomatch h
        · show t.ms ≠ _; rw [h2]; exact fun h => nomatch h
    | noLength =>
      unfold Http.iter; simp only [hs]
      unfold consumeAsNextChunk
      split
      · exact ⟨Held.mono ⟨h.1, h.2, h.3, h.4, h.5, h.6, h.7, h.8, h.9, h.10⟩ (Nat.le_add_right _ _),
          fun _ => late _ (by rw [hs]; exact fun h => nomatch h) (by rw [hs]; exact fun h => nomatch h), Nat.le_refl _⟩
      · dsimp only
        refine ⟨Held.mono ?_ (Nat.le_add_right n _), fun _ => late _ ?_ ?_, Nat.zero_le _⟩
        · split
          · exact ⟨h.1, h.2, h.3, h.4, h.5, h.6, h.7, h.8, h.9, h.10⟩
          · refine ⟨h.1, h.2, h.3, h.4, ?_, h.6, h.7, h.8, h.9, h.10⟩
            have := h.cache
            simp only [List.length_append, List.length_take]
            omega
        · split <;> (dsimp only; rw [hs]; exact fun h => nomatch h)
        · split <;> (dsimp only; rw [hs]; exact fun h => nomatch h)
    | end_ =>
      unfold Http.iter; simp only [hs]
      exact ⟨h.mono (Nat.le_add_right _ _), fun _ => he, Nat.le_refl _⟩

theorem runs_held {cfg : Cfg} (hraw : cfg.saveRaw = false) (ho : OrderOk cfg.ord) {s : S} {buf : Bytes}
    {r : Tri × S × Bytes} (hr : Runs cfg s buf r) : ∀ {n : Nat}, Held cfg n 0 s → Early s →
    Held cfg (n + (buf.length - r.2.2.length)) 0 r.2.1 ∧ (r.1 ≠ .no → Early r.2.1) ∧ r.2.2.length ≤ buf.length := by
  induction hr with
  | @stop s buf _ => intro n h he; exact iter_held hraw ho buf h he
  | @next s buf r hm _ _ ih =>
    intro n h he
    obtain ⟨h1, h2, h3⟩ := iter_held hraw ho buf h he
    obtain ⟨h4, h5, h6⟩ := ih h1 (h2 (by rw [hm]; exact fun h => nomatch h))
    exact ⟨h4.mono (by omega), h5, by omega⟩

/-- What a form may add to the parameters. -/
def formSpace (cfg : Cfg) : Nat := 1025 * (cfg.maxContent + 1)

theorem Held.more {cfg : Cfg} {n x x' : Nat} {s : S} (h : Held cfg n x s) (hx : x ≤ x') : Held cfg n x' s :=
  ⟨h.1, h.2, h.3, h.4, h.5, h.6, h.7, h.8, h.9, Nat.le_trans h.10 (by omega)⟩

theorem finishForm_held {cfg : Cfg} {n : Nat} {s : S} (h : Held cfg n 0 s) :
    Held cfg n (formSpace cfg) (finishForm cfg s) := by
  have h' := h.more (Nat.zero_le (formSpace cfg))
  have hc := h.content
  have hq := h.queries
  have hb : ((s.msg.content.take s.msg.contentLength).map (·.getD 0)).length ≤ cfg.maxContent := by
    rw [List.length_map, List.length_take]; omega
  unfold finishForm
  dsimp only
  generalize (s.msg.content.take s.msg.contentLength).map (·.getD 0) = body at *
  repeat' split
  all_goals first
    | exact h'
    | exact ⟨h'.1, h'.2, h'.3, h'.4, h'.5, h'.6, h'.7, h'.8, h'.9, h'.10⟩
    | (refine ⟨h.1, h.2, h.3, h.4, h.5, h.6, h.7, h.8, h.9, ?_⟩
       have := query_space s.msg.queries body
       exact Nat.le_trans this (Nat.add_le_add hq (Nat.mul_le_mul_left 1025 (Nat.succ_le_succ hb))))
    | (rename_i e
       refine ⟨h.1, h.2, h.3, h.4, h.5, h.6, h.7, h.8, h.9, ?_⟩
       have := form_space _ _ _ _ _ e
       dsimp only
       unfold formSpace
       omega)

/-- One call of `parse`. -/
theorem parse_held {cfg : Cfg} (hraw : cfg.saveRaw = false) (ho : OrderOk cfg.ord) {n : Nat} {s : S} {buf : Bytes}
    (h : Held cfg n 0 s) (he : Early s) {rc : Tri} {s' : S} {rest : Bytes} (hp : parse cfg s buf = some (rc, s', rest)) :
    Held cfg (n + buf.length) (formSpace cfg) s' ∧
      (rc = .more → Held cfg (n + buf.length) 0 s' ∧ Early s') := by
  obtain ⟨r, t, hr, e⟩ := parse_runs cfg s buf
  rw [e] at hp
  simp only [Option.some.injEq, Prod.mk.injEq] at hp
  obtain ⟨rfl, rfl, rfl⟩ := hp
  have hb : Held cfg n 0 (parseBegin s) ∧ Early (parseBegin s) := by
    unfold Http.parseBegin; split
    · exact ⟨⟨h.1, h.2, h.3, h.4, h.5, h.6, h.7, h.8, h.9, h.10⟩, he⟩
    · exact ⟨h, he⟩
  obtain ⟨h1, h2, h3⟩ := runs_held hraw ho hr hb.1 hb.2
  have h4 : Held cfg (n + buf.length) 0 r.2.1 := h1.mono (by omega)
  generalize n + buf.length = k at *
  obtain ⟨rc, u, rest⟩ := r
  cases rc with
  | more =>
    have h5 : Held cfg k 0 (parseEnd cfg .more u t) := h4.upd _ _ _
    exact ⟨h5.more (Nat.zero_le _), fun _ => ⟨h5, h2 (fun h => nomatch h)⟩⟩
  | yes =>
    refine ⟨?_, fun h => nomatch h⟩
    have h5 : Held cfg k (formSpace cfg) (finish cfg { u with ms := .end_ }) := by
      rw [finish_end]
      exact finishForm_held ⟨h4.1, h4.2, h4.3, h4.4, h4.5, h4.6, h4.7, h4.8, h4.9, h4.10⟩
    exact h5.upd t _ _
  | no =>
    refine ⟨?_, fun h => nomatch h⟩
    have h5 := h4.more (Nat.zero_le (formSpace cfg))
    exact ⟨h5.1, h5.2, h5.3, h5.4, h5.5, h5.6, h5.7, h5.8, h5.9, h5.10⟩

/-- Any number of buffers. -/
theorem feed_held {cfg : Cfg} (hraw : cfg.saveRaw = false) (ho : OrderOk cfg.ord) (bufs : List Bytes) :
    ∀ {n : Nat} {s : S}, Held cfg n 0 s → Early s → ∀ {rc : Tri} {s' : S} {rest : Bytes} {more : List Bytes},
      feed cfg s bufs = some (rc, s', rest, more) → Held cfg (n + bufs.flatten.length) (formSpace cfg) s' := by
  induction bufs with
  | nil =>
    intro n s h _ rc s' rest more hf
    simp only [Http.feed, Option.some.injEq, Prod.mk.injEq] at hf
    rw [← hf.2.1]; exact h.more (Nat.zero_le _)
  | cons b bufs ih =>
    intro n s h he rc s' rest more hf
    simp only [Http.feed] at hf
    cases hp : Http.parse cfg s b with
    | none => rw [hp] at hf; simp at hf
    | some r =>
      obtain ⟨rc1, s1, rest1⟩ := r
      obtain ⟨h1, h2⟩ := parse_held hraw ho h he hp
      rw [hp] at hf
      have hl : (b :: bufs).flatten.length = b.length + bufs.flatten.length := by simp
      cases rc1 with
      | more =>
        obtain ⟨h3, h4⟩ := h2 rfl
        have := ih h3 h4 hf
        rw [hl, ← Nat.add_assoc]; exact this
      | yes =>
        simp only [Option.some.injEq, Prod.mk.injEq] at hf
        rw [← hf.2.1]; exact h1.mono (by omega)
      | no =>
        simp only [Option.some.injEq, Prod.mk.injEq] at hf
        rw [← hf.2.1]; exact h1.mono (by omega)

theorem fresh_held (cfg : Cfg) (m : Msg) (h : Unused m) : Held cfg 0 0 (fresh cfg m) ∧ Early (fresh cfg m) := by
  obtain ⟨h1, h2, h3, h4, h5, h6, h7, h8, h9, h10⟩ := h
  have hi : pending (fresh cfg m) = 0 := by
    unfold pending fresh initHs; cases cfg.isRequest <;> rfl
  refine ⟨⟨?_, Nat.zero_le _, Nat.zero_le _, Nat.zero_le _, ?_, ?_, ?_, ?_, ?_, ?_⟩, fun _ => ⟨h7, h8⟩⟩
  · rw [hi]; simp [fresh, h6, space_nil]
  · simp [fresh, h10]
  · simp [fresh, h9]
  · simp [fresh, h7, space_nil]
  · simp only [fresh, h2, h3, h4]
    rcases h1 with h1 | h1 <;> rw [h1] <;> decide
  · simp only [fresh, h5]; decide
  · simp [fresh, h8, space_nil]

end Verif.Http
