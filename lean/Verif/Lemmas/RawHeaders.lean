import Verif.Lemmas.HttpFramingRun
import Verif.Lemmas.HttpInv
import Verif.Spec.RawHeaders
/-
What `parse_headers` saves.
-/
namespace Verif.Http.Text

theorem hswitch_raw (cfg : Cfg) (s : S) (c : UInt8) : (hswitch cfg s c).st.raw = s.raw := by
  have h := hswitch_withRaw cfg s s.raw c
  have : ({ s with raw := s.raw } : S) = s := rfl
  rw [this] at h
  rw [h]
  cases hswitch cfg s c <;> rfl

theorem hstep_saves {cfg : Cfg} (hs : cfg.saveRaw = true) (s : S) (c : UInt8) : (hstep cfg s c).st.raw = s.raw ++ [c] := by
  rw [hstep_raw, hswitch_raw]
  simp [rawAdd, hs]

/-- What one call of `parse_headers` saves. -/
theorem run_saves {cfg : Cfg} (hsave : cfg.saveRaw = true) (buf : Bytes) : ∀ {s s' : S} {rest : Bytes},
    run (hstep cfg) s buf = (.yes, s', rest) →
    ∃ t, buf = t ++ rest ∧ ((s'.raw = s.raw ++ t ∧ run (hstep cfg) s t = (.yes, s', [])) ∨
      (∃ c r, rest = c :: r ∧ s'.raw = s.raw ++ t ++ [c] ∧ (run (hstep cfg) s t).1 = .more)) := by
  induction buf with
  | nil => intro s s' rest h; simp [run] at h
  | cons c buf ih =>
    intro s s' rest h
    have hr := hstep_saves hsave s c
    simp only [run] at h
    cases hst : hstep cfg s c with
    | more s1 =>
      rw [hst] at h hr
      simp only [HRes.st] at hr
      obtain ⟨t, e, h1⟩ := ih h
      refine ⟨c :: t, by rw [e]; rfl, ?_⟩
      rw [hr] at h1
      rcases h1 with ⟨h1, h2⟩ | ⟨d, r, h1, h2, h3⟩
      · exact .inl ⟨by rw [h1]; simp, by simp only [run, hst, h2]⟩
      · exact .inr ⟨d, r, h1, by rw [h2]; simp, by simp only [run, hst, h3]⟩
    | done s1 k =>
      rw [hst] at h hr
      simp only [HRes.st] at hr
      cases k with
      | true =>
        simp only [Prod.mk.injEq, true_and] at h
        obtain ⟨rfl, rfl⟩ := h
        exact ⟨[c], rfl, .inl ⟨hr, by simp only [run, hst]⟩⟩
      | false =>
        simp only [Prod.mk.injEq, true_and] at h
        obtain ⟨rfl, rfl⟩ := h
        exact ⟨[], rfl, .inr ⟨c, buf, rfl, by simp [hr], rfl⟩⟩
    | fail s1 e =>
      rw [hst] at h
      simp at h

theorem savedAs_of_run {cfg : Cfg} (hsave : cfg.saveRaw = true) {buf : Bytes} {s s' : S} {rest : Bytes}
    (h : run (hstep cfg) s buf = (.yes, s', rest)) :
    ∃ t x, buf = t ++ rest ∧ s'.raw = s.raw ++ x ∧ SavedAs t rest x ∧ ((run (hstep cfg) s t).1 = .yes → x = t) := by
  obtain ⟨t, e, h1⟩ := run_saves hsave buf h
  rcases h1 with ⟨h1, _⟩ | ⟨c, r, h1, h2, h3⟩
  · exact ⟨t, t, e, h1, .inl rfl, fun _ => rfl⟩
  · exact ⟨t, t ++ [c], e, by rw [h2]; simp, .inr ⟨c, r, h1, rfl⟩, fun h => by rw [h3] at h; exact nomatch h⟩

theorem createBuffer_raw (s : S) : (createBuffer s).raw = s.raw := by
  unfold createBuffer; split <;> rfl

theorem finishHeaders_raw (cfg : Cfg) (s : S) : (finishHeaders cfg s).2.raw = s.raw := by
  rw [finishHeaders_eq]
  have h1 : (finishHeaders1 cfg s).raw = s.raw := by
    unfold finishHeaders1 updateMessage; dsimp only; split <;> rfl
  rw [← h1]
  generalize finishHeaders1 cfg s = t
  unfold finishHeaders2
  repeat' split
  all_goals first | rfl | simp [createBuffer_raw]

theorem concatenateChunks_raw (s : S) : (concatenateChunks s).raw = s.raw := by
  unfold concatenateChunks; dsimp only; split <;> simp [createBuffer_raw]

theorem parseEnd_raw (cfg : Cfg) (rc : Tri) (s : S) (n : Nat) : (parseEnd cfg rc s n).raw = s.raw := by
  unfold parseEnd
  cases rc with
  | yes =>
    dsimp only
    unfold finish finish.tail finishForm
    dsimp only
    (repeat' split) <;> rfl
  | no => rfl
  | more => rfl

theorem consumeContent_raw (cfg : Cfg) (s : S) (buf : Bytes) : (consumeContent cfg s buf).2.1.raw = s.raw := by
  have hb : ∀ (s : S) off data, (blit s off data).raw = s.raw := by
    intro s off data; unfold blit; split <;> rfl
  unfold consumeContent
  split
  · rfl
  · dsimp only
    unfold storeContent
    (repeat' split) <;> simp [hb]

theorem consumeAsNextChunk_raw (cfg : Cfg) (s : S) (buf : Bytes) : (consumeAsNextChunk cfg s buf).1.raw = s.raw := by
  unfold consumeAsNextChunk
  split
  · rfl
  · dsimp only; split <;> rfl

/-- The state behind the chunks. -/
def ChunkPhase (raw : Bytes) (maj : Nat) (t : S) : Prop :=
  t.raw = raw ∧ t.msg.verMajor = maj ∧ (t.ms = .chunks ∨ (t.ms = .footers ∧ t.hs = .headerStart))

theorem ChunkPhase.congr {raw : Bytes} {maj : Nat} {s t : S} (h : ChunkPhase raw maj s) (h1 : t.raw = s.raw)
    (h2 : t.msg.verMajor = s.msg.verMajor) (h3 : t.ms = s.ms) (h4 : t.hs = s.hs) : ChunkPhase raw maj t := by
  unfold ChunkPhase at *
  rw [h1, h2, h3, h4]; exact h

theorem cbyte_phase (cfg : Cfg) (raw : Bytes) (maj : Nat) (s : S) (c : UInt8) (h : ChunkPhase raw maj s) :
    ChunkPhase raw maj (cbyte cfg s c).st := by
  cases hc : s.cs <;> simp only [cbyte, cstep, hc]
  case chunk =>
    have : ChunkPhase raw maj (chunkData cfg s c []).1 := by
      unfold chunkData
      (repeat' split) <;> exact h.congr rfl rfl rfl rfl
    generalize chunkData cfg s c [] = q at *
    split <;> exact this.congr rfl rfl rfl rfl
  case expFinalCrOrFooters =>
    split
    · exact h.congr rfl rfl rfl rfl
    · exact ⟨h.1, h.2.1, .inr ⟨rfl, rfl⟩⟩
  all_goals (repeat' split)
  all_goals exact h.congr rfl rfl rfl rfl

theorem run_phase (cfg : Cfg) (raw : Bytes) (maj : Nat) (s : S) (b : Bytes) (h : ChunkPhase raw maj s) :
    ChunkPhase raw maj (run (cbyte cfg) s b).2.1 := by
  refine run_inv (cbyte cfg) (ChunkPhase raw maj) ?_ ?_ ?_ s b h
  · intro s c s' hs e; have := cbyte_phase cfg raw maj s c hs; rw [e] at this; exact this
  · intro s c s' f hs e; have := cbyte_phase cfg raw maj s c hs; rw [e] at this; exact this
  · intro s c s' f hs e; have := cbyte_phase cfg raw maj s c hs; rw [e] at this; exact this

/-- The trailers. -/
theorem footers_raw {cfg : Cfg} (hsave : cfg.saveRaw = true) {y s' : S} {buf rest : Bytes} (hms : y.ms = .footers)
    (hhs : y.hs = .headerStart) (h : Runs cfg y buf (.yes, s', rest)) :
    ∃ t x, buf = t ++ rest ∧ s'.raw = y.raw ++ x ∧ SavedAs t rest x ∧
      Trailers (cfg.isRequest && y.msg.verMajor == 0) t rest ∧
      (Trailers (cfg.isRequest && y.msg.verMajor == 0) t [] → x = t) := by
  have hi := iter_headers cfg y buf (.inr (.inr hms))
  have hent : enterH y = y := by unfold enterH; rw [if_neg (by rw [hms]; simp)]
  have hms2 := parseHeaders_ms cfg y buf
  rw [hent, parseHeaders_eq] at hi
  rw [parseHeaders_eq] at hms2
  cases hrun : run (hstep cfg) (y.setL 0) buf with
  | mk rc2 q2 =>
    obtain ⟨x2, r2⟩ := q2
    rw [hrun] at hi hms2
    cases rc2 with
    | no =>
      simp only [count, postH, reduceCtorEq, false_and, if_false, if_true] at hi
      rcases runs_yes h with h1 | ⟨_, _, h1, _⟩ <;> rw [hi] at h1 <;> simp at h1
    | more =>
      have hrest : r2 = [] := by
        have := run_more_rest (hstep cfg) (y.setL 0) buf (by rw [hrun])
        rw [hrun] at this; exact this
      subst hrest
      simp only [count, postH, reduceCtorEq, false_and, if_false] at hi
      rcases runs_yes h with h1 | ⟨_, _, h1, h2, _⟩
      · rw [hi] at h1; simp at h1
      · rw [hi] at h1; simp only [Prod.mk.injEq, true_and] at h1; exact absurd h1.2.symm h2
    | yes =>
      have hx2 : x2.ms = .footers := by
        rw [count_ms] at hms2
        exact hms2.trans hms
      simp only [count, postH, reduceCtorEq, if_false, S.upd, hx2, and_false] at hi
      obtain ⟨t, x, e, e1, e2, e3⟩ := savedAs_of_run hsave hrun
      obtain ⟨tr, u, g1, g2⟩ := sect_sound cfg (cfg.isRequest && y.msg.verMajor == 0) (y.setL 0).msg.headers buf (y.setL 0)
        [LF, CR] x2 r2 rfl (sect_trailers hhs) hrun
      rw [e, ← List.append_assoc] at g1
      have g1 := List.append_cancel_right g1
      rcases runs_yes h with h1 | ⟨_, _, h1, _⟩
      · rw [hi] at h1
        simp only [Prod.mk.injEq, true_and] at h1
        obtain ⟨rfl, rfl⟩ := h1
        refine ⟨t, x, e, e1, e2, .inr ⟨tr, by rw [g1]; exact g2⟩, fun hx => e3 ?_⟩
        rcases hx with rfl | ⟨tr', hx⟩
        · rw [← g1] at g2
          have := lines_long g2
          simp at this
        · obtain ⟨_, _, _, _, e'⟩ := run_trailers (cfg := cfg) (s := y.setL 0) hx hhs rfl
          rw [List.append_nil] at e'
          rw [e']
      · rw [hi] at h1; simp at h1

/-- Chunks and trailers. -/
theorem chunks_raw {cfg : Cfg} (hsave : cfg.saveRaw = true) {s s' : S} {buf rest : Bytes} (hms : s.ms = .chunks)
    (h : Runs cfg s buf (.yes, s', rest)) :
    ∃ mid t x, buf = mid ++ t ++ rest ∧ s'.raw = s.raw ++ x ∧ SavedAs t rest x ∧
      Trailers (cfg.isRequest && s.msg.verMajor == 0) t rest ∧
      (Trailers (cfg.isRequest && s.msg.verMajor == 0) t [] → x = t) := by
  have hi := iter_chunks cfg s buf hms
  rw [parseChunks_eq] at hi
  have hph := run_phase cfg s.raw s.msg.verMajor (s.setL 0) buf ⟨rfl, rfl, .inl hms⟩
  have hsuf := run_suffix (cbyte cfg) (s.setL 0) buf
  cases hrun : run (cbyte cfg) (s.setL 0) buf with
  | mk rc q =>
    obtain ⟨x, r⟩ := q
    rw [hrun] at hi hph hsuf
    obtain ⟨hr1, hr2, hr3⟩ := hph
    obtain ⟨p, hp⟩ := hsuf
    dsimp only at hp hr1 hr2 hr3
    cases rc with
    | no =>
      simp only [count, postC, reduceCtorEq, false_and, if_false, if_true] at hi
      rcases runs_yes h with h1 | ⟨_, _, h1, _⟩ <;> rw [hi] at h1 <;> simp at h1
    | more =>
      have hrest : r = [] := by
        have := run_more_rest (cbyte cfg) (s.setL 0) buf (by rw [hrun])
        rw [hrun] at this; exact this
      subst hrest
      simp only [count, postC, reduceCtorEq, false_and, if_false] at hi
      rcases runs_yes h with h1 | ⟨_, _, h1, h2, _⟩
      · rw [hi] at h1; simp at h1
      · rw [hi] at h1; simp only [Prod.mk.injEq, true_and] at h1; exact absurd h1.2.symm h2
    | yes =>
      simp only [count, reduceCtorEq, if_false, if_true] at hi
      cases hh : cfg.handler with
      | true =>
        simp only [postC, hh, reduceCtorEq, and_false, if_false] at hi
        rcases runs_yes h with h1 | ⟨_, _, h1, _⟩
        · rw [hi] at h1; simp only [Prod.mk.injEq, true_and] at h1
          obtain ⟨rfl, rfl⟩ := h1
          exact ⟨p, [], [], by simpa using hp, by simpa [S.upd] using hr1, .inl rfl, .inl rfl, fun _ => rfl⟩
        · rw [hi] at h1; simp at h1
      | false =>
        simp only [postC, hh, and_self, if_true] at hi
        generalize hy : S.upd x _ _ _ = y at hi
        have y1 : (concatenateChunks y).ms = x.ms := by rw [← hy, concatenateChunks_ms]; rfl
        have y2 : (concatenateChunks y).hs = x.hs := by
          rw [← hy]; unfold concatenateChunks createBuffer; dsimp only; (repeat' split) <;> rfl
        have y3 : (concatenateChunks y).raw = s.raw := by rw [concatenateChunks_raw, ← hy]; exact hr1
        have y4 : (concatenateChunks y).msg.verMajor = s.msg.verMajor := by
          rw [← hr2, ← hy]; unfold concatenateChunks createBuffer; dsimp only; (repeat' split) <;> rfl
        rcases hr3 with hr3 | ⟨hr3, hr4⟩
        · rw [if_neg (by rw [y1, hr3]; simp)] at hi
          rcases runs_yes h with h1 | ⟨_, _, h1, _⟩
          · rw [hi] at h1; simp only [Prod.mk.injEq, true_and] at h1
            obtain ⟨rfl, rfl⟩ := h1
            exact ⟨p, [], [], by simpa using hp, by simpa using y3, .inl rfl, .inl rfl, fun _ => rfl⟩
          · rw [hi] at h1; simp at h1
        · rw [if_pos (by rw [y1, hr3])] at hi
          rcases runs_yes h with h1 | ⟨s1, r1, h1, _, h3⟩
          · rw [hi] at h1; simp at h1
          · rw [hi] at h1
            simp only [Prod.mk.injEq, true_and] at h1
            obtain ⟨rfl, rfl⟩ := h1
            obtain ⟨t, z, e, e1, e2, e3, e4⟩ := footers_raw hsave (y1.trans hr3) (y2.trans hr4) h3
            rw [y4] at e3 e4
            rw [y3] at e1
            exact ⟨p, t, z, by rw [hp, e, List.append_assoc], e1, e2, e3, e4⟩

/-- A body that is not chunked. -/
theorem content_raw {cfg : Cfg} {s : S} {buf : Bytes} {r : Tri × S × Bytes} (h : Runs cfg s buf r) :
    (s.ms = .content ∨ s.ms = .noLength ∨ s.ms = .end_) → r.2.1.raw = s.raw ∧ ∃ mid, buf = mid ++ r.2.2 := by
  have key : ∀ (s : S) (buf : Bytes), (s.ms = .content ∨ s.ms = .noLength ∨ s.ms = .end_) →
      (iter cfg s buf).2.1.raw = s.raw ∧ (∃ mid, buf = mid ++ (iter cfg s buf).2.2) ∧ 
      ((iter cfg s buf).1 = .more → (iter cfg s buf).2.2 = []) := by
    intro s buf hs
    rcases hs with hs | hs | hs
    · have hi : iter cfg s buf = consumeContent cfg s buf := by unfold iter; simp only [hs]
      rw [hi]
      refine ⟨consumeContent_raw cfg s buf, ?_, ?_⟩
      · unfold consumeContent
        split
        · exact ⟨[], rfl⟩
        · exact ⟨_, (List.take_append_drop _ buf).symm⟩
      · unfold consumeContent
        split
        · simp
        · split
          rename_i heq
          split at heq
          · simp only [Prod.mk.injEq] at heq; intro h; dsimp only at h; rw [← heq.1] at h; exact nomatch h
          · simp only [Prod.mk.injEq] at heq; intro _; rw [← heq.2]; simp
    · have hi : iter cfg s buf = (.more, (consumeAsNextChunk cfg s buf).1, (consumeAsNextChunk cfg s buf).2) := by
        unfold iter; simp only [hs]
      rw [hi]
      refine ⟨consumeAsNextChunk_raw cfg s buf, ⟨buf, ?_⟩, fun _ => consumeAsNextChunk_rest cfg s buf⟩
      simp [consumeAsNextChunk_rest]
    · have hi : iter cfg s buf = (.yes, s, buf) := by unfold iter; simp only [hs]
      rw [hi]
      exact ⟨rfl, ⟨[], rfl⟩, by simp⟩
  intro hs
  cases h with
  | stop => exact ⟨(key s buf hs).1, (key s buf hs).2.1⟩
  | next h1 h2 _ => exact absurd ((key s buf hs).2.2 h1) h2

theorem finishHeaders2_phase (cfg : Cfg) (s : S) (h : (finishHeaders2 cfg s).1 = .more) :
    (s.msg.isChunked = true ∧ (finishHeaders2 cfg s).2.ms = .chunks ∧ (finishHeaders2 cfg s).2.msg.verMajor = s.msg.verMajor) ∨
      ((finishHeaders2 cfg s).2.ms = .content ∨ (finishHeaders2 cfg s).2.ms = .noLength ∨ (finishHeaders2 cfg s).2.ms = .end_) := by
  unfold finishHeaders2 at h ⊢
  split
  · rename_i hc; exact .inl ⟨hc, rfl, rfl⟩
  rename_i hc
  rw [if_neg hc] at h
  right
  split
  · exact .inr (.inr rfl)
  rename_i h2
  rw [if_neg h2] at h
  split
  · rename_i h3
    rw [if_pos h3] at h
    split
    · rename_i hm; rw [hm] at h; exact nomatch h
    · split
      · exact .inr (.inr rfl)
      · dsimp only; split <;> exact .inl (by simp [createBuffer_ms])
  · split
    · exact .inr (.inl rfl)
    · exact .inr (.inr rfl)

/-- The head of the grammar that the machine has read, and what has been saved of it. -/
theorem head_raw {cfg : Cfg} (hsave : cfg.saveRaw = true) {m : Msg} {h : Head} {hs : Dict} {t rest : Bytes}
    (hm : MessageHead h hs t rest) (hk : cfg.isRequest = h.isRequest) :
    ∃ x, (iter cfg (fresh cfg m) (t ++ rest)).2.1.raw = x ∧ SavedAs t rest x ∧ (MessageHead h hs t [] ↔ x = t) := by
  obtain ⟨a, w, n, v, e⟩ := run_complete (s := start cfg m) hm hk rfl rfl
  generalize hs' : ({ stored (start cfg m) h with
      hs := a, raw := w, headerName := n, headerValue := v
      msg := { (stored (start cfg m) h).msg with headers := (start cfg m).msg.headers ++ hs } } : S) = s' at e
  have hraw : (iter cfg (fresh cfg m) (t ++ rest)).2.1.raw = s'.raw := by
    rw [iter_headers cfg _ _ (.inl rfl), parseHeaders_eq]
    have := run_count false e
    unfold start at this
    rw [this]
    generalize hy : S.upd s' _ _ _ = y
    have hy' : y.raw = s'.raw := by rw [← hy]; rfl
    unfold postH
    by_cases hc : (Tri.yes = Tri.yes ∧ y.ms = .headers)
    · rw [if_pos hc]; dsimp only; rw [finishHeaders_raw]; exact hy'
    · rw [if_neg hc]; exact hy'
  obtain ⟨t', e1, h1⟩ := run_saves hsave (t ++ rest) e
  have e1 := List.append_cancel_right e1
  subst e1
  refine ⟨s'.raw, hraw, ?_⟩
  rcases h1 with ⟨h1, h2⟩ | ⟨c, r, h1, h2, h3⟩
  · have h1 : s'.raw = t := h1
    refine ⟨.inl h1, fun _ => h1, fun _ => ?_⟩
    obtain ⟨hs2, u, g1, g2, g3⟩ := run_sound cfg m.headers t (start cfg m) [] s' [] (at_start cfg m) h2
    simp only [List.nil_append, List.append_nil] at g2
    subst g2
    have e4 : headOf cfg s' = h := by
      rw [← hs']
      unfold headOf
      cases h with
      | request => rw [show cfg.isRequest = true from hk]; rfl
      | response => rw [show cfg.isRequest = false from hk]; rfl
    have e5 : hs2 = hs := by
      rw [← hs'] at g1
      exact (List.append_cancel_left g1).symm
    rw [e4, e5] at g3
    exact g3
  · have h2 : s'.raw = t ++ [c] := h2
    refine ⟨.inr ⟨c, r, h1, h2⟩, fun hm' => ?_, fun hx => ?_⟩
    · obtain ⟨_, _, _, _, e'⟩ := run_complete (s := start cfg m) hm' hk rfl rfl
      rw [List.append_nil] at e'
      rw [e'] at h3
      exact nomatch h3
    · rw [h2] at hx; simp at hx

/-- What has been saved of a whole message. -/
theorem message_raw {cfg : Cfg} (hsave : cfg.saveRaw = true) {m : Msg} (hb : Blank m) {h : Head} {hs : Dict} {t tail : Bytes}
    (hm : MessageHead h hs t tail) (hk : cfg.isRequest = h.isRequest) {s' : S} {rest : Bytes}
    (hr : Runs cfg (fresh cfg m) (t ++ tail) (.yes, s', rest)) :
    ∃ body tr x y, tail = body ++ tr ++ rest ∧ s'.raw = x ++ y ∧ SavedAs t tail x ∧ (MessageHead h hs t [] ↔ x = t) ∧
      SavedAs tr rest y ∧ Trailers (old h) tr rest ∧ (Trailers (old h) tr [] → y = tr) ∧ (¬ AnnouncesChunks cfg.ord hs → tr = [] ∧ y = []) := by
  obtain ⟨x, h1, h2, h3⟩ := head_raw hsave (m := m) hm hk
  obtain ⟨s1, hd, hi⟩ := iter_messageHead m hm hk
  rw [hi] at h1
  dsimp only at h1
  rcases runs_yes hr with g | ⟨s2, r2, g, _, g3⟩
  · rw [hi] at g
    simp only [Prod.mk.injEq] at g
    obtain ⟨_, rfl, rfl⟩ := g
    exact ⟨[], [], x, [], by simp, by simp [h1], h2, h3, .inl rfl, .inl rfl, fun _ => rfl, fun _ => ⟨rfl, rfl⟩⟩
  · rw [hi] at g
    simp only [Prod.mk.injEq] at g
    obtain ⟨g1, rfl, rfl⟩ := g
    rcases finishHeaders2_phase cfg s1 g1 with ⟨hc, hms, hv⟩ | hms
    · obtain ⟨mid, tr, y, e1, e2, e3, e4, e5⟩ := chunks_raw hsave hms g3
      have ho : (cfg.isRequest && (finishHeaders2 cfg s1).2.msg.verMajor == 0) = old h := by
        rw [hv, hk]
        have := hd.stored
        cases h with
        | request => simp only [Head.isRequest, old, Bool.true_and]; rw [this.2.2.2.2.1]
        | response => rfl
      rw [ho] at e4 e5
      rw [h1] at e2
      exact ⟨mid, tr, x, y, e1, e2, h2, h3, e3, e4, e5, fun hn => absurd ((chunked_iff cfg hd hb).1 hc) hn⟩
    · obtain ⟨e2, mid, e1⟩ := content_raw g3 hms
      dsimp only at e1 e2
      rw [h1] at e2
      exact ⟨mid, [], x, [], by simpa using e1, by simp [e2], h2, h3, .inl rfl, .inl rfl, fun _ => rfl, fun _ => ⟨rfl, rfl⟩⟩

/-! ### Nothing is saved -/

theorem inv_unsaved {cfg : Cfg} (hsave : cfg.saveRaw = false) : Inv cfg (fun s => s.raw = []) where
  upd s l t c h := h
  ec s e h := h
  begin_ s h := h
  enter s hs h := h
  h s c h := by
    show (hstep cfg s c).st.raw = []
    rw [hstep_raw, hswitch_raw]
    simp [rawAdd, hsave, h]
  c s c h := by
    show (cbyte cfg s c).st.raw = []
    rw [← h]
    cases hc : s.cs <;> simp only [cbyte, cstep, hc]
    case chunk =>
      have : (chunkData cfg s c []).1.raw = s.raw := by
        unfold chunkData
        (repeat' split) <;> rfl
      generalize chunkData cfg s c [] = q at *
      split <;> exact this
    all_goals (repeat' split)
    all_goals rfl
  fh s h hs := (finishHeaders_raw cfg s).trans h
  cc s h := (concatenateChunks_raw s).trans h
  content s buf h hs := (consumeContent_raw cfg s buf).trans h
  noLength s buf h hs := (consumeAsNextChunk_raw cfg s buf).trans h
  fin s h := (parseEnd_raw cfg .yes s (finish cfg { s with ms := .end_ }).lastRead).trans h
  status s b h := h

end Verif.Http.Text
