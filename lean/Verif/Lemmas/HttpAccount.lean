import Verif.Lemmas.HttpInv
/-
The byte counters of the parser.
-/
namespace Verif.Http

/-- Both byte counters. -/
def counters (s : S) : Nat × Nat := (s.lastRead, s.totalRead)

theorem createBuffer_counters (s : S) : counters (createBuffer s) = counters s := by
  unfold createBuffer; split <;> rfl

theorem concatenateChunks_counters (s : S) : counters (concatenateChunks s) = counters s := by
  unfold concatenateChunks
  dsimp only
  have h := createBuffer_counters { s with msg := { s.msg with contentLength := s.msg.chunkCache.length } }
  generalize createBuffer { s with msg := { s.msg with contentLength := s.msg.chunkCache.length } } = t at *
  split <;> exact h

theorem finishHeaders_counters (cfg : Cfg) (s : S) : counters (finishHeaders cfg s).2 = counters s := by
  rw [finishHeaders_eq]
  have : counters (finishHeaders1 cfg s) = counters s := by
    unfold finishHeaders1 updateMessage; cases cfg.isRequest <;> rfl
  rw [← this]
  generalize finishHeaders1 cfg s = t
  unfold finishHeaders2
  split
  · rfl
  split
  · rfl
  split
  · cases hm : t.msg.updateContentLength cfg.ord with
    | none => rfl
    | some m =>
      simp only
      split
      · rfl
      split
      · rfl
      · rw [createBuffer_counters]; rfl
  split <;> rfl

theorem updateMessage_counters (cfg : Cfg) (s : S) : counters (updateMessage cfg s) = counters s := by
  unfold updateMessage; cases cfg.isRequest <;> rfl

theorem createBuffer_remaining (s : S) : (createBuffer s).remaining = s.remaining := by
  unfold createBuffer; split <;> rfl

theorem finishForm_counters (cfg : Cfg) (s : S) : counters (finishForm cfg s) = counters s := by
  unfold finishForm
  dsimp only
  repeat' split
  all_goals rfl

theorem finishForm_ms (cfg : Cfg) (s : S) : (finishForm cfg s).ms = s.ms := by
  unfold finishForm
  dsimp only
  repeat' split
  all_goals rfl

theorem finish_counters (cfg : Cfg) (s : S) : counters (finish cfg s) = counters s := by
  have ht : ∀ t, counters (finish.tail cfg t) = counters t := fun t => by
    unfold finish.tail; rw [finishForm_counters]; rfl
  unfold finish
  cases h : s.ms with
  | start => dsimp only; rw [createBuffer_counters]; rfl
  | end_ => dsimp only; rw [ht]; rfl
  | headers | footers =>
    dsimp only; rw [ht, createBuffer_counters]
    exact Eq.trans (congrArg₂ Prod.mk rfl rfl) (updateMessage_counters cfg { s with ms := _, msg := { s.msg with isValid := false } })
  | content => dsimp only; rw [ht]; split <;> rfl
  | chunks | noLength =>
    dsimp only; rw [ht]; split
    · rfl
    · rw [concatenateChunks_counters]; rfl

theorem parseEnd_total (cfg : Cfg) (rc : Tri) (s : S) (n : Nat) :
    (parseEnd cfg rc s n).totalRead = s.totalRead ∧ (parseEnd cfg rc s n).lastRead = n := by
  unfold parseEnd
  refine ⟨?_, rfl⟩
  cases rc
  · exact congrArg Prod.snd (finish_counters cfg { s with ms := .end_ })
  · rfl
  · rfl

/-- A state waiting for content expects at least one byte of it. -/
def Waiting (s : S) : Prop := s.ms = .content → 0 < s.remaining

/-- What `iter` does to the counters: `n` bytes are counted; unless it fails these are the bytes it takes. -/
def Accounts (s : S) (buf : Bytes) (r : Tri × S × Bytes) : Prop :=
  ∃ taken, buf = taken ++ r.2.2 ∧
    (s.ms ≠ .end_ → r.2.1.totalRead = s.totalRead + r.2.1.lastRead ∧ r.2.1.lastRead ≤ taken.length ∧
      (r.1 ≠ .no → r.2.1.lastRead = taken.length)) ∧
    (s.ms = .end_ → r.2.1.totalRead = s.totalRead ∧ taken = [])

theorem accounts_count (step : S → UInt8 → HRes)
    (hu : ∀ s x l t c, step (s.upd l t c) x = (step s x).map (·.upd l t c))
    (s : S) (buf : Bytes) (content : Bool) :
    ∃ taken, buf = taken ++ (count content buf (run step (s.setL 0) buf)).2.2 ∧
      (count content buf (run step (s.setL 0) buf)).2.1.totalRead =
        s.totalRead + (count content buf (run step (s.setL 0) buf)).2.1.lastRead ∧
      (count content buf (run step (s.setL 0) buf)).2.1.lastRead ≤ taken.length ∧
      ((count content buf (run step (s.setL 0) buf)).1 ≠ .no →
        (count content buf (run step (s.setL 0) buf)).2.1.lastRead = taken.length) := by
  obtain ⟨pre, hpre⟩ := run_suffix step (s.setL 0) buf
  have h1 := run_upd step 0 s.totalRead s.contentRead (fun s x => hu s x _ _ _) (s.setL 0) buf
  have e : (s.setL 0).upd 0 s.totalRead s.contentRead = s.setL 0 := rfl
  rw [e] at h1
  have ht : (run step (s.setL 0) buf).2.1.totalRead = s.totalRead := by
    conv_lhs => rw [h1]
    rfl
  have hl : (run step (s.setL 0) buf).2.1.lastRead = 0 := by
    conv_lhs => rw [h1]
    rfl
  generalize run step (s.setL 0) buf = r at *
  obtain ⟨rc, s', rest⟩ := r
  refine ⟨pre, ?_⟩
  unfold count
  dsimp only at *
  subst hpre
  split
  · rename_i hn
    dsimp only
    exact ⟨rfl, by rw [ht, hl]; rfl, by rw [hl]; exact Nat.zero_le _, fun h => absurd hn h⟩
  · refine ⟨rfl, ?_, ?_, fun _ => ?_⟩ <;> simp [S.upd, ht]

theorem accounts_post {s : S} {buf : Bytes} {r r' : Tri × S × Bytes} (hs : s.ms ≠ .end_)
    (h : ∃ taken, buf = taken ++ r.2.2 ∧ r.2.1.totalRead = s.totalRead + r.2.1.lastRead ∧
      r.2.1.lastRead ≤ taken.length ∧ (r.1 ≠ .no → r.2.1.lastRead = taken.length))
    (h1 : r'.2.2 = r.2.2) (h2 : counters r'.2.1 = counters r.2.1) (h3 : r.1 = .no → r'.1 = .no) : Accounts s buf r' := by
  obtain ⟨taken, a, b, c, d⟩ := h
  have e1 : r'.2.1.lastRead = r.2.1.lastRead := congrArg Prod.fst h2
  have e2 : r'.2.1.totalRead = r.2.1.totalRead := congrArg Prod.snd h2
  refine ⟨taken, by rw [h1]; exact a, fun _ => ⟨by rw [e1, e2]; exact b, by rw [e1]; exact c, ?_⟩, fun h => absurd h hs⟩
  intro hn
  rw [e1]
  exact d (fun h => hn (h3 h))

theorem iter_accounts (cfg : Cfg) (s : S) (buf : Bytes) (hw : Waiting s) : Accounts s buf (iter cfg s buf) := by
  by_cases hh : s.ms = .start ∨ s.ms = .headers ∨ s.ms = .footers
  · rw [iter_headers cfg s buf hh, parseHeaders_eq]
    have h := accounts_count (hstep cfg) (fun s x l t c => hstep_upd cfg s l t c x) (enterH s) buf false
    have ht : (enterH s).totalRead = s.totalRead := by unfold enterH; split <;> rfl
    rw [ht] at h
    generalize count false buf (run (hstep cfg) ((enterH s).setL 0) buf) = r at *
    refine accounts_post (by rcases hh with h | h | h <;> simp [h]) h ?_ ?_ ?_
    · unfold postH; split <;> rfl
    · unfold postH; split
      · exact finishHeaders_counters cfg _
      · rfl
    · intro hn; unfold postH; simp [hn]
  · cases hs : s.ms with
    | start | headers | footers => simp [hs] at hh
    | chunks =>
      rw [iter_chunks cfg s buf hs, parseChunks_eq]
      have h := accounts_count (cbyte cfg) (fun s x l t c => cbyte_upd cfg s l t c x) s buf true
      generalize count true buf (run (cbyte cfg) (s.setL 0) buf) = r at *
      refine accounts_post (by simp [hs]) h ?_ ?_ ?_
      · unfold postC; split <;> rfl
      · unfold postC; split
        · exact concatenateChunks_counters _
        · rfl
      · intro hn; unfold postC; simp [hn]
    | content =>
      unfold Http.iter
      simp only [hs]
      have hr := hw hs
      rw [consumeContent_eq, if_neg (by omega)]
      dsimp only
      generalize hn : min s.remaining buf.length = n
      refine ⟨buf.take n, (List.take_append_drop n buf).symm, fun _ => ⟨?_, ?_, fun _ => ?_⟩, fun h => by simp [hs] at h⟩
      · have := (store_contentRead cfg { s with remaining := s.remaining - n } (buf.take n)).2.1
        simp [S.upd, this]
      · simp [S.upd]; omega
      · simp [S.upd]; omega
    | noLength =>
      unfold Http.iter consumeAsNextChunk
      simp only [hs]
      by_cases hb : buf.isEmpty
      · rw [if_pos hb]
        have : buf = [] := by simpa using hb
        subst this
        exact ⟨[], rfl, fun _ => ⟨rfl, Nat.le_refl _, fun _ => rfl⟩, fun h => by simp [hs] at h⟩
      · rw [if_neg hb]
        refine ⟨buf, by simp, fun _ => ⟨?_, Nat.le_refl _, fun _ => rfl⟩, fun h => by simp [hs] at h⟩
        dsimp only
        split <;> rfl
    | end_ =>
      unfold Http.iter; simp only [hs]
      exact ⟨[], rfl, fun h => absurd hs h, fun _ => ⟨rfl, rfl⟩⟩

theorem finishHeaders_waiting (cfg : Cfg) (s : S) (h : s.ms = .headers) : Waiting (finishHeaders cfg s).2 := by
  rw [finishHeaders_eq]
  have : (finishHeaders1 cfg s).ms = .headers := by
    rw [← h]; unfold finishHeaders1 updateMessage; cases cfg.isRequest <;> rfl
  generalize finishHeaders1 cfg s = t at *
  unfold finishHeaders2 Waiting
  split
  · simp
  split
  · simp
  split
  · cases hm : t.msg.updateContentLength cfg.ord with
    | none => simp [this]
    | some m =>
      simp only
      split
      · simp
      split
      · simp; omega
      · intro _; rw [createBuffer_remaining]; dsimp only; omega
  split <;> simp

theorem iter_waiting (cfg : Cfg) (s : S) (buf : Bytes) (hw : Waiting s) (h : (iter cfg s buf).1 ≠ .yes) :
    Waiting (iter cfg s buf).2.1 := by
  by_cases hh : s.ms = .start ∨ s.ms = .headers ∨ s.ms = .footers
  · rw [iter_headers cfg s buf hh]
    have := parseHeaders_ms cfg (enterH s) buf
    have he : (enterH s).ms = .headers ∨ (enterH s).ms = .footers := enterH_ms s hh
    generalize parseHeaders cfg (enterH s) buf = r at *
    unfold postH
    split
    · rename_i hy; exact finishHeaders_waiting cfg _ hy.2
    · intro hc; rw [this] at hc; rcases he with he | he <;> simp [he] at hc
  · cases hs : s.ms with
    | start | headers | footers => simp [hs] at hh
    | chunks =>
      rw [iter_chunks cfg s buf hs]
      have h1 : (parseChunks cfg s buf).2.1.ms = .chunks ∨ (parseChunks cfg s buf).2.1.ms = .footers := by
        rw [parseChunks_eq, count_ms]
        refine run_inv (cbyte cfg) (fun s => s.ms = .chunks ∨ s.ms = .footers) ?_ ?_ ?_ _ _ (.inl hs)
        · intro s c s' h e; rw [cbyte_ms cfg s c s' e]; exact h
        · intro s c s' b h e
          revert e
          unfold cbyte cstep
          cases s.cs <;> simp only <;> repeat' split
          all_goals first | (intro e; cases e; done) | (intro e; cases e; first | exact h | exact .inr rfl)
        · intro s c s' er h e
          revert e
          unfold cbyte cstep
          cases s.cs <;> simp only <;> repeat' split
          all_goals first | (intro e; cases e; done) | (intro e; cases e; exact h)
      generalize parseChunks cfg s buf = r at *
      unfold postC Waiting
      split
      · intro hc
        rw [concatenateChunks_ms] at hc
        rcases h1 with h1 | h1 <;> simp [h1] at hc
      · intro hc; rcases h1 with h1 | h1 <;> simp [h1] at hc
    | content =>
      unfold Http.iter at h ⊢
      simp only [hs] at h ⊢
      have hr := hw hs
      rw [consumeContent_eq, if_neg (by omega)] at h ⊢
      dsimp only at h ⊢
      intro _
      simp only [S.upd]
      rw [(store_contentRead _ _ _).2.2.1]
      dsimp only
      split at h
      · simp at h
      · omega
    | noLength =>
      unfold Http.iter consumeAsNextChunk
      simp only [hs]
      intro hc
      exfalso
      revert hc
      repeat' split
      all_goals simp
    | end_ => unfold Http.iter; simp only [hs]; exact hw

theorem parseLoop_accounts (cfg : Cfg) (fuel : Nat) : ∀ (s : S) (buf : Bytes) (total : Nat) (rc : Tri) (s' : S) (rest : Bytes)
    (total' : Nat), Waiting s → parseLoop cfg fuel s buf total = some (rc, s', rest, total') →
    (rc ≠ .yes → Waiting s') ∧ ∃ taken n, buf = taken ++ rest ∧ total' = total + n ∧ s'.totalRead = s.totalRead + n ∧
      n ≤ taken.length ∧ (rc ≠ .no → n = taken.length) := by
  induction fuel with
  | zero => intro s buf total rc s' rest total' _ h; simp [parseLoop] at h
  | succ fuel ih =>
    intro s buf total rc s' rest total' hw h
    have ha := iter_accounts cfg s buf hw
    have hb := iter_waiting cfg s buf hw
    simp only [parseLoop] at h
    generalize iter cfg s buf = r at *
    obtain ⟨rc1, s1, rest1⟩ := r
    obtain ⟨taken1, e1, a1, a2⟩ := ha
    dsimp only at *
    -- the bytes counted by this pass
    obtain ⟨n1, hn1, ht1, hl1, hq1⟩ : ∃ n1, (if s.ms = .end_ then total else total + s1.lastRead) = total + n1 ∧
        s1.totalRead = s.totalRead + n1 ∧ n1 ≤ taken1.length ∧ (rc1 ≠ .no → n1 = taken1.length) := by
      by_cases he : s.ms = .end_
      · obtain ⟨x, y⟩ := a2 he
        exact ⟨0, by simp [he], by omega, by omega, fun _ => by rw [y]; rfl⟩
      · obtain ⟨x, y, z⟩ := a1 he
        exact ⟨s1.lastRead, by simp [he], x, y, z⟩
    rw [hn1] at h
    split at h
    · rename_i hm
      obtain ⟨g1, taken2, n2, b1, b2, b3, b4, b5⟩ := ih s1 rest1 _ rc s' rest total' (hb (by rw [hm.1]; simp)) h
      refine ⟨g1, taken1 ++ taken2, n1 + n2, by rw [e1, b1, List.append_assoc], by omega, by omega, ?_, ?_⟩
      · rw [List.length_append]; omega
      · intro hq
        rw [List.length_append, b5 hq, hq1 (by rw [hm.1]; simp)]
    · simp only [Option.some.injEq, Prod.mk.injEq] at h
      obtain ⟨rfl, rfl, rfl, rfl⟩ := h
      exact ⟨hb, taken1, n1, e1, rfl, ht1, hl1, hq1⟩

theorem parse_accounts (cfg : Cfg) {s : S} {buf : Bytes} {rc : Tri} {s' : S} {rest : Bytes} (hw : Waiting s)
    (h : parse cfg s buf = some (rc, s', rest)) :
    Waiting s' ∧ ∃ taken, buf = taken ++ rest ∧ s'.totalRead = s.totalRead + s'.lastRead ∧
      s'.lastRead ≤ taken.length ∧ (rc ≠ .no → s'.lastRead = taken.length) := by
  have hb : Waiting (parseBegin s) ∧ (parseBegin s).totalRead = s.totalRead := by
    unfold parseBegin; split
    · exact ⟨hw, rfl⟩
    · exact ⟨hw, rfl⟩
  simp only [parse, Option.map_eq_some_iff] at h
  obtain ⟨⟨rc1, s1, rest1, total⟩, hp, he⟩ := h
  simp only [Prod.mk.injEq] at he
  obtain ⟨rfl, rfl, rfl⟩ := he
  obtain ⟨g, taken, n, h1, h2, h3, h4, h5⟩ := parseLoop_accounts cfg 4 _ _ _ _ _ _ _ hb.1 hp
  obtain ⟨e1, e2⟩ := parseEnd_total cfg rc1 s1 total
  constructor
  · cases rc1 with
    | no => exact g (by simp)
    | more => exact g (by simp)
    | yes =>
      intro hc
      exfalso
      have : (parseEnd cfg .yes s1 total).ms = .end_ := by
        unfold parseEnd
        show (finish cfg { s1 with ms := .end_ }).ms = .end_
        rw [finish_end]
        exact finishForm_ms cfg _
      rw [this] at hc; simp at hc
  · refine ⟨taken, h1, ?_, ?_, ?_⟩
    · rw [e1, e2, h3, hb.2]; omega
    · rw [e2]; omega
    · intro hq; rw [e2, h2, ← h5 hq]; omega

end Verif.Http
