import Verif.Lemmas.HttpIter
/-
The main loop of `parse`: it ends, and it satisfies the append law.
-/
namespace Verif.Http

/-- The main loop as a relation: no fuel, no `total_bytes_parsed`. -/
inductive Runs (cfg : Cfg) : S → Bytes → Tri × S × Bytes → Prop
  | stop {s buf} : ¬ ((iter cfg s buf).1 = .more ∧ (iter cfg s buf).2.2 ≠ []) → Runs cfg s buf (iter cfg s buf)
  | next {s buf r} : (iter cfg s buf).1 = .more → (iter cfg s buf).2.2 ≠ [] →
      Runs cfg (iter cfg s buf).2.1 (iter cfg s buf).2.2 r → Runs cfg s buf r

/-- Phases only move forward. -/
def rank : MState → Nat
  | .start | .headers => 3
  | .chunks => 2
  | _ => 1

/-! ### The loop ends -/

theorem finishHeaders_more_ms (cfg : Cfg) (s : S) (h : (finishHeaders cfg s).1 = .more) :
    (finishHeaders cfg s).2.ms = .chunks ∨ (finishHeaders cfg s).2.ms = .content
      ∨ (finishHeaders cfg s).2.ms = .noLength := by
  rw [finishHeaders_eq] at h ⊢
  generalize finishHeaders1 cfg s = t at *
  have hcb : ∀ x : S, (createBuffer x).ms = x.ms := by intro x; unfold createBuffer; split <;> rfl
  unfold finishHeaders2 at h ⊢
  split at h
  · rename_i hc; simp [hc]
  rename_i hc
  split at h
  · simp at h
  rename_i hi
  split at h
  · rename_i hh
    revert h
    simp only [hc, hi, hh, if_true, Bool.false_eq_true, if_false]
    cases t.msg.updateContentLength cfg.ord with
    | none => simp
    | some m =>
      simp only
      split
      · simp
      split
      · simp
      · simp [hcb]
  rename_i hh
  split at h
  · rename_i hq; simp [hc, hi, hh, hq]
  · simp at h

theorem count_more_rest (content : Bool) (step : S → UInt8 → HRes) (s : S) (buf : Bytes)
    (h : (count content buf (run step s buf)).1 = .more) : (count content buf (run step s buf)).2.2 = [] := by
  rw [count_fst] at h
  rw [count_rest]
  exact run_more_rest _ _ _ h

theorem createBuffer_ms (x : S) : (createBuffer x).ms = x.ms := by unfold createBuffer; split <;> rfl

theorem concatenateChunks_ms (x : S) : (concatenateChunks x).ms = x.ms := by
  have h := createBuffer_ms { x with msg := { x.msg with contentLength := x.msg.chunkCache.length } }
  unfold concatenateChunks
  simp only
  split
  · exact h
  · exact h

theorem iter_rank (cfg : Cfg) (s : S) (buf : Bytes) (h : (iter cfg s buf).1 = .more)
    (hr : (iter cfg s buf).2.2 ≠ []) : rank (iter cfg s buf).2.1.ms < rank s.ms := by
  by_cases hh : s.ms = .start ∨ s.ms = .headers ∨ s.ms = .footers
  · rw [iter_headers cfg s buf hh] at h hr ⊢
    have hms := parseHeaders_ms cfg (enterH s) buf
    have hrest : (parseHeaders cfg (enterH s) buf).1 = .more → (parseHeaders cfg (enterH s) buf).2.2 = [] := by
      rw [parseHeaders_eq]; exact count_more_rest _ _ _ _
    generalize parseHeaders cfg (enterH s) buf = r at *
    unfold postH at h hr ⊢
    by_cases hy : r.1 = .yes ∧ r.2.1.ms = .headers
    · simp only [hy, and_self, if_true] at h ⊢
      have hs3 : rank s.ms = 3 := by
        have := hy.2
        rw [hms] at this
        unfold enterH at this
        rcases hh with e | e | e <;> simp [e, rank] at this ⊢
      rw [hs3]
      rcases finishHeaders_more_ms cfg _ h with e | e | e <;> rw [e] <;> simp [rank]
    · rw [if_neg hy] at h hr
      exact absurd (hrest h) hr
  · cases hs : s.ms with
    | start | headers | footers => simp [hs] at hh
    | chunks =>
      rw [iter_chunks cfg s buf hs] at h hr ⊢
      have hrest : (parseChunks cfg s buf).1 = .more → (parseChunks cfg s buf).2.2 = [] := by
        rw [parseChunks_eq]; exact count_more_rest _ _ _ _
      generalize parseChunks cfg s buf = r at *
      unfold postC at h hr ⊢
      by_cases hy : r.1 = .yes ∧ cfg.handler = false
      · rw [if_pos hy] at h ⊢
        simp only at h ⊢
        split at h
        · rename_i hf; rw [hf]; simp [rank]
        · simp at h
      · rw [if_neg hy] at h hr
        exact absurd (hrest h) hr
    | content =>
      exfalso
      revert h hr
      unfold iter; simp only [hs]
      rw [consumeContent_eq]
      split
      · simp
      · simp only
        split
        · simp
        · rename_i hlt
          have : min s.remaining buf.length = buf.length := by omega
          simp [this]
    | noLength =>
      exfalso
      revert hr
      unfold iter consumeAsNextChunk; simp only [hs]
      cases buf <;> simp
    | end_ => revert h; unfold iter; simp [hs]

theorem runs_exists (cfg : Cfg) (n : Nat) : ∀ (s : S) (buf : Bytes), rank s.ms ≤ n → ∃ r, Runs cfg s buf r := by
  induction n with
  | zero => intro s _ h; cases hs : s.ms <;> rw [hs] at h <;> simp [rank] at h
  | succ n ih =>
    intro s buf h
    by_cases hc : (iter cfg s buf).1 = .more ∧ (iter cfg s buf).2.2 ≠ []
    · obtain ⟨r, hr⟩ := ih (iter cfg s buf).2.1 (iter cfg s buf).2.2
        (by have := iter_rank cfg s buf hc.1 hc.2; omega)
      exact ⟨r, .next hc.1 hc.2 hr⟩
    · exact ⟨_, .stop hc⟩

/-- The fuelled loop computes the relation, whatever the starting total. -/
theorem parseLoop_of_runs (cfg : Cfg) : ∀ {s buf r}, Runs cfg s buf r → ∀ fuel total, rank s.ms ≤ fuel →
    ∃ total', parseLoop cfg fuel s buf total = some (r.1, r.2.1, r.2.2, total') := by
  intro s buf r h
  induction h with
  | @stop s buf hs =>
    intro fuel total hf
    obtain ⟨f, rfl⟩ : ∃ f, fuel = f + 1 := ⟨fuel - 1, by cases hx : s.ms <;> rw [hx] at hf <;> simp [rank] at hf <;> omega⟩
    unfold parseLoop
    simp only
    rw [if_neg hs]
    exact ⟨_, rfl⟩
  | @next s buf r h1 h2 hr ih =>
    intro fuel total hf
    have hk := iter_rank cfg s buf h1 h2
    obtain ⟨f, rfl⟩ : ∃ f, fuel = f + 1 := ⟨fuel - 1, by omega⟩
    unfold parseLoop
    simp only
    rw [if_pos ⟨h1, h2⟩]
    exact ih f _ (by omega)

theorem rank_le (m : MState) : rank m ≤ 3 := by cases m <;> simp [rank]

/-- `parse` always returns. -/
theorem parse_of_runs (cfg : Cfg) {s : S} {buf : Bytes} {r : Tri × S × Bytes} (h : Runs cfg (parseBegin s) buf r) :
    ∃ total, parse cfg s buf = some (r.1, parseEnd cfg r.1 r.2.1 total, r.2.2) := by
  obtain ⟨t, ht⟩ := parseLoop_of_runs cfg h 4 0 (by have := rank_le (parseBegin s).ms; omega)
  exact ⟨t, by simp [parse, ht]⟩

theorem parse_runs (cfg : Cfg) (s : S) (buf : Bytes) :
    ∃ r total, Runs cfg (parseBegin s) buf r ∧ parse cfg s buf = some (r.1, parseEnd cfg r.1 r.2.1 total, r.2.2) := by
  obtain ⟨r, hr⟩ := runs_exists cfg 3 (parseBegin s) buf (rank_le _)
  obtain ⟨t, ht⟩ := parse_of_runs cfg hr
  exact ⟨r, t, hr, ht⟩

/-! ### `lastRead` does not matter -/

/-- The result without `lastRead`. -/
def obs0 (r : Tri × S × Bytes) : Tri × S × Bytes := (r.1, r.2.1.setL 0, r.2.2)

theorem obs_of_obs0 {r r' : Tri × S × Bytes} (h : obs0 r = obs0 r') : obs r = obs r' := by
  obtain ⟨rc, s, rest⟩ := r
  obtain ⟨rc', s', rest'⟩ := r'
  simp only [obs0, Prod.mk.injEq] at h
  obtain ⟨h1, h2, h3⟩ := h
  subst h1 h3
  rw [eq_setL h2]
  simp only [obs, setL_setL]
  rfl

theorem obs0_of_obs {r r' : Tri × S × Bytes} (h : obs r = obs r') (hn : r.1 ≠ .no) : obs0 r = obs0 r' := by
  obtain ⟨rc, s, rest⟩ := r
  obtain ⟨rc', s', rest'⟩ := r'
  have h1 : rc = rc' := congrArg Prod.fst h
  subst h1
  simp only at hn
  simpa [obs, obs0, hn] using h

theorem iter_setL (cfg : Cfg) (s : S) (k : Nat) (buf : Bytes) :
    obs0 (iter cfg (s.setL k) buf) = obs0 (iter cfg s buf) := by
  by_cases hh : s.ms = .start ∨ s.ms = .headers ∨ s.ms = .footers
  · have e : ∀ x : S, parseHeaders cfg (x.setL k) buf = parseHeaders cfg x buf := fun x => by
      rw [parseHeaders_eq, parseHeaders_eq]; rfl
    have e2 : enterH (s.setL k) = (enterH s).setL k := by
      unfold enterH; rw [show (s.setL k).ms = s.ms from rfl]; split <;> rfl
    rw [iter_headers cfg s buf hh, iter_headers cfg (s.setL k) buf hh, e2, e]
  · cases hs : s.ms with
    | start | headers | footers => simp [hs] at hh
    | chunks =>
      rw [iter_chunks cfg s buf hs, iter_chunks cfg (s.setL k) buf hs, parseChunks_eq, parseChunks_eq]; rfl
    | content =>
      unfold iter
      rw [show (s.setL k).ms = s.ms from rfl]
      simp only [hs]
      rw [consumeContent_eq, consumeContent_eq]
      rw [show (s.setL k).remaining = s.remaining from rfl]
      split
      · rfl
      · simp only
        have e : store cfg { s.setL k with remaining := s.remaining - min s.remaining buf.length }
            (buf.take (min s.remaining buf.length)) =
          (store cfg { s with remaining := s.remaining - min s.remaining buf.length }
            (buf.take (min s.remaining buf.length))).setL k :=
          store_setL cfg { s with remaining := s.remaining - min s.remaining buf.length } k _
        rw [e]
        rfl
    | noLength =>
      unfold iter consumeAsNextChunk
      rw [show (s.setL k).ms = s.ms from rfl]
      simp only [hs]
      cases buf <;> cases cfg.handler <;> rfl
    | end_ => 
      unfold iter
      rw [show (s.setL k).ms = s.ms from rfl]
      simp only [hs]; rfl

theorem runs_setL (cfg : Cfg) {s buf r} (h : Runs cfg s buf r) : ∀ s', s'.setL 0 = s.setL 0 →
    ∃ r', Runs cfg s' buf r' ∧ obs0 r' = obs0 r := by
  induction h with
  | @stop s buf hs =>
    intro s' h'
    have e : obs0 (iter cfg s' buf) = obs0 (iter cfg s buf) := by rw [eq_setL h']; exact iter_setL _ _ _ _
    have e1 : (iter cfg s' buf).1 = (iter cfg s buf).1 := by have := congrArg Prod.fst e; exact this
    have e2 : (iter cfg s' buf).2.2 = (iter cfg s buf).2.2 := congrArg (·.2.2) e
    exact ⟨_, .stop (by rw [e1, e2]; exact hs), e⟩
  | @next s buf r h1 h2 hr ih =>
    intro s' h'
    have e : obs0 (iter cfg s' buf) = obs0 (iter cfg s buf) := by rw [eq_setL h']; exact iter_setL _ _ _ _
    have e1 : (iter cfg s' buf).1 = (iter cfg s buf).1 := by have := congrArg Prod.fst e; exact this
    have e2 : (iter cfg s' buf).2.2 = (iter cfg s buf).2.2 := congrArg (·.2.2) e
    have e3 : (iter cfg s' buf).2.1.setL 0 = (iter cfg s buf).2.1.setL 0 := congrArg (·.2.1) e
    obtain ⟨r', hr', ho⟩ := ih _ e3
    exact ⟨r', .next (by rw [e1]; exact h1) (by rw [e2]; exact h2) (by rw [e2]; exact hr'), ho⟩

/-- Two first passes with the same observable result lead to the same observable end. -/
theorem runs_of_iter_obs (cfg : Cfg) {s s1 : S} {x b : Bytes} (h : obs (iter cfg s x) = obs (iter cfg s1 b))
    {r1} (hr1 : Runs cfg s1 b r1) : ∃ r, Runs cfg s x r ∧ obs r = obs r1 := by
  have e1 : (iter cfg s x).1 = (iter cfg s1 b).1 := by have := congrArg Prod.fst h; exact this
  have e2 : (iter cfg s x).2.2 = (iter cfg s1 b).2.2 := congrArg (·.2.2) h
  cases hr1 with
  | stop hs => exact ⟨_, .stop (by rw [e1, e2]; exact hs), h⟩
  | next h1 h2 hr =>
    have e0 := obs0_of_obs h (by rw [e1, h1]; simp)
    have e3 : (iter cfg s x).2.1.setL 0 = (iter cfg s1 b).2.1.setL 0 := congrArg (·.2.1) e0
    obtain ⟨r', hr', ho⟩ := runs_setL cfg hr _ e3
    exact ⟨r', .next (by rw [e1]; exact h1) (by rw [e2]; exact h2) (by rw [e2]; exact hr'), obs_of_obs0 ho⟩

/-- Append law of the main loop. -/
theorem runs_append (cfg : Cfg) {s a r} (h : Runs cfg s a r) : ∀ b, a ≠ [] → b ≠ [] →
    (r.1 = .more → ∀ r1, Runs cfg r.2.1 b r1 → ∃ r', Runs cfg s (a ++ b) r' ∧ obs r' = obs r1) ∧
    (r.1 ≠ .more → Runs cfg s (a ++ b) (r.1, r.2.1, r.2.2 ++ b)) := by
  induction h with
  | @stop s a hs =>
    intro b ha hb
    rcases iter_append cfg s a b ha hb with ⟨s1, h1, h2⟩ | h1
    · constructor
      · intro hm r1 hr1
        rw [h1] at hr1
        exact runs_of_iter_obs cfg h2 hr1
      · intro hm; rw [h1] at hm; exact absurd rfl hm
    · constructor
      · intro hm r1 hr1
        have hrest : (iter cfg s a).2.2 = [] := by
          by_contra hne; exact hs ⟨hm, hne⟩
        rw [hrest, hm] at h1
        refine ⟨r1, ?_, rfl⟩
        refine .next (by rw [h1]) (by rw [h1]; simpa using hb) ?_
        rw [h1]; simpa using hr1
      · intro hm
        rw [← h1]
        refine .stop ?_
        rw [h1]; exact fun hc => hm hc.1
  | @next s a r h1 h2 hr ih =>
    intro b ha hb
    rcases iter_append cfg s a b ha hb with ⟨s1, e1, e2⟩ | e1
    · rw [e1] at h2; exact absurd rfl h2
    · have hne : (iter cfg s a).2.2 ++ b ≠ [] := by simp [hb]
      obtain ⟨i1, i2⟩ := ih b h2 hb
      constructor
      · intro hm r1 hr1
        obtain ⟨r', hr', ho⟩ := i1 hm r1 hr1
        refine ⟨r', .next (by rw [e1]; exact h1) (by rw [e1]; exact hne) (by rw [e1]; exact hr'), ho⟩
      · intro hm
        exact .next (by rw [e1]; exact h1) (by rw [e1]; exact hne) (by rw [e1]; exact i2 hm)

/-! ### The missing-data flags are not touched by parsing -/

/-- The two flags of a message, and its status. -/
def flags (s : S) : Bool × Bool × DataStatus := (s.msg.missing, s.msg.afterMissing, s.msg.status)

theorem hswitch_flags (cfg : Cfg) (s : S) (c : UInt8) :
    (∀ s', hswitch cfg s c = .more s' → flags s' = flags s) ∧ (∀ s' f, hswitch cfg s c = .done s' f → flags s' = flags s)
    ∧ (∀ s' e, hswitch cfg s c = .fail s' e → flags s' = flags s) := by
  cases h : s.hs <;> simp only [hswitch, h]
  all_goals (repeat' split)
  all_goals simp only [HRes.more.injEq, HRes.done.injEq, HRes.fail.injEq, reduceCtorEq, false_implies,
    implies_true, and_true, true_and, and_imp]
  all_goals (intros; subst_vars; rfl)

theorem hstep_flags (cfg : Cfg) (s : S) (c : UInt8) :
    (∀ s', hstep cfg s c = .more s' → flags s' = flags s) ∧ (∀ s' f, hstep cfg s c = .done s' f → flags s' = flags s)
    ∧ (∀ s' e, hstep cfg s c = .fail s' e → flags s' = flags s) := by
  unfold hstep
  cases cfg.saveRaw
  · exact hswitch_flags cfg s c
  · exact hswitch_flags cfg { s with raw := s.raw ++ [c] } c

theorem cbyte_flags (cfg : Cfg) (s : S) (c : UInt8) :
    (∀ s', cbyte cfg s c = .more s' → flags s' = flags s) ∧ (∀ s' f, cbyte cfg s c = .done s' f → flags s' = flags s)
    ∧ (∀ s' e, cbyte cfg s c = .fail s' e → flags s' = flags s) := by
  cases hc : s.cs <;> simp only [cbyte, cstep, hc]
  case chunk =>
    have : flags (chunkData cfg s c []).1 = flags s := by unfold chunkData; (repeat' split) <;> rfl
    split <;> (simp only [CRes.toH, HRes.more.injEq, reduceCtorEq, false_implies, implies_true, and_true];
               intro s' h; subst h; exact this)
  all_goals (repeat' split)
  all_goals simp only [CRes.toH, HRes.more.injEq, HRes.done.injEq, HRes.fail.injEq, reduceCtorEq, false_implies,
    implies_true, and_true, true_and, and_imp]
  all_goals (intros; subst_vars; rfl)

theorem count_flags (content : Bool) (buf : Bytes) (r : Tri × S × Bytes) :
    flags (count content buf r).2.1 = flags r.2.1 := by
  unfold count; split <;> rfl

theorem run_flags (step : S → UInt8 → HRes)
    (h : ∀ s c, (∀ s', step s c = .more s' → flags s' = flags s) ∧ (∀ s' f, step s c = .done s' f → flags s' = flags s)
      ∧ (∀ s' e, step s c = .fail s' e → flags s' = flags s)) (s : S) (b : Bytes) :
    flags (run step s b).2.1 = flags s := by
  refine run_inv step (fun t => flags t = flags s) ?_ ?_ ?_ s b rfl
  · intro t c t' ht e; rw [(h t c).1 _ e, ht]
  · intro t c t' f ht e; rw [(h t c).2.1 _ _ e, ht]
  · intro t c t' f ht e; exact ((h t c).2.2 _ _ e).trans ht

theorem createBuffer_flags (s : S) : flags (createBuffer s) = flags s := by
  unfold createBuffer; split <;> rfl

theorem concatenateChunks_flags (x : S) : flags (concatenateChunks x) = flags x := by
  have h := createBuffer_flags { x with msg := { x.msg with contentLength := x.msg.chunkCache.length } }
  unfold concatenateChunks
  simp only
  split
  · exact h
  · exact h

theorem updateContentLength_flags (ord : Dict.Order) (m m' : Msg) (h : m.updateContentLength ord = some m') :
    m'.missing = m.missing ∧ m'.afterMissing = m.afterMissing ∧ m'.status = m.status := by
  unfold Msg.updateContentLength at h
  split at h
  · simp only [Option.some.injEq] at h; subst h; exact ⟨rfl, rfl, rfl⟩
  · simp only [Option.map_eq_some_iff] at h
    obtain ⟨n, _, hn⟩ := h
    subst hn; exact ⟨rfl, rfl, rfl⟩

theorem finishHeaders_flags (cfg : Cfg) (s : S) : flags (finishHeaders cfg s).2 = flags s := by
  rw [finishHeaders_eq]
  have : flags (finishHeaders1 cfg s) = flags s := by
    unfold finishHeaders1 updateMessage; cases cfg.isRequest <;> rfl
  rw [← this]
  generalize finishHeaders1 cfg s = t
  unfold finishHeaders2
  split
  · rfl
  split
  · rfl
  split
  · cases hm : t.msg.updateContentLength cfg.ord with
    | none => rfl
    | some m =>
      have := updateContentLength_flags _ _ _ hm
      simp only
      split
      · simp only [flags, this]
      split
      · simp only [flags]; split <;> simp only [this]
      · rw [createBuffer_flags]
        simp only [flags]; split <;> simp only [this]
  split <;> rfl

theorem iter_flags (cfg : Cfg) (s : S) (buf : Bytes) : flags (iter cfg s buf).2.1 = flags s := by
  by_cases hh : s.ms = .start ∨ s.ms = .headers ∨ s.ms = .footers
  · rw [iter_headers cfg s buf hh]
    have h1 : flags (parseHeaders cfg (enterH s) buf).2.1 = flags s := by
      rw [parseHeaders_eq, count_flags, run_flags _ (hstep_flags cfg)]
      unfold enterH; split <;> rfl
    rw [← h1]
    unfold postH
    split
    · exact finishHeaders_flags _ _
    · rfl
  · cases hs : s.ms with
    | start | headers | footers => simp [hs] at hh
    | chunks =>
      rw [iter_chunks cfg s buf hs]
      have h1 : flags (parseChunks cfg s buf).2.1 = flags s := by
        rw [parseChunks_eq, count_flags, run_flags _ (cbyte_flags cfg)]
        rfl
      rw [← h1]
      unfold postC
      split
      · exact concatenateChunks_flags _
      · rfl
    | content =>
      unfold iter; simp only [hs]
      rw [consumeContent_eq]
      split
      · rfl
      · simp only [flags, S.upd, store, blit]
        (repeat' split) <;> rfl
    | noLength =>
      unfold iter consumeAsNextChunk; simp only [hs]
      cases buf <;> cases cfg.handler <;> rfl
    | end_ => unfold iter; simp only [hs]

theorem runs_flags (cfg : Cfg) {s buf r} (h : Runs cfg s buf r) : flags r.2.1 = flags s := by
  induction h with
  | @stop s buf _ => exact iter_flags cfg s buf
  | @next s buf r _ _ _ ih => rw [ih, iter_flags]

theorem parseBegin_eq (s : S) (h : s.msg.missing = true → s.msg.afterMissing = true) : parseBegin s = s := by
  unfold parseBegin
  split
  · rename_i hm
    have ha := h hm
    have : ({ s.msg with afterMissing := true } : Msg) = s.msg := by
      conv_rhs => rw [← show ({ s.msg with afterMissing := s.msg.afterMissing } : Msg) = s.msg from rfl]
      rw [ha]
    rw [this]
  · rfl

theorem parseBegin_after (cfg : Cfg) {s buf r} (h : Runs cfg (parseBegin s) buf r) (k : Nat) :
    parseBegin (r.2.1.setL k) = r.2.1.setL k := by
  apply parseBegin_eq
  have hf := runs_flags cfg h
  simp only [flags, Prod.mk.injEq] at hf
  intro hm
  change r.2.1.msg.missing = true at hm
  change r.2.1.msg.afterMissing = true
  rw [hf.2.1]; rw [hf.1] at hm
  unfold parseBegin at hm ⊢
  split
  · rfl
  · rename_i h0; rw [if_neg h0] at hm; exact absurd hm h0

/-! ### Append law of `parse` -/

theorem parseEnd_obs (cfg : Cfg) {r r' : Tri × S × Bytes} (t t' : Nat) (h : obs r = obs r') :
    obs (r.1, parseEnd cfg r.1 r.2.1 t, r.2.2) = obs (r'.1, parseEnd cfg r'.1 r'.2.1 t', r'.2.2) := by
  obtain ⟨rc, s, rest⟩ := r
  obtain ⟨rc', s', rest'⟩ := r'
  have h1 : rc = rc' := congrArg Prod.fst h
  subst h1
  have h3 : rest = rest' := congrArg (·.2.2) h
  subst h3
  have h2 := congrArg (·.2.1) h
  simp only [obs] at h2
  cases rc with
  | yes =>
    simp only [reduceCtorEq, if_false] at h2
    rw [eq_setL h2]
    simp only [obs, parseEnd, reduceCtorEq, if_false, finish_end]
    have := finishForm_setL cfg { s' with ms := .end_, msg := computeStatus { s'.msg with isValid := true } true } s.lastRead
    have e : finishForm cfg { s'.setL s.lastRead with
        ms := .end_, msg := computeStatus { (s'.setL s.lastRead).msg with isValid := true } true } =
      (finishForm cfg { s' with ms := .end_, msg := computeStatus { s'.msg with isValid := true } true }).setL s.lastRead :=
      this
    rw [e]; rfl
  | more =>
    simp only [reduceCtorEq, if_false] at h2
    rw [eq_setL h2]
    rfl
  | no =>
    simp only [if_true] at h2
    have e : s = s'.upd s.lastRead s.totalRead s.contentRead := by
      have : (s.upd 0 0 0).upd s.lastRead s.totalRead s.contentRead
        = (s'.upd 0 0 0).upd s.lastRead s.totalRead s.contentRead := by rw [h2]
      exact this
    rw [e]; rfl

theorem runs_more_rest (cfg : Cfg) {s buf r} (h : Runs cfg s buf r) (hm : r.1 = .more) : r.2.2 = [] := by
  induction h with
  | stop h => by_contra hne; exact h ⟨hm, hne⟩
  | next _ _ _ ih => exact ih hm

/-- Observable result of `parse`. -/
def parseObs (cfg : Cfg) (s : S) (buf : Bytes) : Option (Tri × S × Bytes) := (parse cfg s buf).map obs

theorem parse_append (cfg : Cfg) (s : S) (a b : Bytes) (ha : a ≠ []) (hb : b ≠ []) :
    ∃ rc s' rest, parse cfg s a = some (rc, s', rest) ∧
      (rc = .more → rest = [] ∧ (parse cfg s (a ++ b)).map obs = (parse cfg s' b).map obs) ∧
      (rc ≠ .more → (parse cfg s (a ++ b)).map obs = some (obs (rc, s', rest ++ b))) := by
  obtain ⟨r, t, hr, hp⟩ := parse_runs cfg s a
  refine ⟨_, _, _, hp, ?_, ?_⟩
  · intro hm
    constructor
    · exact runs_more_rest cfg hr hm
    · have es : parseEnd cfg r.1 r.2.1 t = r.2.1.setL t := by rw [hm]; rfl
      rw [es]
      obtain ⟨r1, t1, hr1, hp1⟩ := parse_runs cfg (r.2.1.setL t) b
      rw [parseBegin_after cfg hr] at hr1
      obtain ⟨r1', hr1', ho1⟩ := runs_setL cfg hr1 r.2.1 rfl
      obtain ⟨r2, hr2, ho2⟩ := (runs_append cfg hr b ha hb).1 hm r1' hr1'
      obtain ⟨t2, hp2⟩ := parse_of_runs cfg hr2
      rw [hp1, hp2]
      simp only [Option.map_some, Option.some.injEq]
      exact parseEnd_obs cfg _ _ (ho2.trans (obs_of_obs0 ho1))
  · intro hm
    have hr2 := (runs_append cfg hr b ha hb).2 hm
    obtain ⟨t2, hp2⟩ := parse_of_runs cfg hr2
    rw [hp2]
    simp only [Option.map_some, Option.some.injEq]
    exact parseEnd_obs cfg (r := (r.1, r.2.1, r.2.2 ++ b)) (r' := (r.1, r.2.1, r.2.2 ++ b)) _ _ rfl

end Verif.Http
