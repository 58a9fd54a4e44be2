import Verif.Lemmas.HttpErase
import Verif.Props.HttpAccounting
import Verif.Props.HttpBody
import Verif.Spec.HttpMissing
/-
C52: lost bytes.
-/
namespace Verif.Props.HttpMissing
open Verif.Http Verif.Props.HttpAccounting

/-! ### The status -/

/-- Bytes of this message have been lost and the message does not claim to be complete. -/
def Lossy (s : S) : Prop := s.msg.missing = true ∧ s.msg.status ≠ .ok

/-- A message that claims to be complete has been read to its end. -/
def Closed (s : S) : Prop := s.msg.status = .ok → s.ms = .end_

theorem finish_status (cfg : Cfg) (s : S) : (finish cfg { s with ms := .end_ }).msg.missing = s.msg.missing ∧
    (finish cfg { s with ms := .end_ }).msg.status =
      (if s.msg.missing then (if s.msg.afterMissing then .partial_ else .truncated) else .ok) ∧
    (finish cfg { s with ms := .end_ }).ms = .end_ := by
  rw [finish_end]
  obtain ⟨q, f, e, -⟩ := finishForm_form cfg { s with ms := .end_, msg := computeStatus { s.msg with isValid := true } true }
  rw [e]
  exact ⟨rfl, rfl, rfl⟩

/-- What `parse` does to the flags and the status. -/
theorem parse_status {cfg : Cfg} {s : S} {buf : Bytes} {rc : Tri} {s' : S} {rest : Bytes}
    (hp : parse cfg s buf = some (rc, s', rest)) : s'.msg.missing = s.msg.missing ∧
      (rc = .more → s'.msg.status = s.msg.status) ∧
      (rc = .no → s'.msg.status = if s.msg.missing then .partial_ else .truncated) ∧
      (rc = .yes → s'.ms = .end_ ∧ s'.msg.status = if s.msg.missing then .partial_ else .ok) := by
  obtain ⟨r, t, hr, e⟩ := parse_runs cfg s buf
  rw [e] at hp
  simp only [Option.some.injEq, Prod.mk.injEq] at hp
  obtain ⟨rfl, rfl, rfl⟩ := hp
  have hf := runs_flags cfg hr
  simp only [flags, Prod.mk.injEq] at hf
  obtain ⟨f1, f2, f3⟩ := hf
  have hb : (parseBegin s).msg.missing = s.msg.missing ∧ (s.msg.missing = true → (parseBegin s).msg.afterMissing = true) ∧
      (parseBegin s).msg.status = s.msg.status := by
    unfold parseBegin; split
    · exact ⟨rfl, fun _ => rfl, rfl⟩
    · rename_i h; exact ⟨rfl, fun h' => absurd h' h, rfl⟩
  obtain ⟨b1, b2, b3⟩ := hb
  cases hrc : r.1 with
  | yes =>
    obtain ⟨x, y, z⟩ := finish_status cfg r.2.1
    refine ⟨?_, by simp, by simp, fun _ => ⟨z, ?_⟩⟩
    · show (finish cfg { r.2.1 with ms := .end_ }).msg.missing = _
      rw [x, f1, b1]
    · show (finish cfg { r.2.1 with ms := .end_ }).msg.status = _
      rw [y, f1, b1, f2]
      cases hm : s.msg.missing with
      | false => simp
      | true => simp [b2 hm]
  | no =>
    refine ⟨f1.trans b1, by simp, fun _ => ?_, by simp⟩
    show (computeStatus r.2.1.msg false).status = _
    unfold computeStatus
    simp only [f1, b1, f2]
    cases hm : s.msg.missing with
    | false => simp
    | true => simp [b2 hm]
  | more => exact ⟨f1.trans b1, fun _ => f3.trans b3, by simp, by simp⟩

theorem parse_lossy {cfg : Cfg} {s : S} {buf : Bytes} {rc : Tri} {s' : S} {rest : Bytes} (h : Lossy s)
    (hp : parse cfg s buf = some (rc, s', rest)) : Lossy s' := by
  obtain ⟨h1, h2, h3, h4⟩ := parse_status hp
  refine ⟨h1.trans h.1, ?_⟩
  cases rc with
  | yes => rw [(h4 rfl).2, h.1]; simp
  | no => rw [h3 rfl, h.1]; simp
  | more => rw [h2 rfl]; exact h.2

/-- `parse_missing_data` does not touch the flags before the end. -/
theorem missingStep_flags (cfg : Cfg) (s : S) (len : Nat) : flags (missingStep cfg s len).2 = flags s := by
  have hf : ∀ t l, flags (fillCache cfg t l) = flags t := fun t l => by unfold fillCache; split <;> rfl
  unfold missingStep
  cases hs : s.ms with
  | start | headers | footers => rfl
  | chunks =>
    dsimp only
    split
    · dsimp only
      split <;> exact hf _ _
    · rfl
  | content =>
    dsimp only
    split
    · rfl
    split
    · rfl
    · dsimp only
      split
      · rfl
      split
      · unfold blit; split <;> rfl
      · rfl
  | noLength => exact hf _ _
  | end_ => rfl

theorem missingStep_end (cfg : Cfg) (s : S) (len : Nat) (h : s.ms = .end_) : missingStep cfg s len = (.yes, s) := by
  unfold missingStep; simp only [h]

/-- After `parse_missing_data` the message does not claim to be complete. -/
theorem parseMissing_lossy (cfg : Cfg) (s : S) (len : Nat) (h : Closed s ∨ Lossy s) : Lossy (parseMissing cfg s len).2 := by
  have hf := missingStep_flags cfg { s with msg := { s.msg with missing := true } } len
  have hend := missingStep_end cfg { s with msg := { s.msg with missing := true } } len
  unfold parseMissing
  generalize missingStep cfg { s with msg := { s.msg with missing := true } } len = r at *
  obtain ⟨rc, t⟩ := r
  simp only [flags, Prod.mk.injEq] at hf
  obtain ⟨f1, f2, f3⟩ := hf
  cases rc with
  | yes =>
    obtain ⟨x, y, z⟩ := finish_status cfg t
    refine ⟨x.trans f1, ?_⟩
    show (finish cfg { t with ms := .end_ }).msg.status ≠ _
    rw [y, f1]
    simp only [if_true]
    split <;> simp
  | no =>
    refine ⟨f1, ?_⟩
    simp only [computeStatus, f1, if_true]
    split <;> simp
  | more =>
    refine ⟨f1, ?_⟩
    show t.msg.status ≠ _
    rw [f3]
    intro hok
    rcases h with h | h
    · have := hend (h hok); simp at this
    · exact h.2 hok

theorem eof_lossy (cfg : Cfg) (s : S) (h : Lossy s) : Lossy (checkPrematureEof cfg s).2 := by
  unfold checkPrematureEof
  split
  · exact h
  · rw [concatenateChunks_setms]
    have hf := concatenateChunks_flags s
    simp only [flags, Prod.mk.injEq] at hf
    obtain ⟨x, y, z⟩ := finish_status cfg (concatenateChunks s)
    refine ⟨x.trans (hf.1.trans h.1), ?_⟩
    show (finish cfg { concatenateChunks s with ms := .end_ }).msg.status ≠ _
    rw [y, hf.1, h.1]
    simp only [if_true]
    split <;> simp

/-- Messages as the parser gets them: nothing is claimed about them yet. -/
def Unclaimed (m : Msg) : Prop := m.status ≠ .ok

theorem closed_of_reach {cfg : Cfg} {s : S} (h : Reach cfg Unclaimed s) : Closed s := by
  induction h with
  | fresh m hm => intro hc; exact absurd hc hm
  | @data s buf rc s' rest _ hp ih =>
    obtain ⟨_, h2, h3, h4⟩ := parse_status hp
    cases rc with
    | yes => exact fun _ => (h4 rfl).1
    | no => intro hc; rw [h3 rfl] at hc; split at hc <;> simp at hc
    | more =>
      intro hc
      rw [h2 rfl] at hc
      have he := ih hc
      -- a parser that is at the end does not ask for more
      exfalso
      have hms : (parseBegin s).ms = .end_ := by unfold parseBegin; split <;> exact he
      have hi : iter cfg (parseBegin s) buf = (.yes, parseBegin s, buf) := by unfold iter; simp only [hms]
      obtain ⟨k, e⟩ := parse_of_runs cfg (.stop (by rw [hi]; simp) : Runs cfg (parseBegin s) buf (iter cfg (parseBegin s) buf))
      rw [hi] at e
      rw [e] at hp
      simp at hp
  | gap len _ ih => exact fun hc => absurd hc (parseMissing_lossy cfg _ len (.inl ih)).2
  | @eof s _ ih =>
    unfold checkPrematureEof
    split
    · exact ih
    · intro _
      rw [concatenateChunks_setms]
      exact (finish_status cfg (concatenateChunks s)).2.2
  | reset m _ hm _ => intro hc; exact absurd hc hm

/-- Nothing but a reset. -/
def Op.keeps : Op → Prop
  | .reset _ => False
  | _ => True

theorem history_lossy (cfg : Cfg) (ops : List Op) : ∀ {s : S}, Lossy s → (∀ op ∈ ops, Op.keeps op) → ∀ {seen t},
    history cfg s ops = some (seen, t) → ∀ o ∈ seen, o.message.status ≠ .ok := by
  induction ops with
  | nil => intro s _ _ seen t h; simp only [history, Option.some.injEq, Prod.mk.injEq] at h; rw [← h.1]; simp
  | cons op ops ih =>
    intro s hl hk seen t h
    simp only [history] at h
    cases hs : stepOp cfg s op with
    | none => rw [hs] at h; simp at h
    | some p =>
      obtain ⟨o, s'⟩ := p
      rw [hs] at h
      simp only [Option.map_eq_some_iff] at h
      obtain ⟨⟨os, t'⟩, h1, h2⟩ := h
      simp only [Prod.mk.injEq] at h2
      obtain ⟨rfl, rfl⟩ := h2
      have hl' : Lossy s' ∧ o.message = s'.msg := by
        cases op with
        | data buf =>
          simp only [stepOp, Option.map_eq_some_iff, Prod.mk.injEq] at hs
          obtain ⟨⟨rc, u, rest⟩, hp, rfl, rfl⟩ := hs
          exact ⟨parse_lossy hl hp, rfl⟩
        | gap len =>
          simp only [stepOp, Option.some.injEq, Prod.mk.injEq] at hs
          obtain ⟨rfl, rfl⟩ := hs
          exact ⟨parseMissing_lossy cfg s len (.inr hl), rfl⟩
        | eof =>
          simp only [stepOp, Option.some.injEq, Prod.mk.injEq] at hs
          obtain ⟨rfl, rfl⟩ := hs
          exact ⟨eof_lossy cfg s hl, rfl⟩
        | reset m => exact (hk (.reset m) (by simp)).elim
      intro o' ho'
      rcases List.mem_cons.mp ho' with rfl | ho'
      · rw [hl'.2]; exact hl'.1.2
      · exact ih hl'.1 (fun op hop => hk op (by simp [hop])) h1 o' ho'

/-- **C52, status.** Use a parser in any way, then report lost bytes, then go on in any way except for a reset: from the
    loss on the message is never seen with the status OK. -/
theorem never_ok_after_loss {cfg : Cfg} {s : S} (h : Reach cfg Unclaimed s) (len : Nat) (ops : List Op)
    (hk : ∀ op ∈ ops, Op.keeps op) {seen : List Seen} {t : S} (hh : history cfg s (.gap len :: ops) = some (seen, t)) :
    ∀ o ∈ seen, o.message.status ≠ .ok := by
  have hl := parseMissing_lossy cfg s len (.inl (closed_of_reach h))
  simp only [history, stepOp, Option.map_eq_some_iff] at hh
  obtain ⟨⟨os, t'⟩, h1, h2⟩ := hh
  simp only [Prod.mk.injEq] at h2
  obtain ⟨rfl, rfl⟩ := h2
  intro o ho
  rcases List.mem_cons.mp ho with rfl | ho
  · exact hl.2
  · exact history_lossy cfg ops hl hk h1 o ho

/-- **C52, status, the value.** After a loss every completed or failed `parse` leaves the status PARTIAL. -/
theorem partial_after_loss {cfg : Cfg} {s : S} (hm : s.msg.missing = true) {buf : Bytes} {rc : Tri} {s' : S} {rest : Bytes}
    (hp : parse cfg s buf = some (rc, s', rest)) (hrc : rc ≠ .more) : s'.msg.status = .partial_ := by
  obtain ⟨_, h2, h3, h4⟩ := parse_status hp
  cases rc with
  | yes => rw [(h4 rfl).2, hm]; rfl
  | no => rw [h3 rfl, hm]; rfl
  | more => exact absurd rfl hrc

/-! ### The content -/

theorem dataState_erase (cfg : Cfg) (s : S) (d : Bytes) : erase cfg (dataState cfg s d) = dataState cfg (erase cfg s) d := by
  unfold dataState absorb erase S.g; cases cfg.handler <;> rfl

/-- The switch of `parse_missing_data` is one pass of `parse` over filler bytes. -/
theorem missingStep_filler (cfg : Cfg) (s : S) (hw : Waiting s) (len : Nat) (hpos : 0 < len) (hend : s.ms ≠ .end_)
    (hfit : Fits cfg s len) (hrc : (missingStep cfg s len).1 ≠ .no) :
    mapR (erase cfg) (iter cfg s (List.replicate len MISSING)) =
      ((missingStep cfg s len).1, erase cfg (missingStep cfg s len).2, []) := by
  have hne : List.replicate len MISSING ≠ [] := by simp; omega
  cases hs : s.ms with
  | start | headers | footers => exfalso; apply hrc; unfold missingStep; simp only [hs]
  | end_ => exact absurd hs hend
  | chunks =>
    unfold missingStep at hrc ⊢
    simp only [hs] at hrc ⊢
    split at hrc
    case isFalse => simp at hrc
    rename_i hcond
    rw [if_pos hcond]
    obtain ⟨hc, h1, h2⟩ := hcond
    have hroom : room cfg (s.setL 0) (List.replicate len MISSING).length := by
      intro hh
      rcases hfit with h | h
      · simp [hh] at h
      · rw [if_neg (by simp [hs])] at h
        simpa [S.setL] using h
    have hrun := run_data cfg (List.replicate len MISSING) [] (s.setL 0) hc hne
      (by simp [S.setL]; omega) hroom
    rw [List.append_nil] at hrun
    rw [iter_chunks cfg s _ hs, parseChunks_eq, hrun]
    simp only [run, count, reduceCtorEq, if_false, postC, false_and, mapR, List.length_replicate, List.length_nil,
      Nat.sub_zero]
    refine congrArg (Prod.mk Tri.more) (congrArg (·, []) ?_)
    simp only [dataState, absorb, S.setL, S.upd, fillCache, List.length_replicate]
    cases hh : cfg.handler with
    | true =>
      simp only [if_true]
      by_cases he : s.chunkRead + len = s.chunkSize
      · simp only [he, if_true, erase, S.g, hh]
      · simp only [he, if_false, erase, S.g, hh, hc, if_true]
    | false =>
      have : min len (cfg.maxContent - s.msg.chunkCache.length) = len := by
        have := hroom hh
        simp only [S.setL, List.length_replicate] at this
        omega
      simp only [Bool.false_eq_true, if_false, this]
      by_cases he : s.chunkRead + len = s.chunkSize
      · simp only [he, if_true, erase, S.g, hh]

      · simp only [he, if_false, erase, S.g, hh, hc]; rfl
  | content =>
    have hr := hw hs
    unfold missingStep at hrc ⊢
    simp only [hs] at hrc ⊢
    rw [if_neg (by omega)] at hrc ⊢
    split at hrc
    · simp at hrc
    rename_i hle
    rw [if_neg hle]
    unfold iter
    simp only [hs]
    rw [consumeContent_eq, if_neg (by omega)]
    have hmin : min s.remaining len = len := by omega
    simp only [List.length_replicate, hmin]
    have htake : (List.replicate len MISSING).take len = List.replicate len MISSING := by simp
    have hdrop : (List.replicate len MISSING).drop len = [] := by simp
    rw [htake, hdrop]
    cases hh : cfg.handler with
    | true =>
      simp only [mapR, store, hh, if_true, S.upd]
      have : (if s.remaining ≤ len then Tri.yes else Tri.more) = (if s.remaining - len = 0 then Tri.yes else .more) := by
        congr 1; simp; omega
      rw [this]
      refine congrArg (Prod.mk _) (congrArg (·, []) ?_)
      simp only [erase, S.g, hh, if_true, hs]
    | false =>
      have hfit' : s.contentRead + len ≤ cfg.maxContent := by
        rcases hfit with h | h
        · simp [hh] at h
        · rwa [if_pos hs] at h
      simp only [mapR, store, hh, Bool.false_eq_true, if_false, hfit', if_true]
      rw [if_pos (by omega : s.contentRead < cfg.maxContent), List.take_of_length_le (by simp; omega)]
      have hb : ∀ d, blit { s with remaining := s.remaining - len } s.contentRead d =
          { blit s s.contentRead d with remaining := s.remaining - len } := fun d => by
        unfold blit; dsimp only; split <;> rfl
      have hb2 : ∀ d, (blit s s.contentRead d).remaining = s.remaining ∧ (blit s s.contentRead d).contentRead = s.contentRead ∧
          (blit s s.contentRead d).totalRead = s.totalRead := fun d => by
        unfold blit; split <;> exact ⟨rfl, rfl, rfl⟩
      rw [hb]
      obtain ⟨b1, b2, b3⟩ := hb2 (List.replicate len MISSING)
      have : (if s.remaining ≤ len then Tri.yes else Tri.more) =
          (if (blit s s.contentRead (List.replicate len MISSING)).remaining - len = 0 then Tri.yes else .more) := by
        rw [b1]; congr 1; simp; omega
      rw [this]
      refine congrArg (Prod.mk _) (congrArg (·, []) ?_)
      simp only [S.upd, b1, b2, erase, S.g, hh, Bool.false_eq_true, if_false]
  | noLength =>
    unfold missingStep iter
    simp only [hs]
    unfold consumeAsNextChunk
    rw [if_neg (by simpa using hne)]
    cases hh : cfg.handler with
    | true => simp [fillCache, hh, mapR, erase, S.g]
    | false =>
      have hfit' : s.msg.chunkCache.length + len ≤ cfg.maxContent := by
        rcases hfit with h | h
        · simp [hh] at h
        · rwa [if_neg (by simp [hs])] at h
      have : min len (cfg.maxContent - s.msg.chunkCache.length) = len := by omega
      simp only [fillCache, hh, mapR, erase, S.g, Bool.false_eq_true, if_false, this, List.length_replicate]
      rw [List.take_of_length_le (by simp; omega)]

/-- Lost bytes within the body have the effect of as many `X` received, except on the flags and the status (and the
    content counter if there is a payload handler). -/
theorem gap_as_filler (cfg : Cfg) (s : S) (hw : Waiting s) (len : Nat) (hpos : 0 < len) (hend : s.ms ≠ .end_)
    (hfit : Fits cfg s len) (hrc : (parseMissing cfg s len).1 ≠ .no) :
    (parse cfg s (List.replicate len MISSING)).map (mapR (erase cfg)) =
      some ((parseMissing cfg s len).1, erase cfg (parseMissing cfg s len).2, []) := by
  have h0 : erase cfg (parseBegin s) = erase cfg { s with msg := { s.msg with missing := true } } := by
    rw [parseBegin_erase]; rfl
  have hrc' : (missingStep cfg { s with msg := { s.msg with missing := true } } len).1 = (parseMissing cfg s len).1 := by
    unfold parseMissing
    generalize missingStep cfg { s with msg := { s.msg with missing := true } } len = r
    obtain ⟨rc, t⟩ := r
    cases rc <;> rfl
  have hit := missingStep_filler cfg { s with msg := { s.msg with missing := true } } hw len hpos hend hfit (by rw [hrc']; exact hrc)
  rw [← iter_erase cfg h0] at hit
  obtain ⟨rc, t, rest, hi⟩ : ∃ rc t rest, iter cfg (parseBegin s) (List.replicate len MISSING) = (rc, t, rest) := ⟨_, _, _, rfl⟩
  rw [hi] at hit
  simp only [mapR, Prod.mk.injEq] at hit
  obtain ⟨h1, h2, rfl⟩ := hit
  obtain ⟨k, e⟩ := parse_of_runs cfg (.stop (by rw [hi]; simp) : Runs cfg (parseBegin s) _ (iter cfg (parseBegin s) _))
  rw [e, hi]
  simp only [Option.map_some, mapR]
  rw [h1, hrc']
  refine congrArg some (congrArg (Prod.mk _) (congrArg (·, []) ?_))
  unfold parseMissing at hrc ⊢
  generalize missingStep cfg { s with msg := { s.msg with missing := true } } len = r at *
  obtain ⟨rc', t'⟩ := r
  cases rc' with
  | no => simp at hrc
  | more => exact h2
  | yes => exact finish_erase cfg h2

/-- **C52, positions.** Take any stream, parts of which are received and parts lost, the lost ones within the body and
    the maximum content length. Whatever the parser then reports (other than an error), it reports what it does for the
    stream with an `X` for every lost byte: the same content with the same length, the same headers, the same unread
    bytes; only the flags, the status and the counters may differ. -/
theorem gaps_read_as_filler_partial (cfg : Cfg) (segs : List Seg) : ∀ {s t : S}, Waiting s → erase cfg t = erase cfg s →
    (∀ x ∈ segs, x.nonempty) → s.ms ≠ .end_ → FitsAll cfg s segs →
    ∀ {rc s' rest more}, play cfg s segs = some (rc, s', rest, more) → rc ≠ .no →
    ∃ t', feed cfg t (segs.map Seg.filler) = some (rc, t', rest, more.map Seg.filler) ∧ erase cfg t' = erase cfg s' := by
  induction segs with
  | nil =>
    intro s t _ het _ _ _ rc s' rest more hp _
    simp only [play, Option.some.injEq, Prod.mk.injEq] at hp
    obtain ⟨rfl, rfl, rfl, rfl⟩ := hp
    exact ⟨t, rfl, het⟩
  | cons x segs ih =>
    intro s t hw het hne hend hfit rc s' rest more hp hrc
    have hne' : ∀ x ∈ segs, x.nonempty := fun y hy => hne y (by simp [hy])
    -- a parser that asks for more is not at the end
    have hmore : ∀ {u : S} {b : Bytes} {u' : S} {r : Bytes}, u.ms ≠ .end_ → parse cfg u b = some (.more, u', r) → u'.ms ≠ .end_ := by
      intro u b u' r hu hp'
      obtain ⟨r1, k, hr, e⟩ := parse_runs cfg u b
      rw [e] at hp'
      simp only [Option.some.injEq, Prod.mk.injEq] at hp'
      obtain ⟨h1, rfl, _⟩ := hp'
      rw [h1]
      exact runs_more_not_end cfg hr h1
    cases x with
    | data b =>
      simp only [play] at hp
      have hpe := parse_erase cfg het b
      cases hps : parse cfg s b with
      | none => rw [hps] at hp; simp at hp
      | some p =>
        obtain ⟨rc1, s1, rest1⟩ := p
        rw [hps] at hp hpe
        simp only [Option.map_some, Option.map_eq_some_iff] at hpe
        obtain ⟨⟨rc2, t1, rest2⟩, hpt, h2⟩ := hpe
        simp only [mapR, Prod.mk.injEq] at h2
        obtain ⟨rfl, h3, rfl⟩ := h2
        simp only [List.map_cons, Seg.filler, feed, hpt]
        cases rc2 with
        | more =>
          exact ih (parse_accounts cfg hw hps).1 h3 hne' (hmore hend hps) (hfit _ _ hps) hp hrc
        | yes =>
          simp only [Option.some.injEq, Prod.mk.injEq] at hp
          obtain ⟨rfl, rfl, rfl, rfl⟩ := hp
          exact ⟨t1, rfl, h3⟩
        | no =>
          simp only [Option.some.injEq, Prod.mk.injEq] at hp
          exact absurd hp.1.symm hrc
    | gap n =>
      have hn : 0 < n := hne (.gap n) (by simp)
      simp only [play] at hp
      obtain ⟨hf1, hf2⟩ := hfit
      cases hpm : parseMissing cfg s n with
      | mk rc1 s1 =>
        rw [hpm] at hp
        have hrc1 : rc1 ≠ .no := by
          rintro rfl
          simp only [Option.some.injEq, Prod.mk.injEq] at hp
          exact hrc hp.1.symm
        have hg := gap_as_filler cfg s hw n hn hend (hf1 (by rw [hpm]; exact hrc1)) (by rw [hpm]; exact hrc1)
        have hpe := parse_erase cfg het (List.replicate n MISSING)
        rw [hg, hpm] at hpe
        simp only [Option.map_eq_some_iff] at hpe
        obtain ⟨⟨rc2, t1, rest2⟩, hpt, h2⟩ := hpe
        simp only [mapR, Prod.mk.injEq] at h2
        obtain ⟨rfl, h3, rfl⟩ := h2
        simp only [List.map_cons, Seg.filler, feed]
        rw [show List.replicate n (c! "X") = List.replicate n MISSING from rfl, hpt]
        cases rc2 with
        | more =>
          have hw1 : Waiting s1 := by have := parseMissing_waiting cfg s n hw; rw [hpm] at this; exact this
          have he1 : s1.ms ≠ .end_ := by
            have hg' := hg
            rw [hpm] at hg'
            simp only [Option.map_eq_some_iff] at hg'
            obtain ⟨⟨rc3, u, rest3⟩, hu, h4⟩ := hg'
            simp only [mapR, Prod.mk.injEq] at h4
            obtain ⟨rfl, h5, rfl⟩ := h4
            have := hmore hend hu
            have h6 : (erase cfg u).ms = (erase cfg s1).ms := by rw [h5]
            exact fun h => this (h6.trans h)
          rw [hpm] at hf2
          exact ih hw1 h3 hne' he1 (hf2 rfl) hp hrc
        | yes =>
          simp only [Option.some.injEq, Prod.mk.injEq] at hp
          obtain ⟨rfl, rfl, rfl, rfl⟩ := hp
          exact ⟨t1, rfl, h3⟩
        | no => exact absurd rfl hrc1

/-- With a payload handler there is no maximum. -/
theorem fitsAll_handler (cfg : Cfg) (hh : cfg.handler = true) (segs : List Seg) : ∀ s, FitsAll cfg s segs := by
  induction segs with
  | nil => intro s; exact trivial
  | cons x segs ih =>
    intro s
    cases x with
    | data b => intro s' rest _; exact ih s'
    | gap n => exact ⟨fun _ => .inl hh, fun _ => ih _⟩

/-- A body of known length within the maximum. -/
theorem fitsAll_content (cfg : Cfg) (hh : cfg.handler = false) (segs : List Seg) : ∀ s, s.ms = .content → Waiting s →
    s.contentRead + s.remaining ≤ cfg.maxContent → FitsAll cfg s segs := by
  induction segs with
  | nil => intro s _ _ _; exact trivial
  | cons x segs ih =>
    intro s hs hw hmax
    have hr := hw hs
    cases x with
    | data b =>
      intro s' rest hp
      have hms : (parseBegin s).ms = .content := by unfold parseBegin; split <;> exact hs
      have hrem : (parseBegin s).remaining = s.remaining ∧ (parseBegin s).contentRead = s.contentRead := by
        unfold parseBegin; split <;> exact ⟨rfl, rfl⟩
      obtain ⟨r, k, hr', e⟩ := parse_runs cfg s b
      have hi : iter cfg (parseBegin s) b = consumeContent cfg (parseBegin s) b := by unfold iter; simp only [hms]
      rw [consumeContent_eq, if_neg (by omega)] at hi
      dsimp only at hi
      rw [e] at hp
      simp only [Option.some.injEq, Prod.mk.injEq] at hp
      obtain ⟨h1, rfl, _⟩ := hp
      have hst := store_contentRead cfg { parseBegin s with remaining := (parseBegin s).remaining - min (parseBegin s).remaining b.length }
        (b.take (min (parseBegin s).remaining b.length))
      cases hr' with
      | stop _ =>
        rw [hi] at h1 ⊢
        dsimp only at h1 ⊢
        rw [h1]
        split at h1
        · simp at h1
        refine ih _ ?_ (fun _ => ?_) ?_
        · show ((store _ _ _).upd _ _ _).ms = _
          simp only [S.upd]
          rw [hst.2.2.2.1]; exact hms
        · show 0 < ((store _ _ _).upd _ _ _).remaining
          simp only [S.upd]
          rw [hst.2.2.1]; dsimp only; omega
        · show ((store _ _ _).upd _ _ _).contentRead + ((store _ _ _).upd _ _ _).remaining ≤ _
          simp only [S.upd]
          rw [hst.2.2.1, hst.1]; dsimp only; omega
      | next hm hne _ =>
        exfalso
        rw [hi] at hm hne
        dsimp only at hm hne
        split at hm
        · simp at hm
        · apply hne; rw [List.drop_eq_nil_iff]; omega
    | gap n =>
      constructor
      · intro hrc
        refine .inr ?_
        rw [if_pos hs]
        by_contra hc
        apply hrc
        unfold parseMissing missingStep
        simp only [hs]
        rw [if_neg (by omega), if_pos (by omega)]
      · intro hrc
        have hw' := parseMissing_waiting cfg s n hw
        unfold parseMissing missingStep at hrc hw' ⊢
        simp only [hs] at hrc hw' ⊢
        rw [if_neg (by omega)] at hrc hw' ⊢
        by_cases hn : s.remaining < n
        · rw [if_pos hn] at hrc; simp at hrc
        rw [if_neg hn] at hrc hw' ⊢
        have hfit : s.contentRead + n ≤ cfg.maxContent := by omega
        simp only [hh, Bool.false_eq_true, if_false, hfit, if_true] at hrc hw' ⊢
        have hb : ∀ (u : S) d, (blit u s.contentRead d).remaining = u.remaining ∧ (blit u s.contentRead d).ms = u.ms := fun u d => by
          unfold blit; split <;> exact ⟨rfl, rfl⟩
        simp only [(hb _ _).1] at hrc hw' ⊢
        by_cases h0 : s.remaining - n = 0
        · simp [h0] at hrc
        · simp only [h0, if_false] at hw' ⊢
          exact ih _ (hb _ _).2 hw' (by dsimp only; omega)

/-- **C52, a body of known length.** A message with a well-formed head announces its body with `Content-Length`; the head
    and parts of the body are received, the other parts are lost. If the parser accepts this, it is complete exactly at
    the end of the body, and the content is the body with an `X` for every lost byte, at its place. -/
theorem content_with_gaps_partial (cfg : Cfg) (m : Msg) (h : Head) (hs : Dict) (hset : HttpBody.Setting cfg m h hs)
    (hhand : cfg.handler = false) (hc : ¬ AnnouncesChunks cfg.ord hs) (hb : ¬ h.Bodyless m.requestMethod)
    (segs : List Seg) (hne : ∀ x ∈ segs, x.nonempty) (body : Bytes) (hbody : (segs.map Seg.filler).flatten = body)
    (hl : AnnouncesLength cfg.ord hs body.length) (hpos : body ≠ []) (hmax : body.length ≤ cfg.maxContent)
    (hn : body.length + 1 < 2 ^ 64) {rc : Tri} {s' : S} {rest : Bytes} {more : List Seg}
    (hp : play cfg (fresh cfg m) (.data (wireHead h hs) :: segs) = some (rc, s', rest, more)) (hrc : rc ≠ .no) :
    rc = .yes ∧ s'.msg.content = body.map some ∧ s'.msg.contentLength = body.length ∧ rest = [] ∧ more = [] := by
  -- the state after the head
  obtain ⟨s, hd, hi⟩ := iter_wireHead cfg m h hs hset.kind hset.headOk hset.headersOk []
  have hf2 := finishHeaders2_length cfg hd hset.blank hset.order hset.kind hset.notHeadersOnly hc hb body.length hl
    (by unfold SIZE_MOD; omega)
  have hlen : body.length ≠ 0 := by simpa using hpos
  rw [if_neg hlen, createBuffer_ok _ (by unfold SIZE_MOD; simp only; omega)] at hf2
  rw [hf2, List.append_nil] at hi
  have hbeg := parseBegin_fresh cfg m hset.blank.notMissing
  have hrun : Runs cfg (parseBegin (fresh cfg m)) (wireHead h hs) (iter cfg (parseBegin (fresh cfg m)) (wireHead h hs)) :=
    .stop (by rw [hbeg, hi]; simp)
  obtain ⟨k, e⟩ := parse_of_runs cfg hrun
  rw [hbeg, hi] at e
  dsimp only at e
  have hfit : FitsAll cfg (fresh cfg m) (.data (wireHead h hs) :: segs) := by
    intro u r hu
    rw [e] at hu
    simp only [Option.some.injEq, Prod.mk.injEq, true_and] at hu
    obtain ⟨rfl, _⟩ := hu
    refine fitsAll_content cfg hhand segs _ rfl (fun _ => ?_) ?_
    · show 0 < body.length; omega
    · show s.contentRead + body.length ≤ _
      rw [hd.contentRead]; omega
  have hne' : ∀ x ∈ Seg.data (wireHead h hs) :: segs, x.nonempty := by
    intro x hx
    rcases List.mem_cons.mp hx with rfl | hx
    · exact HttpBody.wireHead_ne_nil h hs
    · exact hne x hx
  obtain ⟨t', hf, he⟩ := gaps_read_as_filler_partial cfg _ (s := fresh cfg m) (t := fresh cfg m) (fun hx => by simp [fresh] at hx)
    rfl hne' (by simp [fresh]) hfit hp hrc
  -- the stream without gaps
  have hcut : HttpBody.Cuts ((Seg.data (wireHead h hs) :: segs).map Seg.filler) (wireHead h hs ++ body ++ []) := by
    constructor
    · simp [Seg.filler, hbody]
    · intro b hb'
      simp only [List.mem_map] at hb'
      obtain ⟨x, hx, rfl⟩ := hb'
      have := hne' x hx
      cases x with
      | data b => exact this
      | gap n => simp only [Seg.nonempty, Seg.filler] at this ⊢; simp; omega
  obtain ⟨o, ho, hcompl, hcontent, hcl, _⟩ := HttpBody.content_length_exact cfg m h hs hset hhand hc hb body [] hl hn _ hcut
  rw [outcome, hf] at ho
  simp only [Option.map_some, Option.some.injEq] at ho
  subst ho
  have hr := hcompl.result
  have hu := hcompl.unread
  simp only [observe] at hr hu hcontent hcl
  have e1 : (erase cfg t').msg.content = (erase cfg s').msg.content := by rw [he]
  have e2 : (erase cfg t').msg.contentLength = (erase cfg s').msg.contentLength := by rw [he]
  have hm0 : more = [] := by
    have hx := (List.append_eq_nil_iff.mp hu).2
    -- every unused part would leave unread bytes
    have hsuf : ∀ x ∈ more, x.nonempty := by
      have : ∀ (segs : List Seg) (s : S) rc s' rest more, (∀ x ∈ segs, x.nonempty) →
          play cfg s segs = some (rc, s', rest, more) → ∀ x ∈ more, x.nonempty := by
        intro segs
        induction segs with
        | nil =>
          intro s rc s' rest more _ h
          simp only [play, Option.some.injEq, Prod.mk.injEq] at h
          rw [← h.2.2.2]; simp
        | cons x segs ih =>
          intro s rc s' rest more hne h
          have hne2 : ∀ x ∈ segs, x.nonempty := fun y hy => hne y (by simp [hy])
          cases x with
          | data b =>
            simp only [play] at h
            split at h
            · simp at h
            · exact ih _ _ _ _ _ hne2 h
            · simp only [Option.some.injEq, Prod.mk.injEq] at h; rw [← h.2.2.2]; exact hne2
          | gap n =>
            simp only [play] at h
            split at h
            · exact ih _ _ _ _ _ hne2 h
            · simp only [Option.some.injEq, Prod.mk.injEq] at h; rw [← h.2.2.2]; exact hne2
      exact this _ _ _ _ _ _ hne' hp
    cases more with
    | nil => rfl
    | cons x xs =>
      exfalso
      simp only [List.map_cons, List.flatten_cons] at hx
      have hx := (List.append_eq_nil_iff.mp hx).1
      have := hsuf x (by simp)
      cases x with
      | data b => exact this hx
      | gap n => simp only [Seg.nonempty, Seg.filler] at this hx; simp at hx; omega
  refine ⟨hr, ?_, ?_, (List.append_eq_nil_iff.mp hu).1, hm0⟩
  · refine e1.symm.trans (hcontent.trans ?_)
    rw [List.take_of_length_le hmax]
  · refine e2.symm.trans (hcl.trans ?_)
    omega

/-- Without the bound the property fails: bytes lost beyond the maximum content length are not filled in, and the
    content of the message is memory that was never written. -/
theorem gap_beyond_maximum_leaves_garbage :
    ∃ (cfg : Cfg) (segs : List Seg), cfg.maxContent = 3 ∧
      segs = [.data (b! "HTTP/1.1 200 OK\r\nContent-Length: 4\r\n\r\n"), .gap 4] ∧
      (play cfg (fresh cfg {}) segs).map (fun r => (r.1, r.2.1.msg.contentLength, r.2.1.msg.content)) =
        some (.yes, 3, [none, none, none]) :=
  ⟨{ isRequest := false, maxContent := 3 }, _, rfl, rfl, by decide +kernel⟩

-- a POST of five bytes, three of them lost
def exampleSegs : List Seg := [.data (b! "h"), .gap 3, .data (b! "o")]

example : (exampleSegs.map Seg.filler).flatten = b! "hXXXo" := by decide +kernel
example : (play reqCfg (fresh reqCfg {}) (.data (wireHead HttpBody.exampleHead HttpBody.exampleHeaders) :: exampleSegs)).map
    (fun r => (r.1, r.2.1.msg.content, r.2.1.msg.status)) = some (.yes, (b! "hXXXo").map some, .partial_) := by decide +kernel

-- the same when nothing is received after the gap
example : (play reqCfg (fresh reqCfg {}) [.data (wireHead HttpBody.exampleHead HttpBody.exampleHeaders), .data (b! "he"), .gap 3]).map
    (fun r => (r.1, r.2.1.msg.content, r.2.1.msg.status)) = some (.yes, (b! "heXXX").map some, .truncated) := by decide +kernel

-- the status theorem: lost bytes within a chunk, then the rest
def chunkHead : Bytes := b! "POST /a HTTP/1.1\r\nTransfer-Encoding: chunked\r\n\r\n5\r\nh"

example : ∃ s, Reach reqCfg Unclaimed s ∧
    (history reqCfg s [.gap 3, .data (b! "o\r\n0\r\n\r\n")]).map (fun r => r.1.map fun o => (o.result, o.message.content, o.message.status)) =
      some [(.more, [], .none), (.yes, (b! "hXXXo").map some, .partial_)] := by
  have hp : ∃ r, parse reqCfg (fresh reqCfg {}) chunkHead = some r := by
    obtain ⟨r, k, _, e⟩ := parse_runs reqCfg (fresh reqCfg {}) chunkHead
    exact ⟨_, e⟩
  obtain ⟨⟨rc, s, rest⟩, hr⟩ := hp
  refine ⟨s, .data (.fresh {} (by simp [Unclaimed])) hr, ?_⟩
  have hs : s = ((parse reqCfg (fresh reqCfg {}) chunkHead).map (·.2.1)).getD (fresh reqCfg {}) := by rw [hr]; rfl
  rw [hs]
  decide +kernel

end Verif.Props.HttpMissing
