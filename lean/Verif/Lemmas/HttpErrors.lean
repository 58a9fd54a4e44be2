import Verif.Lemmas.HttpRefusalBody
/-
The error code of the parser: it is set when the parser refuses the message, and not touched otherwise.
-/
namespace Verif.Http
open Verif.Http.Text (hstep_ec chunkData_ec)

/-- An error if and only if refused. -/
def EcOk (s : S) (rc : Tri) (s' : S) : Prop := (rc = .no → s'.ec.isSome = true) ∧ (rc ≠ .no → s'.ec = s.ec)

theorem EcOk.keep {s s' : S} {rc : Tri} (h : s'.ec = s.ec) (hr : rc ≠ .no) : EcOk s rc s' := ⟨fun e => absurd e hr, fun _ => h⟩

theorem EcOk.trans {s s1 s2 : S} {rc : Tri} (h : s1.ec = s.ec) (h2 : EcOk s1 rc s2) : EcOk s rc s2 :=
  ⟨h2.1, fun e => (h2.2 e).trans h⟩

theorem hswitch_done_ec {cfg : Cfg} {s s' : S} {c : UInt8} {k : Bool} (h : hswitch cfg s c = .done s' k) : s'.ec = s.ec := by
  unfold hswitch at h
  split at h <;> (repeat' split at h) <;> first | (cases h; rfl) | cases h

theorem hloop_ec (cfg : Cfg) (buf : Bytes) : ∀ s, EcOk s (hloop cfg s buf).1 (hloop cfg s buf).2.1 := by
  induction buf with
  | nil => intro s; exact .keep rfl (by simp [hloop])
  | cons c t ih =>
    intro s
    have hraw : (if cfg.saveRaw then { s with raw := s.raw ++ [c] } else s).ec = s.ec := by split <;> rfl
    rw [hloop]
    cases h : hstep cfg s c with
    | more s1 => exact .trans (hstep_ec h) (ih s1)
    | done s1 k =>
      have := (hswitch_done_ec (cfg := cfg) h).trans hraw
      cases k <;> exact .keep this (by simp)
    | fail s1 e => exact ⟨fun _ => rfl, fun h => absurd rfl h⟩

theorem parseHeaders_ec (cfg : Cfg) (s : S) (buf : Bytes) : EcOk s (parseHeaders cfg s buf).1 (parseHeaders cfg s buf).2.1 := by
  have h := hloop_ec cfg buf { s with lastRead := 0 }
  unfold parseHeaders
  generalize hloop cfg { s with lastRead := 0 } buf = r at h
  obtain ⟨rc, s', rest⟩ := r
  cases rc <;> exact ⟨h.1, h.2⟩

theorem createBuffer_ec (s : S) : (createBuffer s).ec = s.ec := by unfold createBuffer; split <;> rfl

theorem updateMessage_ec (cfg : Cfg) (s : S) : (updateMessage cfg s).ec = s.ec := by unfold updateMessage; split <;> rfl

theorem concatenateChunks_ec (s : S) : (concatenateChunks s).ec = s.ec := by
  have h := createBuffer_ec { s with msg := { s.msg with contentLength := s.msg.chunkCache.length } }
  unfold concatenateChunks
  dsimp only
  split
  · exact h
  · exact h

theorem finishHeaders_ec (cfg : Cfg) (s : S) : EcOk s (finishHeaders cfg s).1 (finishHeaders cfg s).2 := by
  unfold finishHeaders
  dsimp only
  generalize hg : updateMessage cfg _ = s1
  have h : s1.ec = s.ec := by rw [← hg]; exact updateMessage_ec cfg _
  repeat' split
  all_goals first
    | exact .keep h (by simp)
    | exact ⟨fun _ => rfl, fun h => absurd rfl h⟩
    | exact .keep ((createBuffer_ec _).trans h) (by simp)

theorem cstep_more_ec {cfg : Cfg} {s s' : S} {c : UInt8} {t : Bytes} {k : Nat} (h : cstep cfg s c t = .more s' k) : s'.ec = s.ec := by
  have hd := chunkData_ec cfg s c t
  unfold cstep at h
  split at h
  case h_6 =>
    generalize chunkData cfg s c t = q at h hd
    obtain ⟨x, k'⟩ := q
    simp only at h hd
    split_ifs at h <;> (simp only [CRes.more.injEq] at h; rw [← h.1]; exact hd)
  all_goals try dsimp only at h
  all_goals (repeat' split at h) <;> first | (cases h; rfl) | cases h

theorem cstep_done_ec {cfg : Cfg} {s s' : S} {c : UInt8} {t : Bytes} {k : Bool} (h : cstep cfg s c t = .done s' k) : s'.ec = s.ec := by
  unfold cstep at h
  split at h
  all_goals try dsimp only at h
  all_goals (repeat' split at h) <;> first | (cases h; rfl) | cases h

theorem cloop_ec (cfg : Cfg) (buf : Bytes) : ∀ (s : S) (k : Nat), EcOk s (cloop cfg s k buf).1 (cloop cfg s k buf).2.1 := by
  induction buf with
  | nil => intro s k; cases k <;> exact .keep rfl (by simp [cloop])
  | cons c t ih =>
    intro s k
    cases k with
    | succ k => exact ih s k
    | zero =>
      rw [cloop]
      cases h : cstep cfg s c t with
      | more s1 k => exact .trans (cstep_more_ec h) (ih s1 k)
      | done s1 k => cases k <;> exact .keep (cstep_done_ec h) (by simp)
      | fail s1 e => exact ⟨fun _ => rfl, fun h => absurd rfl h⟩

theorem parseChunks_ec (cfg : Cfg) (s : S) (buf : Bytes) : EcOk s (parseChunks cfg s buf).1 (parseChunks cfg s buf).2.1 := by
  have h := cloop_ec cfg buf { s with lastRead := 0 } 0
  unfold parseChunks
  generalize cloop cfg { s with lastRead := 0 } 0 buf = r at h
  obtain ⟨rc, s', rest⟩ := r
  cases rc <;> exact ⟨h.1, h.2⟩

theorem storeContent_ec (cfg : Cfg) (s : S) (buf : Bytes) (n : Nat) : (storeContent cfg s buf n).ec = s.ec := by
  unfold storeContent blit
  (repeat' split) <;> rfl

theorem consumeContent_ec (cfg : Cfg) (s : S) (buf : Bytes) : EcOk s (consumeContent cfg s buf).1 (consumeContent cfg s buf).2.1 := by
  unfold consumeContent
  split
  · exact .keep rfl (by simp)
  · by_cases h : s.remaining ≤ buf.length
    · simp only [if_pos h]
      exact .keep (storeContent_ec cfg _ buf _) (by simp)
    · simp only [if_neg h]
      exact .keep (storeContent_ec cfg _ buf _) (by simp)

theorem consumeAsNextChunk_ec (cfg : Cfg) (s : S) (buf : Bytes) : (consumeAsNextChunk cfg s buf).1.ec = s.ec := by
  unfold consumeAsNextChunk
  (repeat' split) <;> rfl

theorem iter_ec (cfg : Cfg) (s : S) (buf : Bytes) : EcOk s (iter cfg s buf).1 (iter cfg s buf).2.1 := by
  have hh : ∀ x : S, x.ec = s.ec → EcOk s
      (if (parseHeaders cfg x buf).1 = .yes ∧ (parseHeaders cfg x buf).2.1.ms = .headers then
        ((finishHeaders cfg (parseHeaders cfg x buf).2.1).1, (finishHeaders cfg (parseHeaders cfg x buf).2.1).2, (parseHeaders cfg x buf).2.2)
        else parseHeaders cfg x buf).1
      (if (parseHeaders cfg x buf).1 = .yes ∧ (parseHeaders cfg x buf).2.1.ms = .headers then
        ((finishHeaders cfg (parseHeaders cfg x buf).2.1).1, (finishHeaders cfg (parseHeaders cfg x buf).2.1).2, (parseHeaders cfg x buf).2.2)
        else parseHeaders cfg x buf).2.1 := by
    intro x hx
    have h1 := EcOk.trans hx (parseHeaders_ec cfg x buf)
    split
    · rename_i hc
      exact .trans (h1.2 (by rw [hc.1]; simp)) (finishHeaders_ec cfg _)
    · exact h1
  unfold iter
  split
  · exact hh _ (by split <;> rfl)
  · exact hh _ (by split <;> rfl)
  · exact hh _ (by split <;> rfl)
  · have h := parseChunks_ec cfg s buf
    generalize parseChunks cfg s buf = r at h
    obtain ⟨rc, s', rest⟩ := r
    dsimp only at h ⊢
    split
    · rename_i hc
      exact .keep ((concatenateChunks_ec s').trans (h.2 (by rw [hc.1]; simp))) (by dsimp only; split <;> simp)
    · exact h
  · exact consumeContent_ec cfg s buf
  · exact .keep (consumeAsNextChunk_ec cfg s buf) (by simp)
  · exact .keep rfl (by simp)

theorem parseLoop_ec (cfg : Cfg) (n : Nat) : ∀ (s : S) (buf : Bytes) (k : Nat) {rc : Tri} {s' : S} {rest : Bytes} {k' : Nat},
    parseLoop cfg n s buf k = some (rc, s', rest, k') → EcOk s rc s' := by
  induction n with
  | zero => intro s buf k rc s' rest k' h; simp [parseLoop] at h
  | succ n ih =>
    intro s buf k rc s' rest k' h
    have hi := iter_ec cfg s buf
    rw [parseLoop] at h
    generalize iter cfg s buf = r at h hi
    obtain ⟨rc1, s1, rest1⟩ := r
    dsimp only at h hi
    split at h
    · rename_i hc
      exact .trans (hi.2 (by rw [hc.1]; simp)) (ih _ _ _ h)
    · cases h; exact hi

theorem finishForm_ec (cfg : Cfg) (s : S) : (finishForm cfg s).ec = s.ec := by
  unfold finishForm
  dsimp only
  (repeat' split) <;> rfl

theorem finish_ec (cfg : Cfg) (s : S) : (finish cfg s).ec = s.ec := by
  have ht : ∀ x : S, (finish.tail cfg x).ec = x.ec := fun x => finishForm_ec cfg _
  unfold finish
  split
  · exact createBuffer_ec _
  · exact ht _
  · exact (ht _).trans ((createBuffer_ec _).trans (updateMessage_ec cfg _))
  · exact (ht _).trans ((createBuffer_ec _).trans (updateMessage_ec cfg _))
  · refine (ht _).trans ?_
    split <;> rfl
  · refine (ht _).trans ?_
    split
    · rfl
    · exact concatenateChunks_ec _
  · refine (ht _).trans ?_
    split
    · rfl
    · exact concatenateChunks_ec _

/-- `parse` reports an error if it returns false, and does not touch the error code otherwise. -/
theorem parse_ec {cfg : Cfg} {s s' : S} {buf rest : Bytes} {rc : Tri} (h : parse cfg s buf = some (rc, s', rest)) : EcOk s rc s' := by
  unfold parse at h
  cases hl : parseLoop cfg 4 (parseBegin s) buf 0 with
  | none => rw [hl] at h; simp at h
  | some r =>
    obtain ⟨rc1, s1, rest1, k⟩ := r
    have h1 := parseLoop_ec cfg 4 _ _ _ hl
    have hb : (parseBegin s).ec = s.ec := by unfold parseBegin; split <;> rfl
    have h1 := EcOk.trans hb h1
    rw [hl] at h
    simp only [Option.map_some, Option.some.injEq, Prod.mk.injEq] at h
    obtain ⟨e1, e2, _⟩ := h
    subst e1 e2
    cases rc1 with
    | yes => exact .keep ((finish_ec cfg _).trans (h1.2 (by simp))) (by simp)
    | no => exact ⟨h1.1, fun h => absurd rfl h⟩
    | more => exact .keep (h1.2 (by simp)) (by simp)

theorem feed_ec {cfg : Cfg} (bufs : List Bytes) : ∀ {s s' : S} {rc : Tri} {rest : Bytes} {more : List Bytes},
    feed cfg s bufs = some (rc, s', rest, more) → EcOk s rc s' := by
  induction bufs with
  | nil => intro s s' rc rest more h; simp only [feed] at h; cases h; exact .keep rfl (by simp)
  | cons b bufs ih =>
    intro s s' rc rest more h
    rw [feed] at h
    cases hp : parse cfg s b with
    | none => rw [hp] at h; cases h
    | some r =>
      obtain ⟨rc1, s1, rest1⟩ := r
      rw [hp] at h
      have h1 := parse_ec hp
      cases rc1 with
      | more => exact .trans (h1.2 (by simp)) (ih h)
      | yes => cases h; exact h1
      | no => cases h; exact h1

end Verif.Http
