import Verif.Lemmas.HttpLoops
/-
Append law of `parse`: parsing `a ++ b` is parsing `a` and then `b`.
-/
namespace Verif.Http

/-- Replace the byte counters. -/
def S.upd (s : S) (l t c : Nat) : S := { s with lastRead := l, totalRead := t, contentRead := c }

def HRes.map (f : S → S) : HRes → HRes
  | .more s => .more (f s)
  | .done s b => .done (f s) b
  | .fail s e => .fail (f s) e

def mapR (f : S → S) (r : Tri × S × Bytes) : Tri × S × Bytes := (r.1, f r.2.1, r.2.2)

theorem hswitch_upd (cfg : Cfg) (s : S) (l t c : Nat) (x : UInt8) :
    hswitch cfg (s.upd l t c) x = (hswitch cfg s x).map (·.upd l t c) := by
  have e : (s.upd l t c).hs = s.hs := rfl
  cases h : s.hs <;> simp only [hswitch, h, e]
  all_goals (repeat' split)
  all_goals first | rfl | simp_all [S.upd]

theorem hstep_upd (cfg : Cfg) (s : S) (l t c : Nat) (x : UInt8) :
    hstep cfg (s.upd l t c) x = (hstep cfg s x).map (·.upd l t c) := by
  simp only [hstep]
  cases cfg.saveRaw
  · exact hswitch_upd cfg s l t c x
  · exact hswitch_upd cfg { s with raw := s.raw ++ [x] } l t c x

theorem chunkData_upd (cfg : Cfg) (s : S) (l t c : Nat) (x : UInt8) :
    chunkData cfg (s.upd l t c) x [] =
      ((chunkData cfg s x []).1.upd l t c, (chunkData cfg s x []).2) := by
  have e1 : (s.upd l t c).chunkRead = s.chunkRead := rfl
  have e2 : (s.upd l t c).chunkSize = s.chunkSize := rfl
  have e3 : (s.upd l t c).msg = s.msg := rfl
  simp only [chunkData, e1, e2, e3]
  repeat' split
  all_goals rfl

theorem cbyte_upd (cfg : Cfg) (s : S) (l t c : Nat) (x : UInt8) :
    cbyte cfg (s.upd l t c) x = (cbyte cfg s x).map (·.upd l t c) := by
  have e : (s.upd l t c).cs = s.cs := rfl
  cases h : s.cs <;> simp only [cbyte, cstep, h, e]
  case chunk =>
    rw [chunkData_upd]
    generalize chunkData cfg s x [] = r
    have e1 : (r.1.upd l t c).chunkRead = r.1.chunkRead := rfl
    have e2 : (r.1.upd l t c).chunkSize = r.1.chunkSize := rfl
    simp only [e1, e2]
    by_cases hr : r.1.chunkRead = r.1.chunkSize
    · simp only [hr, if_true]; rfl
    · simp only [hr, if_false]; rfl
  case expLfAfterSize =>
    have e1 : (s.upd l t c).chunkSizeStr = s.chunkSizeStr := rfl
    simp only [e1]
    by_cases hx : x = LF
    · simp only [hx, if_true]
      by_cases hn : (strtol16 s.chunkSizeStr).toNat = 0
      · simp only [hn, if_true]; rfl
      · simp only [hn, if_false]; rfl
    · simp only [hx, if_false]; rfl
  all_goals (repeat' split)
  all_goals rfl

theorem run_upd (step : S → UInt8 → HRes) (l t c : Nat)
    (h : ∀ s x, step (s.upd l t c) x = (step s x).map (·.upd l t c)) (s : S) (b : Bytes) :
    run step (s.upd l t c) b = mapR (·.upd l t c) (run step s b) := by
  induction b generalizing s with
  | nil => rfl
  | cons x b ih =>
    simp only [run, h]
    cases hx : step s x with
    | more s' => exact ih s'
    | done s' f => cases f <;> rfl
    | fail s' e => rfl

/-- Replace `lastRead`. -/
def S.setL (s : S) (k : Nat) : S := { s with lastRead := k }

@[simp] theorem setL_setL (s : S) (j k : Nat) : (s.setL j).setL k = s.setL k := rfl

theorem setL_self (s : S) : s.setL s.lastRead = s := rfl

theorem eq_setL {s t : S} (h : s.setL 0 = t.setL 0) : s = t.setL s.lastRead := by
  have : (s.setL 0).setL s.lastRead = (t.setL 0).setL s.lastRead := by rw [h]
  simpa [setL_self] using this

/-- The observable part of a result: everything except `lastRead` and, after an error, the other counters. -/
def obs (r : Tri × S × Bytes) : Tri × S × Bytes :=
  (r.1, if r.1 = .no then r.2.1.upd 0 0 0 else r.2.1.setL 0, r.2.2)

/-- Counter updates at the end of a byte loop. -/
def count (content : Bool) (buf : Bytes) (r : Tri × S × Bytes) : Tri × S × Bytes :=
  if r.1 = .no then r
  else
    let n := buf.length - r.2.2.length
    (r.1, r.2.1.upd n (r.2.1.totalRead + n)
      (if content then r.2.1.contentRead + n else r.2.1.contentRead), r.2.2)

theorem parseHeaders_eq (cfg : Cfg) (s : S) (buf : Bytes) :
    parseHeaders cfg s buf = count false buf (run (hstep cfg) (s.setL 0) buf) := by
  unfold parseHeaders count
  rw [show ({ s with lastRead := 0 } : S) = s.setL 0 from rfl, hloop_eq]
  generalize run (hstep cfg) (s.setL 0) buf = r
  obtain ⟨rc, s', rest⟩ := r
  cases rc <;> rfl

theorem parseChunks_eq (cfg : Cfg) (s : S) (buf : Bytes) :
    parseChunks cfg s buf = count true buf (run (cbyte cfg) (s.setL 0) buf) := by
  unfold parseChunks count
  rw [show ({ s with lastRead := 0 } : S) = s.setL 0 from rfl, cloop_eq]
  generalize run (cbyte cfg) (s.setL 0) buf = r
  obtain ⟨rc, s', rest⟩ := r
  cases rc <;> rfl

/-- Append law for a phase of the parser that may or may not finish. -/
def PhaseAppend (f : S → Bytes → Tri × S × Bytes) (s : S) (a b : Bytes) : Prop :=
  ((f s a).1 = .more ∧ (f s a).2.2 = [] ∧ obs (f s (a ++ b)) = obs (f (f s a).2.1 b))
  ∨ ((f s a).1 ≠ .more ∧ f s (a ++ b) = ((f s a).1, (f s a).2.1, (f s a).2.2 ++ b))

theorem count_append (content : Bool) (step : S → UInt8 → HRes)
    (hu : ∀ s x l t c, step (s.upd l t c) x = (step s x).map (·.upd l t c)) (s : S) (a b : Bytes) :
    PhaseAppend (fun s buf => count content buf (run step (s.setL 0) buf)) s a b := by
  have happ := run_append step (s.setL 0) a b
  have hmore := run_more_rest step (s.setL 0) a
  have hle := run_rest_le step (s.setL 0) a
  generalize hr : run step (s.setL 0) a = r at *
  obtain ⟨rc, s1, rest⟩ := r
  unfold PhaseAppend
  simp only [hr]
  cases rc with
  | more =>
    left
    have hrest : rest = [] := hmore rfl
    subst hrest
    refine ⟨rfl, rfl, ?_⟩
    rw [happ]
    -- the second run starts with advanced counters
    have e : (count content a (.more, s1, [])).2.1.setL 0 = s1.upd 0 (s1.totalRead + a.length)
        (if content then s1.contentRead + a.length else s1.contentRead) := by
      simp [count, S.upd, S.setL]
    simp only [cont]
    rw [e, run_upd step _ _ _ (fun s x => hu s x _ _ _)]
    have hs1 : s1 = s1.upd s1.lastRead s1.totalRead s1.contentRead := rfl
    have h2 := run_upd step s1.lastRead s1.totalRead s1.contentRead (fun s x => hu s x _ _ _) s1 b
    rw [← hs1] at h2
    have hle2 := run_rest_le step s1 b
    generalize run step s1 b = r2 at *
    obtain ⟨rc2, s2, rest2⟩ := r2
    simp only [mapR, Prod.mk.injEq, true_and, and_true] at h2
    have ht : s2.totalRead = s1.totalRead := by rw [h2]; rfl
    have hc : s2.contentRead = s1.contentRead := by rw [h2]; rfl
    simp only [mapR]
    cases rc2 with
    | no => simp [obs, count, S.upd]
    | yes =>
      cases content <;> simp [obs, count, S.upd, S.setL, ht, hc] <;> simp at hle2 <;> omega
    | more =>
      cases content <;> simp [obs, count, S.upd, S.setL, ht, hc] <;> simp at hle2 <;> omega
  | yes =>
    right
    simp only [happ, cont, count]
    simp
    have : a.length + b.length - (rest.length + b.length) = a.length - rest.length := by omega
    simp [this]
  | no => right; simp [happ, cont, count]

theorem parseHeaders_append (cfg : Cfg) (s : S) (a b : Bytes) : PhaseAppend (parseHeaders cfg) s a b := by
  have := count_append false (hstep cfg) (fun s x l t c => hstep_upd cfg s l t c x) s a b
  simpa only [PhaseAppend, ← parseHeaders_eq] using this

theorem parseChunks_append (cfg : Cfg) (s : S) (a b : Bytes) : PhaseAppend (parseChunks cfg) s a b := by
  have := count_append true (cbyte cfg) (fun s x l t c => cbyte_upd cfg s l t c x) s a b
  simpa only [PhaseAppend, ← parseChunks_eq] using this

end Verif.Http
