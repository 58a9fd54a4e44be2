import Verif.Model.HttpParser
import Mathlib.Tactic.Common
/-
The two byte loops of the HTTP parser as runs of one-byte machines, and their append law.
-/
namespace Verif.Http

/-- Run a one-byte machine over a buffer. -/
def run (step : S → UInt8 → HRes) (s : S) : Bytes → Tri × S × Bytes
  | [] => (.more, s, [])
  | c :: t =>
    match step s c with
    | .more s' => run step s' t
    | .done s' true => (.yes, s', t)
    | .done s' false => (.yes, s', c :: t)
    | .fail s' e => (.no, { s' with ec := some e }, c :: t)

/-- Continue a result with more input. -/
def cont (f : S → Bytes → Tri × S × Bytes) (r : Tri × S × Bytes) (b : Bytes) : Tri × S × Bytes :=
  match r with
  | (.more, s, _) => f s b
  | (rc, s, rest) => (rc, s, rest ++ b)

theorem run_append (step : S → UInt8 → HRes) (s : S) (a b : Bytes) :
    run step s (a ++ b) = cont (run step) (run step s a) b := by
  induction a generalizing s with
  | nil => rfl
  | cons c t ih =>
    simp only [List.cons_append, run]
    cases h : step s c with
    | more s' => simpa using ih s'
    | done s' f => cases f <;> rfl
    | fail s' e => rfl

theorem run_more_rest (step : S → UInt8 → HRes) (s : S) (a : Bytes) :
    (run step s a).1 = .more → (run step s a).2.2 = [] := by
  induction a generalizing s with
  | nil => intro _; rfl
  | cons c t ih =>
    simp only [run]
    cases h : step s c with
    | more s' => exact ih s'
    | done s' f => cases f <;> simp
    | fail s' e => simp

theorem run_rest_le (step : S → UInt8 → HRes) (s : S) (a : Bytes) :
    (run step s a).2.2.length ≤ a.length := by
  induction a generalizing s with
  | nil => simp [run]
  | cons c t ih =>
    simp only [run]
    cases h : step s c with
    | more s' => have := ih s'; simp; omega
    | done s' f => cases f <;> simp
    | fail s' e => simp

/-- The unread rest is a suffix of the buffer. -/
theorem run_suffix (step : S → UInt8 → HRes) (s : S) (a : Bytes) :
    ∃ p, a = p ++ (run step s a).2.2 := by
  induction a generalizing s with
  | nil => exact ⟨[], rfl⟩
  | cons c t ih =>
    simp only [run]
    cases h : step s c with
    | more s' => obtain ⟨p, hp⟩ := ih s'; exact ⟨c :: p, by simpa using hp⟩
    | done s' f => cases f; exacts [⟨[], rfl⟩, ⟨[c], rfl⟩]
    | fail s' e => exact ⟨[], rfl⟩

/-- An invariant of the one-byte machine holds at the end of the run. -/
theorem run_inv (step : S → UInt8 → HRes) (P : S → Prop)
    (hm : ∀ s c s', P s → step s c = .more s' → P s')
    (hd : ∀ s c s' f, P s → step s c = .done s' f → P s')
    (hf : ∀ s c s' e, P s → step s c = .fail s' e → P { s' with ec := some e })
    (s : S) (a : Bytes) (h0 : P s) : P (run step s a).2.1 := by
  induction a generalizing s with
  | nil => exact h0
  | cons c t ih =>
    simp only [run]
    cases h : step s c with
    | more s' => exact ih s' (hm _ _ _ h0 h)
    | done s' f => cases f <;> exact hd _ _ _ _ h0 h
    | fail s' e => exact hf _ _ _ _ h0 h

theorem hloop_eq (cfg : Cfg) (s : S) (buf : Bytes) : hloop cfg s buf = run (hstep cfg) s buf := by
  induction buf generalizing s with
  | nil => rfl
  | cons c t ih =>
    simp only [hloop, run]
    cases h : hstep cfg s c with
    | more s' => exact ih s'
    | done s' f => cases f <;> rfl
    | fail s' e => rfl

def CRes.toH : CRes → HRes
  | .more s' _ => .more s'
  | .done s' f => .done s' f
  | .fail s' e => .fail s' e

/-- `cstep` as a one-byte machine (buffer of one byte). -/
def cbyte (cfg : Cfg) (s : S) (c : UInt8) : HRes := (cstep cfg s c []).toH

theorem cloop_skip (cfg : Cfg) (s : S) (k : Nat) (t : Bytes) :
    cloop cfg s k t = cloop cfg s 0 (t.drop k) := by
  induction k generalizing t with
  | zero => simp
  | succ k ih =>
    cases t with
    | nil => simp [cloop]
    | cons c t => simp only [cloop, List.drop_succ_cons]; exact ih t

/-- Bulk transfer state: `k` bytes `d` of chunk data handed to the payload handler. -/
def bulk (s : S) (d : Bytes) : S :=
  { s with payload := s.payload ++ d, chunkRead := s.chunkRead + d.length,
           cs := if s.chunkRead + d.length = s.chunkSize then .expCrAfterChunk else .chunk }

theorem cbyte_handler (cfg : Cfg) (s : S) (c : UInt8) (hh : cfg.handler = true) (hc : s.cs = .chunk)
    (hlt : s.chunkRead < s.chunkSize) : cbyte cfg s c = .more (bulk s [c]) := by
  have h1 : min 1 (s.chunkSize - s.chunkRead) = 1 := by omega
  simp only [cbyte, cstep, chunkData, hc, hlt, hh, if_true, List.length_nil, Nat.zero_add, h1, bulk]
  by_cases he : s.chunkRead + 1 = s.chunkSize
  · simp [he, CRes.toH]
  · simp [he, CRes.toH]

theorem run_bulk (cfg : Cfg) (hh : cfg.handler = true) (d : Bytes) (t : Bytes) :
    ∀ (s : S), s.cs = .chunk → d ≠ [] → s.chunkRead + d.length ≤ s.chunkSize →
      run (cbyte cfg) s (d ++ t) = run (cbyte cfg) (bulk s d) t := by
  induction d with
  | nil => intro s _ h; exact absurd rfl h
  | cons c d ih =>
    intro s hc _ hle
    simp only [List.length_cons] at hle
    simp only [List.cons_append, run, cbyte_handler cfg s c hh hc (by omega)]
    by_cases hd : d = []
    · subst hd; simp
    · have hpos : 0 < d.length := List.length_pos_iff.mpr hd
      have hne : s.chunkRead + 1 ≠ s.chunkSize := by omega
      rw [ih (bulk s [c]) (by simp [bulk, hne]) hd (by simp [bulk]; omega)]
      congr 1
      simp [bulk, Nat.add_assoc, Nat.add_comm 1]

theorem cstep_of_ne (cfg : Cfg) (s : S) (c : UInt8) (t : Bytes)
    (h : ¬ (s.cs = .chunk ∧ s.chunkRead < s.chunkSize ∧ cfg.handler = true)) :
    cstep cfg s c t = cstep cfg s c [] ∧ ∀ s' k, cstep cfg s c [] = .more s' k → k = 0 := by
  have key : cstep cfg s c t = cstep cfg s c [] := by
    cases hc : s.cs <;> simp only [cstep, chunkData, hc]
    by_cases h1 : s.chunkRead < s.chunkSize
    · have h2 : cfg.handler = false := by
        cases hh : cfg.handler
        · rfl
        · exact absurd ⟨hc, h1, hh⟩ h
      simp only [h1, h2, if_true, Bool.false_eq_true, if_false]
    · simp only [h1, if_false]
  refine ⟨key, ?_⟩
  intro s' k
  cases hc : s.cs <;> simp only [cstep, chunkData, hc]
  case chunk =>
    by_cases h1 : s.chunkRead < s.chunkSize
    · have h2 : cfg.handler = false := by
        cases hh : cfg.handler
        · rfl
        · exact absurd ⟨hc, h1, hh⟩ h
      simp only [h1, h2, if_true, Bool.false_eq_true, if_false]
      repeat' split
      all_goals simp only [CRes.more.injEq]
      all_goals (intro hk; exact hk.2.symm)
    · simp only [h1, if_false]
      repeat' split
      all_goals simp only [CRes.more.injEq]
      all_goals (intro hk; exact hk.2.symm)
  all_goals (repeat' split)
  all_goals simp only [CRes.more.injEq, reduceCtorEq, false_implies]
  all_goals (intro hk; exact hk.2.symm)

theorem cloop_eq (cfg : Cfg) (buf : Bytes) : ∀ s, cloop cfg s 0 buf = run (cbyte cfg) s buf := by
  induction hn : buf.length using Nat.strongRecOn generalizing buf with
  | _ n ih =>
    intro s
    cases buf with
    | nil => rfl
    | cons c t =>
      simp only [List.length_cons] at hn
      by_cases h : s.cs = .chunk ∧ s.chunkRead < s.chunkSize ∧ cfg.handler = true
      · obtain ⟨hc, hlt, hh⟩ := h
        set len := min (t.length + 1) (s.chunkSize - s.chunkRead) with hlen
        have hl1 : 1 ≤ len := by omega
        have hstep : cstep cfg s c t = .more (bulk s ((c :: t).take len)) (len - 1) := by
          have hll : ((c :: t).take len).length = len := by simp; omega
          simp only [cstep, chunkData, hc, hlt, hh, if_true, ← hlen, bulk, hll]
          by_cases he : s.chunkRead + len = s.chunkSize
          · simp [he]
          · simp [he]
        have hsplit : c :: t = (c :: t).take len ++ t.drop (len - 1) := by
          conv_lhs => rw [← List.take_append_drop len (c :: t)]
          congr 1
          obtain ⟨m, hm⟩ : ∃ m, len = m + 1 := ⟨len - 1, by omega⟩
          rw [hm]; simp
        rw [cloop]; simp only [hstep]
        rw [cloop_skip, ih (t.drop (len - 1)).length (by simp; omega) _ rfl]
        conv_rhs => rw [hsplit]
        rw [run_bulk cfg hh _ _ s hc]
        · intro h0
          have := congrArg List.length h0
          simp at this; omega
        · simp; omega
      · obtain ⟨h1, h2⟩ := cstep_of_ne cfg s c t h
        rw [cloop]; simp only [h1, run, cbyte, CRes.toH]
        cases hx : cstep cfg s c [] with
        | more s' k =>
          simp only
          rw [h2 s' k hx]; exact ih _ (by omega) _ rfl s'
        | done s' f => cases f <;> rfl
        | fail s' e => rfl

end Verif.Http
