import Verif.Lemmas.HttpAccount
import Verif.Spec.HttpUse
/-
C19: `gcount()` and `get_total_bytes_read()` count the bytes the parser takes.
-/
namespace Verif.Props.HttpAccounting
open Verif.Http

theorem parseMissing_waiting (cfg : Cfg) (s : S) (len : Nat) (hw : Waiting s) : Waiting (parseMissing cfg s len).2 := by
  have key : (missingStep cfg { s with msg := { s.msg with missing := true } } len).1 ≠ .yes →
      Waiting (missingStep cfg { s with msg := { s.msg with missing := true } } len).2 := by
    unfold missingStep
    cases hs : s.ms with
    | start | headers | footers => intro _ hc; simp at hc
    | chunks =>
      dsimp only
      have hf : ∀ t l, (fillCache cfg t l).ms = t.ms := fun t l => by unfold fillCache; split <;> rfl
      split
      · intro _ hc
        exfalso
        revert hc
        dsimp only
        split <;> simp [hf]
      · intro _ hc; simp at hc
    | content =>
      dsimp only
      split
      · simp
      split
      · intro _; exact fun _ => hw hs
      · intro h _
        dsimp only at h ⊢
        by_contra hz
        exact h (if_pos (by omega))
    | noLength =>
      have hf : ∀ t l, (fillCache cfg t l).ms = t.ms := fun t l => by unfold fillCache; split <;> rfl
      intro _ hc; simp [hf] at hc
    | end_ => simp
  unfold parseMissing
  generalize missingStep cfg { s with msg := { s.msg with missing := true } } len = r at *
  obtain ⟨rc, t⟩ := r
  cases rc with
  | yes =>
    intro hc
    dsimp only at hc
    rw [finish_end, finishForm_ms] at hc
    simp at hc
  | no => exact key (by simp)
  | more => exact key (by simp)

/-- No reachable state waits for zero bytes of content. -/
theorem waiting_of_reach {cfg : Cfg} {M : Msg → Prop} {s : S} (h : Reach cfg M s) : Waiting s := by
  induction h with
  | fresh m _ => intro hc; simp [fresh] at hc
  | data _ hp ih => exact (parse_accounts cfg ih hp).1
  | gap len _ ih => exact parseMissing_waiting cfg _ len ih
  | @eof s _ ih =>
    unfold checkPrematureEof
    split
    · exact ih
    · intro hc
      rw [concatenateChunks_setms, finish_end, finishForm_ms] at hc
      simp at hc
  | reset m _ _ _ => intro hc; simp [Http.reset] at hc

/-- **C19, one buffer.** Whatever happened to the parser before: when `parse` does not fail, `gcount()` is the number
    of bytes it took from the front of the buffer and `get_total_bytes_read()` has grown by it. -/
theorem gcount_exact_partial {cfg : Cfg} {M : Msg → Prop} {s : S} (h : Reach cfg M s) {buf : Bytes} {rc : Tri} {s' : S}
    {rest : Bytes} (hp : parse cfg s buf = some (rc, s', rest)) (hrc : rc ≠ .no) :
    ∃ taken, buf = taken ++ rest ∧ s'.lastRead = taken.length ∧ s'.totalRead = s.totalRead + taken.length := by
  obtain ⟨_, taken, h1, h2, h3, h4⟩ := parse_accounts cfg (waiting_of_reach h) hp
  exact ⟨taken, h1, h4 hrc, by rw [h2, h4 hrc]⟩

/-- When `parse` fails the counters still agree with each other and never exceed what was taken. -/
theorem gcount_on_error {cfg : Cfg} {M : Msg → Prop} {s : S} (h : Reach cfg M s) {buf : Bytes} {s' : S}
    {rest : Bytes} (hp : parse cfg s buf = some (.no, s', rest)) :
    ∃ taken, buf = taken ++ rest ∧ s'.lastRead ≤ taken.length ∧ s'.totalRead = s.totalRead + s'.lastRead := by
  obtain ⟨_, taken, h1, h2, h3, _⟩ := parse_accounts cfg (waiting_of_reach h) hp
  exact ⟨taken, h1, h3, h2⟩

/-- **C19, a message.** Feed buffers until the parser is done or the buffers are used up: unless it fails,
    `get_total_bytes_read()` is the number of bytes taken from all of them together. -/
theorem total_exact_partial {cfg : Cfg} {M : Msg → Prop} (bufs : List Bytes) : ∀ {s : S}, Reach cfg M s → ∀ {rc : Tri} {s' : S}
    {rest : Bytes} {more : List Bytes}, feed cfg s bufs = some (rc, s', rest, more) → rc ≠ .no →
    ∃ taken, bufs.flatten = taken ++ (rest ++ more.flatten) ∧ s'.totalRead = s.totalRead + taken.length := by
  induction bufs with
  | nil =>
    intro s _ rc s' rest more hf _
    simp only [feed, Option.some.injEq, Prod.mk.injEq] at hf
    obtain ⟨rfl, rfl, rfl, rfl⟩ := hf
    exact ⟨[], rfl, rfl⟩
  | cons b bufs ih =>
    intro s h rc s' rest more hf hrc
    simp only [feed] at hf
    cases hp : parse cfg s b with
    | none => rw [hp] at hf; simp at hf
    | some r =>
      obtain ⟨rc1, s1, rest1⟩ := r
      rw [hp] at hf
      cases rc1 with
      | more =>
        obtain ⟨t1, a1, _, a2⟩ := gcount_exact_partial h hp (by simp)
        have hr : rest1 = [] := by
          obtain ⟨r, t, hr, e⟩ := parse_runs cfg s b
          rw [e] at hp
          simp only [Option.some.injEq, Prod.mk.injEq] at hp
          rw [← hp.2.2]
          exact runs_more_rest cfg hr hp.1
        obtain ⟨t2, b1, b2⟩ := ih (.data h hp) hf hrc
        refine ⟨t1 ++ t2, ?_, ?_⟩
        · rw [List.flatten_cons, a1, b1, hr]; simp
        · rw [b2, a2, List.length_append]; omega
      | yes =>
        simp only [Option.some.injEq, Prod.mk.injEq] at hf
        obtain ⟨rfl, rfl, rfl, rfl⟩ := hf
        obtain ⟨t1, a1, _, a2⟩ := gcount_exact_partial h hp (by simp)
        exact ⟨t1, by rw [List.flatten_cons]; conv_lhs => rw [a1]
                      simp, a2⟩
      | no =>
        simp only [Option.some.injEq, Prod.mk.injEq] at hf
        exact absurd hf.1.symm hrc

/-- **C19, a message, from the start of the object or a reset.** -/
theorem total_of_message_partial {cfg : Cfg} {m : Msg} {bufs : List Bytes} {rc : Tri} {s' : S} {rest : Bytes}
    {more : List Bytes} (hf : feed cfg (fresh cfg m) bufs = some (rc, s', rest, more)) (hrc : rc ≠ .no) :
    ∃ taken, bufs.flatten = taken ++ (rest ++ more.flatten) ∧ s'.totalRead = taken.length := by
  obtain ⟨t, h1, h2⟩ := total_exact_partial (M := fun _ => True) bufs (.fresh m trivial) hf hrc
  exact ⟨t, h1, by rw [h2]; simp [fresh]⟩

/-- Lost bytes reported with `parse_missing_data` are counted like read ones. -/
theorem gap_counted {cfg : Cfg} {M : Msg → Prop} {s : S} (h : Reach cfg M s) (len : Nat)
    (hrc : (parseMissing cfg s len).1 = .more) :
    (parseMissing cfg s len).2.lastRead = len ∧ (parseMissing cfg s len).2.totalRead = s.totalRead + len := by
  have hw := waiting_of_reach h
  clear h
  have key : (missingStep cfg { s with msg := { s.msg with missing := true } } len).1 = .more →
      (missingStep cfg { s with msg := { s.msg with missing := true } } len).2.lastRead = len ∧
      (missingStep cfg { s with msg := { s.msg with missing := true } } len).2.totalRead = s.totalRead + len := by
    unfold missingStep
    have hf : ∀ t l, (fillCache cfg t l).totalRead = t.totalRead := fun t l => by unfold fillCache; split <;> rfl
    cases hs : s.ms with
    | start | headers | footers => simp
    | chunks =>
      dsimp only
      split
      · intro _
        dsimp only
        split <;> simp [hf]
      · simp
    | content =>
      dsimp only
      split
      · simp
      split
      · simp
      · intro _
        refine ⟨rfl, ?_⟩
        dsimp only
        unfold blit
        (repeat' split) <;> rfl
    | noLength => intro _; simp [hf]
    | end_ => simp
  unfold parseMissing at hrc ⊢
  generalize missingStep cfg { s with msg := { s.msg with missing := true } } len = r at *
  obtain ⟨rc, t⟩ := r
  cases rc with
  | yes => simp at hrc
  | no => simp at hrc
  | more => exact key rfl

/-- A server's parser. -/
def reqCfg : Cfg := { isRequest := true }

/-- What is missing from the full property: after an error neither counter includes the bytes of the phase that
    failed, although they have been taken from the buffer (here four of the six bytes). -/
theorem error_bytes_not_counted :
    ∃ (buf taken rest : Bytes), buf = taken ++ rest ∧ taken.length = 4 ∧
      (parse reqCfg (fresh reqCfg {}) buf).map (fun r => (r.1, r.2.2, r.2.1.lastRead, r.2.1.totalRead)) =
        some (.no, rest, 0, 0) :=
  ⟨b! "GET \x01x", b! "GET ", b! "\x01x", by decide +kernel⟩

/-- A request in two buffers, followed by bytes of the next one. -/
def exampleBufs : List Bytes := [b! "POST /a HTTP/1.1\r\nContent-Le", b! "ngth: 3\r\n\r\nabcGET /b"]

example : (feed reqCfg (fresh reqCfg {}) exampleBufs).map (fun r => (r.1, r.2.1.lastRead, r.2.1.totalRead, r.2.2.1)) =
    some (.yes, 14, 42, b! "GET /b") := by decide +kernel

end Verif.Props.HttpAccounting
