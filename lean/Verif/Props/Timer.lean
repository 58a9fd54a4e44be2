import Verif.Model.Timer
import Mathlib.Tactic.Common
import Mathlib.Data.List.Induction
/-
C43: a timer cancels its connection only if it expired before being cancelled; a cancelled timer never cancels the
connection. The second half holds always, the first one if the timer is started once only: starting it again cancels
the connection at once (`restart_cancels`).
-/
namespace Verif.Props.Timer
open Verif.Timer

/-- The number of calls of `start`. -/
def starts (l : List Act) : Nat := (l.filter fun a => match a with | .start _ => true | _ => false).length

/-- C43: after `cancel` was called the connection is not cancelled any more, whatever happens. -/
theorem cancelled_never (l : List Act) (pre post : List Ev) (h : (run l).log = pre ++ .cancelled :: post) :
    Ev.connCancel ∉ post := by
  have key : ∀ l : List Act, ((run l).cancelled = false → Ev.cancelled ∉ (run l).log) ∧
      ∀ pre post, (run l).log = pre ++ .cancelled :: post → Ev.connCancel ∉ post := by
    intro l
    induction l using List.reverseRecOn with
    | nil => exact ⟨fun _ => by simp [run], fun pre post h => by simp [run] at h⟩
    | append_singleton l a ih =>
      have hrun : run (l ++ [a]) = (run l).step a := by simp [run]
      rw [hrun]
      generalize run l = s at ih
      obtain ⟨ih1, ih2⟩ := ih
      have app : ∀ e, e ≠ Ev.connCancel → ∀ pre post, s.log ++ [e] = pre ++ Ev.cancelled :: post →
          Ev.connCancel ∉ post := by
        intro e he pre post h
        rcases List.eq_nil_or_concat post with rfl | ⟨post', x, rfl⟩
        · simp
        · rw [List.concat_eq_append, ← List.cons_append, ← List.append_assoc] at h
          obtain ⟨h1, h2⟩ := List.append_inj' h rfl
          have := ih2 pre post' h1
          simp only [List.cons.injEq, and_true] at h2
          subst h2
          simp [this, Ne.symm he]
      cases a with
      | start n =>
        refine ⟨fun hc => ?_, app _ (by simp)⟩
        have := ih1 hc
        simpa [St.step, St.start] using this
      | cancel =>
        have hl : (s.step .cancel).log = s.log ++ [.cancelled] := by
          simp only [St.step, St.cancel]; split <;> rfl
        rw [hl]
        refine ⟨fun hc => ?_, app _ (by simp)⟩
        simp only [St.step, St.cancel] at hc
        split at hc <;> simp at hc
      | tick n => exact ⟨ih1, ih2⟩
      | expire =>
        simp only [St.step, St.expire]
        split
        · refine ⟨fun hc => ?_, app _ (by simp)⟩
          have := ih1 hc
          simpa using this
        · exact ⟨ih1, ih2⟩
      | callback =>
        simp only [St.step, St.callback]
        split
        · split
          · exact ⟨ih1, ih2⟩
          · rename_i hc
            have hc' : s.cancelled = false := by simpa using hc
            have hno := ih1 hc'
            refine ⟨fun _ => by simpa using hno, ?_⟩
            intro pre post h
            exfalso
            have h' : s.log ++ [Ev.connCancel] = pre ++ Ev.cancelled :: post := h
            have : Ev.cancelled ∈ s.log ++ [Ev.connCancel] := by rw [h']; simp
            simp at this
            exact hno this
        · exact ⟨ih1, ih2⟩
  exact (key l).2 pre post h

example : (run [.start 5, .tick 5, .expire, .cancel, .callback]).log = [.started 0 5, .expired 5, .cancelled] := by
  decide

/-- What holds of a timer that is started at most once. -/
private def One (s : St) (n : Nat) : Prop :=
  s.pending + s.queued ≤ n ∧
  (s.queued > 0 → s.cancelled = true ∨ ∃ t, Ev.expired t ∈ s.log) ∧
  (Ev.connCancel ∈ s.log → ∃ t, Ev.expired t ∈ s.log) ∧
  (∀ t0 sec, Ev.started t0 sec ∈ s.log → n = 1 ∧ s.deadline = t0 + sec) ∧
  (∀ t, Ev.expired t ∈ s.log → s.deadline ≤ t) ∧
  (n = 0 → s.log = s.log.filter (· = .cancelled))

private theorem starts_append (l : List Act) (a : Act) :
    starts (l ++ [a]) = starts l + (match a with | .start _ => 1 | _ => 0) := by
  cases a <;> simp [starts]

private theorem one (l : List Act) (h : starts l ≤ 1) : One (run l) (starts l) := by
  induction l using List.reverseRecOn with
  | nil => simp [One, run, starts]
  | append_singleton l a ih =>
    have hrun : run (l ++ [a]) = (run l).step a := by simp [run]
    rw [starts_append] at h
    have hi := ih (by omega)
    rw [hrun, starts_append]
    generalize run l = s at hi
    generalize starts l = n at hi h
    obtain ⟨h1, h2, h3, h4, h5, h6⟩ := hi
    cases a with
    | start k =>
      have hn : n = 0 := by simp only [] at h; omega
      subst hn
      have h7 := h6 rfl
      have hall : ∀ e ∈ s.log, e = .cancelled := by
        intro e he; rw [h7] at he; simpa using (List.mem_filter.mp he).2
      refine ⟨by simp [St.step, St.start]; omega, ?_, ?_, ?_, ?_, by simp⟩
      · intro hq
        simp only [St.step, St.start] at hq
        omega
      · intro hc
        simp [St.step, St.start] at hc
        exact absurd (hall _ hc) (by simp)
      · intro t0 sec hm
        simp [St.step, St.start] at hm
        rcases hm with hm | hm
        · exact absurd (hall _ hm) (by simp)
        · simp [St.step, St.start, hm]
      · intro t hm
        simp [St.step, St.start] at hm
        exact absurd (hall _ hm) (by simp)
    | cancel =>
      have hl : (s.step .cancel).log = s.log ++ [.cancelled] := by
        simp only [St.step, St.cancel]; split <;> rfl
      have hd : (s.step .cancel).deadline = s.deadline := by
        simp only [St.step, St.cancel]; split <;> rfl
      have hc : (s.step .cancel).cancelled = true := by
        simp only [St.step, St.cancel]; split <;> rfl
      refine ⟨?_, fun _ => .inl hc, ?_, ?_, ?_, ?_⟩
      · simp only [St.step, St.cancel]; split <;> simp <;> omega
      · rw [hl]; simpa using h3
      · rw [hl, hd]; simpa using h4
      · rw [hl, hd]; simpa using h5
      · rw [hl]; intro hn; rw [List.filter_append, ← h6 (by simpa using hn)]; simp
    | tick k => exact ⟨h1, h2, h3, h4, h5, h6⟩
    | expire =>
      simp only [St.step, St.expire]
      split
      · rename_i hp
        refine ⟨by simp; omega, fun _ => .inr ⟨s.now, by simp⟩, fun _ => ⟨s.now, by simp⟩, ?_, ?_, ?_⟩
        · intro t0 sec hm
          exact h4 t0 sec (by simpa using hm)
        · intro t hm
          simp only [List.mem_append, List.mem_singleton, Ev.expired.injEq] at hm
          rcases hm with hm | hm
          · exact h5 t hm
          · simp only []; omega
        · intro hn
          simp only [Nat.add_zero] at hn
          omega
      · exact ⟨h1, h2, h3, h4, h5, h6⟩
    | callback =>
      simp only [St.step, St.callback]
      split
      · rename_i hq
        split
        · exact ⟨by simp only []; omega, fun _ => h2 hq, h3, h4, h5, h6⟩
        · rename_i hc
          have hx : ∃ t, Ev.expired t ∈ s.log := by
            rcases h2 hq with h | h
            · exact absurd h hc
            · exact h
          obtain ⟨t, ht⟩ := hx
          refine ⟨by simp only []; omega, fun _ => .inr ⟨t, by simp [ht]⟩, fun _ => ⟨t, by simp [ht]⟩, ?_, ?_, ?_⟩
          · intro t0 sec hm; exact h4 t0 sec (by simpa using hm)
          · intro t hm; exact h5 t (by simpa using hm)
          · intro hn; simp only [Nat.add_zero] at hn; omega
      · exact ⟨h1, h2, h3, h4, h5, h6⟩

private theorem run_prefix (l : List Act) (pre post : List Ev) (h : (run l).log = pre ++ post) :
    ∃ l', l' <+: l ∧ (run l').log = pre := by
  induction l using List.reverseRecOn generalizing post with
  | nil => exact ⟨[], List.nil_prefix, by simp [run] at h; simp [run, h.1]⟩
  | append_singleton l a ih =>
    have hrun : run (l ++ [a]) = (run l).step a := by simp [run]
    have hgrow : (run (l ++ [a])).log = (run l).log ∨ ∃ e, (run (l ++ [a])).log = (run l).log ++ [e] := by
      rw [hrun]
      cases a with
      | start n => exact .inr ⟨_, rfl⟩
      | cancel => right; refine ⟨.cancelled, ?_⟩; simp only [St.step, St.cancel]; split <;> rfl
      | tick n => exact .inl rfl
      | expire => simp only [St.step, St.expire]; split; exacts [.inr ⟨_, rfl⟩, .inl rfl]
      | callback =>
        simp only [St.step, St.callback]
        split
        · split
          · exact .inl rfl
          · exact .inr ⟨_, rfl⟩
        · exact .inl rfl
    rcases hgrow with hg | ⟨e, hg⟩
    · obtain ⟨l', h1, h2⟩ := ih post (by rw [← hg]; exact h)
      exact ⟨l', h1.trans (List.prefix_append _ _), h2⟩
    · rcases List.eq_nil_or_concat post with rfl | ⟨post', x, rfl⟩
      · exact ⟨_, List.prefix_refl _, by rw [h]; simp⟩
      · rw [hg, List.concat_eq_append, ← List.append_assoc] at h
        obtain ⟨h1, _⟩ := List.append_inj' h rfl
        obtain ⟨l', h2, h3⟩ := ih post' h1
        exact ⟨l', h2.trans (List.prefix_append _ _), h3⟩

/-- C43, partially: if the timer is started at most once, the connection is cancelled only after the time given to
    `start` has passed, and only if `cancel` was not called before. Missing: timers that are started again. -/
theorem only_if_expired_partial (l : List Act) (h1 : starts l ≤ 1) (pre post : List Ev)
    (h : (run l).log = pre ++ .connCancel :: post) :
    Ev.cancelled ∉ pre ∧ ∃ t, Ev.expired t ∈ pre ∧ ∀ t0 sec, Ev.started t0 sec ∈ (run l).log → t0 + sec ≤ t := by
  constructor
  · intro hc
    obtain ⟨a, b, rfl⟩ := List.append_of_mem hc
    exact cancelled_never l a (b ++ .connCancel :: post) (by rw [h]; simp) (by simp)
  · have hone := one l h1
    obtain ⟨l', hp, hl⟩ := run_prefix l (pre ++ [.connCancel]) post (by rw [h]; simp)
    have h1' : starts l' ≤ 1 := by
      obtain ⟨r, rfl⟩ := hp
      have : starts (l' ++ r) = starts l' + starts r := by simp [starts, List.filter_append]
      omega
    have hone' := one l' h1'
    obtain ⟨t, ht⟩ := hone'.2.2.1 (by rw [hl]; simp)
    rw [hl] at ht
    have ht' : Ev.expired t ∈ pre := by simpa using ht
    refine ⟨t, ht', ?_⟩
    intro t0 sec hs
    have := (hone.2.2.2.1 t0 sec hs).2
    have := hone.2.2.2.2.1 t (by rw [h]; simp [ht'])
    omega

example : (run [.start 5, .tick 4, .expire, .tick 2, .expire, .callback]).log =
    [.started 0 5, .expired 6, .connCancel] := by decide

/-- C43: and it does time out. When the time has passed and the timer was not cancelled, the callback cancels the
    connection. -/
theorem times_out (l : List Act) (seconds : Nat) (hl : starts l = 0) (hc : (run l).cancelled = false) (wait : Nat)
    (hw : seconds ≤ wait) :
    (run (l ++ [.start seconds, .tick wait, .expire, .callback])).log =
      (run l).log ++ [.started (run l).now seconds, .expired ((run l).now + wait), .connCancel] := by
  have hrun : run (l ++ [.start seconds, .tick wait, .expire, .callback]) =
      ((((run l).step (.start seconds)).step (.tick wait)).step .expire).step .callback := by
    simp [run]
  rw [hrun]
  have := one l (by omega)
  obtain ⟨h1, _⟩ := this
  rw [hl] at h1
  generalize run l = s at *
  have hq : s.pending = 0 ∧ s.queued = 0 := by omega
  simp [St.step, St.start, St.expire, St.callback, hq, hc, hw]

/-- Without `cancel`, every `start` is a wait that is pending, or queued, or has cancelled the connection. -/
private theorem counts (l : List Act) (h : Act.cancel ∉ l) :
    (run l).cancelled = false ∧
      (run l).log.count .connCancel + (run l).pending + (run l).queued = starts l := by
  induction l using List.reverseRecOn with
  | nil => simp [run, starts]
  | append_singleton l a ih =>
    have hrun : run (l ++ [a]) = (run l).step a := by simp [run]
    simp only [List.mem_append, List.mem_singleton, not_or] at h
    obtain ⟨ih1, ih2⟩ := ih h.1
    rw [hrun, starts_append]
    generalize run l = s at ih1 ih2
    cases a with
    | start k =>
      refine ⟨ih1, ?_⟩
      simp only [St.step, St.start, List.count_append]
      have : List.count Ev.connCancel [Ev.started s.now k] = 0 := by simp
      omega
    | cancel => exact absurd rfl h.2
    | tick k => exact ⟨ih1, ih2⟩
    | expire =>
      simp only [St.step, St.expire]
      split
      · refine ⟨ih1, ?_⟩
        simp only [List.count_append]
        have : List.count Ev.connCancel [Ev.expired s.now] = 0 := by simp
        omega
      · exact ⟨ih1, ih2⟩
    | callback =>
      simp only [St.step, St.callback]
      split
      · rename_i hq
        simp only [ih1, Bool.false_eq_true, if_false]
        refine ⟨trivial, ?_⟩
        simp only [List.count_append]
        have : List.count Ev.connCancel [Ev.connCancel] = 1 := by simp
        omega
      · exact ⟨ih1, ih2⟩

private theorem callbacks (k : Nat) (s : St) (hc : s.cancelled = false) (hk : s.queued ≤ k) :
    ((List.replicate k Act.callback).foldl St.step s).queued = 0 ∧
      ((List.replicate k Act.callback).foldl St.step s).pending = s.pending := by
  induction k generalizing s with
  | zero => simp; omega
  | succ k ih =>
    simp only [List.replicate_succ, List.foldl_cons]
    have hs : (s.step .callback).cancelled = false ∧ (s.step .callback).queued ≤ k ∧
        (s.step .callback).pending = s.pending := by
      simp only [St.step, St.callback]
      split
      · simp only [hc, Bool.false_eq_true, if_false]; exact ⟨trivial, by omega, trivial⟩
      · exact ⟨hc, by omega, rfl⟩
    have := ih _ hs.1 hs.2.1
    rw [hs.2.2] at this
    exact this

/-- C43: and it does time out, in any interleaving. If `cancel` is not called, then, once the time has passed and the
    callbacks have run, the connection has been cancelled once for every `start`; never more often than that before. -/
theorem times_out_each (l : List Act) (h : Act.cancel ∉ l) :
    (run l).log.count .connCancel ≤ starts l ∧
      ∀ wait k, (run l).deadline ≤ (run l).now + wait → starts l ≤ k →
        (run (l ++ [.tick wait, .expire] ++ List.replicate k .callback)).log.count .connCancel = starts l := by
  obtain ⟨h1, h2⟩ := counts l h
  refine ⟨by omega, ?_⟩
  intro wait k hw hk
  have hc : Act.cancel ∉ l ++ [.tick wait, .expire] ++ List.replicate k .callback := by
    simp [h, List.mem_replicate]
  obtain ⟨_, h4⟩ := counts _ hc
  have hst : starts (l ++ [.tick wait, .expire] ++ List.replicate k .callback) = starts l := by
    simp [starts, List.filter_append]
  rw [hst] at h4
  have hrun : run (l ++ [.tick wait, .expire] ++ List.replicate k .callback) =
      (List.replicate k Act.callback).foldl St.step (((run l).step (.tick wait)).step .expire) := by
    simp [run]
  have hs : (((run l).step (.tick wait)).step .expire).cancelled = false ∧
      (((run l).step (.tick wait)).step .expire).queued ≤ k ∧
      (((run l).step (.tick wait)).step .expire).pending = 0 := by
    by_cases hp : (run l).pending > 0
    · simp only [St.step, St.expire, hp, hw, and_self, if_true]
      exact ⟨h1, by omega, trivial⟩
    · simp only [St.step, St.expire, hp, false_and, if_false]
      exact ⟨h1, by omega, by omega⟩
  obtain ⟨h5, h6⟩ := callbacks k _ hs.1 hs.2.1
  rw [hs.2.2] at h6
  rw [hrun] at h4 ⊢
  omega

example : (run ([.tick 3, .start 5, .expire, .tick 2] ++ [.tick 3, .expire] ++ List.replicate 1 .callback)).log =
    [.started 3 5, .expired 8, .connCancel] := by decide

/-- Finding: starting the timer again cancels the connection although no time has passed: the callback of the first
    wait, aborted by the second `start`, does not look at its error code. -/
theorem restart_cancels : ∃ l : List Act, Ev.connCancel ∈ (run l).log ∧ ∀ t, Ev.expired t ∉ (run l).log := by
  refine ⟨[.start 10, .start 10, .callback], by decide, ?_⟩
  intro t ht
  have hlog : (run [.start 10, .start 10, .callback]).log = [.started 0 10, .started 0 10, .connCancel] := by decide
  rw [hlog] at ht
  simp at ht

private theorem pending_active (l : List Act) (h : starts l ≤ 1) : (run l).pending ≠ 0 → (run l).active = true := by
  have key : ∀ l : List Act, starts l ≤ 1 → ((run l).pending ≠ 0 → (run l).active = true) ∧ (run l).pending + (run l).queued ≤ starts l := by
    intro l
    induction l using List.reverseRecOn with
    | nil => intro _; simp [run]
    | append_singleton l a ih =>
      intro h
      have hrun : run (l ++ [a]) = (run l).step a := by simp [run]
      rw [hrun]
      have hs := starts_append l a
      cases a with
      | start n =>
        have : starts l = 0 := by rw [hs] at h; simp [starts] at h ⊢; omega
        have := (ih (by omega)).2
        rw [hs]
        simp only [St.step, St.start]
        refine ⟨fun _ => trivial, ?_⟩
        simp [starts]; simp [starts] at this; omega
      | cancel =>
        have ih := ih (by rw [hs] at h; omega)
        simp only [St.step, St.cancel]
        split
        · refine ⟨fun hp => absurd rfl hp, ?_⟩
          have := ih.2
          rw [hs]; simp only; omega
        · refine ⟨fun hp => ?_, by rw [hs]; have := ih.2; simp only; omega⟩
          exact ih.1 hp
      | tick n => have ih := ih (by rw [hs] at h; omega); exact ⟨ih.1, by rw [hs]; have := ih.2; simp only [St.step]; omega⟩
      | expire =>
        have ih := ih (by rw [hs] at h; omega)
        simp only [St.step, St.expire]
        split
        · exact ⟨fun hp => absurd rfl hp, by rw [hs]; have := ih.2; simp only; omega⟩
        · exact ⟨ih.1, by rw [hs]; have := ih.2; omega⟩
      | callback =>
        have ih := ih (by rw [hs] at h; omega)
        have h2 := ih.2
        rw [hs] at h ⊢
        simp only [St.step, St.callback]
        split
        · have hp : (run l).pending = 0 := by omega
          split <;> exact ⟨fun h => absurd hp h, by simp only; omega⟩
        · exact ⟨ih.1, by omega⟩
  exact (key l h).1

/-- The timer and its connection are kept by the waits that are pending and the callbacks that are queued. If the timer is
    started at most once, no wait is pending after `cancel`, and none that is cancelled comes back: both are released as
    soon as the callbacks have run. -/
theorem cancel_releases_partial (l l' : List Act) (h1 : starts l ≤ 1) (h2 : starts l' = 0) : (run (l ++ .cancel :: l')).pending = 0 := by
  have e : run (l ++ .cancel :: l') = l'.foldl St.step ((run l).step .cancel) := by simp [run]
  rw [e]
  have h0 : ((run l).step .cancel).pending = 0 := by
    have := pending_active l h1
    simp only [St.step, St.cancel]
    by_cases ha : (run l).active = true
    · simp [ha]
    · simp only [ha]
      by_contra hp
      exact ha (this hp)
  generalize (run l).step .cancel = s at h0
  clear e
  induction l' generalizing s with
  | nil => exact h0
  | cons a l' ih =>
    cases a with
    | start n => simp [starts] at h2
    | cancel =>
      refine ih h2 _ ?_
      simp only [St.step, St.cancel]
      split <;> simp [h0]
    | tick n => exact ih h2 _ h0
    | expire =>
      refine ih h2 _ ?_
      simp [St.step, St.expire, h0]
    | callback =>
      refine ih h2 _ ?_
      simp only [St.step, St.callback]
      split <;> (try split) <;> simp [h0]

/-- Finding: if it is started again and the callback of the first wait has run, `cancel` finds the timer not active and
    does not end the second wait, which keeps the timer and its connection until the time has come. -/
theorem cancel_leaves_wait : (run [.start 10, .start 100, .callback, .cancel]).pending = 1 ∧
    (run [.start 10, .start 100, .callback, .cancel, .tick 99, .expire]).pending = 1 := by decide

/-- Finding: a timer that was cancelled once never times out again, although it can be started. -/
theorem cancelled_unusable (l l' : List Act) (hc : (run l).cancelled = true) :
    Ev.connCancel ∈ (run (l ++ l')).log → Ev.connCancel ∈ (run l).log := by
  have key : ∀ (l' : List Act) (s : St), s.cancelled = true → Ev.connCancel ∈ (l'.foldl St.step s).log →
      Ev.connCancel ∈ s.log := by
    intro l'
    induction l' with
    | nil => intro s _ h; exact h
    | cons a l' ih =>
      intro s hs h
      have h1 : (s.step a).cancelled = true := by
        cases a with
        | start n => exact hs
        | cancel => simp only [St.step, St.cancel]; split <;> rfl
        | tick n => exact hs
        | expire => simp only [St.step, St.expire]; split <;> exact hs
        | callback => simp only [St.step, St.callback]; split <;> exact hs
      have h2 := ih _ h1 h
      cases a with
      | start n => simpa [St.step, St.start] using h2
      | cancel => simp only [St.step, St.cancel] at h2; split at h2 <;> simpa using h2
      | tick n => exact h2
      | expire => simp only [St.step, St.expire] at h2; split at h2 <;> simpa using h2
      | callback =>
        simp only [St.step, St.callback] at h2
        split at h2
        · simpa [hs] using h2
        · exact h2
  intro h
  exact key l' (run l) hc (by simpa [run, List.foldl_append] using h)

end Verif.Props.Timer
