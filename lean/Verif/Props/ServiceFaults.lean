import Verif.Lemmas.ServiceFaults
/-
C98. Services that throw when they are started or stopped.
-/
namespace Verif.Props.ServiceFaults
open Verif.ServiceFaults Verif.Spec.ServiceFaults

/-- `start` of a server that does not listen: either it returns, and then every service was started once, in their order, and the
    server listens and keeps the scheduler alive; or it throws, and then the server does not listen and does not keep the scheduler
    alive. It throws exactly if a service did, in which case no later service is started, or if the address cannot be bound. -/
theorem start_result (throws : Nat → Bool) (s : St) (binds : Bool) (hl : s.listening = false) :
    ∃ t r, s.step throws (.start binds) = (t, r) ∧ t.services = s.services ∧ t.waiting = s.waiting ∧ t.woken = s.woken ∧
      ((r = .returned ∧ binds = true ∧ t.listening = true ∧ t.users = s.users + 1 ∧ t.log = s.log ++ s.services.map .started ∧
          ∀ i < s.services.length, throws (s.calls + i) = false) ∨
        (r = .threw ∧ t.listening = false ∧ t.users = s.users ∧
          ((∃ pre o post, s.services = pre ++ o :: post ∧ throws (s.calls + pre.length) = true ∧
              t.log = s.log ++ pre.map .started ++ [.startThrew o]) ∨
            (binds = false ∧ t.log = s.log ++ s.services.map .started)))) := by
  show ∃ t r, s.start throws binds = (t, r) ∧ _
  unfold St.start
  simp only [hl, Bool.false_eq_true, if_false]
  rcases runAll_spec throws .started .startThrew s.services s with ⟨e, hn⟩ | ⟨pre, o, post, e, e1, e2⟩
  · rw [e]
    cases binds with
    | true => exact ⟨_, _, rfl, rfl, rfl, rfl, .inl ⟨rfl, rfl, rfl, rfl, rfl, hn⟩⟩
    | false => exact ⟨_, _, rfl, rfl, rfl, rfl, .inr ⟨rfl, hl, rfl, .inr ⟨rfl, rfl⟩⟩⟩
  · rw [e1]
    exact ⟨_, _, rfl, rfl, rfl, rfl, .inr ⟨rfl, hl, rfl, .inl ⟨pre, o, post, e, e2, rfl⟩⟩⟩

/-- `stop` of a server that listens: in any case it does not listen afterwards and does not keep the scheduler alive. Either it returns,
    and then every service was stopped once, and the threads in `join` are woken; or it throws, exactly if a service did. -/
theorem stop_result (throws : Nat → Bool) (s : St) (hl : s.listening = true) :
    ∃ t r, s.step throws .stop = (t, r) ∧ t.services = s.services ∧ t.listening = false ∧ t.users = s.users - 1 ∧
      ((r = .returned ∧ t.log = s.log ++ s.services.map .stopped ∧ t.waiting = 0 ∧ t.woken = s.woken + s.waiting ∧
          ∀ i < s.services.length, throws (s.calls + i) = false) ∨
        (r = .threw ∧ t.waiting = s.waiting ∧ t.woken = s.woken ∧
          ∃ pre o post, s.services = pre ++ o :: post ∧ throws (s.calls + pre.length) = true ∧
            t.log = s.log ++ pre.map .stopped ++ [.stopThrew o])) := by
  show ∃ t r, s.stop throws = (t, r) ∧ _
  unfold St.stop
  simp only [hl, if_true]
  rcases runAll_spec throws .stopped .stopThrew s.services { s with listening := false, users := s.users - 1 } with
    ⟨e, hn⟩ | ⟨pre, o, post, e, e1, e2⟩
  · rw [e]
    exact ⟨_, _, rfl, rfl, rfl, rfl, .inl ⟨rfl, rfl, rfl, rfl, hn⟩⟩
  · rw [e1]
    exact ⟨_, _, rfl, rfl, rfl, rfl, .inr ⟨rfl, rfl, rfl, pre, o, post, e, e2, rfl⟩⟩

/-- Whatever was thrown before: a server that does not listen can be started, if now no service throws and the address can be bound. -/
theorem can_start_again (throws : Nat → Bool) (s : St) (hl : s.listening = false) (h : ∀ i < s.services.length, throws (s.calls + i) = false) :
    ∃ t, s.step throws (.start true) = (t, .returned) ∧ t.listening = true ∧ t.log = s.log ++ s.services.map .started := by
  obtain ⟨t, r, e, _, _, _, ⟨rfl, _, h1, _, h2, _⟩ | ⟨_, _, _, ⟨pre, o, post, h1, h2, _⟩ | ⟨h1, _⟩⟩⟩ := start_result throws s true hl
  · exact ⟨t, e, h1, h2⟩
  · have := h pre.length (by rw [h1]; simp)
    rw [this] at h2; exact nomatch h2
  · exact nomatch h1

/-- Whatever services throw and whatever is called: while the server listens, `start` of every service has returned and nothing has
    happened to the service since; `stop` of a service is called only then; and the server keeps the scheduler alive exactly while it
    listens. -/
theorem serving_started (throws : Nat → Bool) (ops : List Op) (h : Early throws {} ops) :
    let s := St.run throws {} ops
    (s.listening = true → ∀ o ∈ s.services, latest o s.log = some (.started o)) ∧
    (∀ pre post o, (s.log = pre ++ .stopped o :: post ∨ s.log = pre ++ .stopThrew o :: post) → latest o pre = some (.started o)) ∧
    s.users = if s.listening then 1 else 0 := by
  have := good_run ops good_init h
  exact ⟨this.started, this.stops, this.users⟩

/-- What is wanted: `start` either starts the whole server or leaves nothing started. What is proved is `start_result`; this is missing,
    because the services before the one that throws stay started. Whatever is called afterwards, other than `start`: no service is
    stopped. -/
theorem left_started_partial (throws : Nat → Bool) (s : St) (binds : Bool) (hl : s.listening = false)
    (hr : (s.step throws (.start binds)).2 = .threw) (ops : List Op) (ho : ∀ b, .start b ∉ ops) :
    ∃ m, ((s.step throws (.start binds)).1.run throws ops).log = (s.step throws (.start binds)).1.log ++ m ∧
      ∀ e ∈ m, e = .joined ∨ ∃ o, e = .destroyed o := by
  obtain ⟨t, r, e, _, _, _, ⟨rfl, _⟩ | ⟨_, h1, _⟩⟩ := start_result throws s binds hl
  · rw [e] at hr; exact nomatch hr
  · rw [e]
    exact (rests_run ops (rests_refl h1) ho).log

/-- Services that were started before another one threw are destroyed without having been stopped, by `clear` and by the destructor. -/
theorem destroyed_started (throws : Nat → Bool) (s : St) (binds : Bool) (hl : s.listening = false) (hn : s.services.Nodup)
    {pre post : List Nat} {o : Nat} (hs : s.services = pre ++ o :: post)
    (hp : ∀ i < pre.length, throws (s.calls + i) = false) (ht : throws (s.calls + pre.length) = true) (a : Op)
    (ha : a = .clear ∨ a = .destroy) :
    let t := (s.step throws (.start binds)).1
    (s.step throws (.start binds)).2 = .threw ∧ (∀ p ∈ pre, latest p t.log = some (.started p)) ∧
      t.step throws a = ({ t with services := [], log := t.log ++ s.services.map .destroyed }, .returned) := by
  obtain ⟨t, r, e, h0, _, _, ⟨rfl, _, _, _, _, h1⟩ | ⟨rfl, h1, h2, ⟨pre', o', post', h3, h4, h5⟩ | ⟨_, h5⟩⟩⟩ := start_result throws s binds hl
  · have := h1 pre.length (by rw [hs]; simp)
    rw [this] at ht; exact nomatch ht
  · have hlen : ¬ pre'.length < pre.length := by
      intro hlt
      have := hp _ hlt
      rw [this] at h4; exact nomatch h4
    have hcut : ∀ p ∈ pre, p ∈ pre' := by
      intro p hp
      rw [hs] at h3
      rcases List.append_eq_append_iff.1 h3 with ⟨c, rfl, _⟩ | ⟨c, rfl, _⟩
      · simp [hp]
      · cases c with
        | nil => simpa using hp
        | cons x c => exact absurd (by simp) hlen
    rw [e]
    refine ⟨rfl, ?_, ?_⟩
    · intro p hpm
      dsimp only
      rw [h5, latest_append_none]
      · exact latest_started _ _ (hcut p hpm)
      · intro x hx
        simp only [List.mem_singleton] at hx
        subst hx
        have : o' ≠ p := by
          rintro rfl
          rw [h3] at hn
          exact (List.nodup_append.1 hn).2.2 o' (hcut o' hpm) o' (by simp) rfl
        simpa [about] using this
    · dsimp only
      rcases ha with rfl | rfl <;> simp [St.step, St.clear, St.stop, h1, h0]
  · rw [e]
    refine ⟨rfl, ?_, ?_⟩
    · intro p hpm
      dsimp only
      rw [h5]
      exact latest_started _ _ (by rw [hs]; simp [hpm])
    · dsimp only
      rcases ha with rfl | rfl <;> simp [St.step, St.clear, St.stop, h1, h0]

/-- The second service throws when it is started. The first is started again by the next `start`, or destroyed while it is started. -/
theorem started_twice :
    ∃ throws : Nat → Bool,
      (St.run throws {} [.add 1 0, .add 2 1, .start true, .start true]).log = [.started 1, .startThrew 2, .started 1, .started 2] ∧
      (St.run throws {} [.add 1 0, .add 2 1, .start true, .destroy]).log =
        [.started 1, .startThrew 2, .destroyed 1, .destroyed 2] :=
  ⟨fun n => n == 1, by decide +kernel, by decide +kernel⟩

/-- A service that throws when it is stopped leaves the threads in `join` asleep although the server does not listen: whatever is called
    afterwards, other than `start`, none of them returns, and no further service is stopped. -/
theorem join_sleeps (throws : Nat → Bool) (s : St) (hl : s.listening = true) (hr : (s.step throws .stop).2 = .threw) (ops : List Op)
    (ho : ∀ b, .start b ∉ ops) :
    let t := (s.step throws .stop).1.run throws ops
    t.listening = false ∧ t.waiting = s.waiting ∧
      ∃ m, t.log = (s.step throws .stop).1.log ++ m ∧ ∀ e ∈ m, e = .joined ∨ ∃ o, e = .destroyed o := by
  obtain ⟨t, r, e, _, h1, _, ⟨rfl, _⟩ | ⟨_, h2, _⟩⟩ := stop_result throws s hl
  · rw [e] at hr; exact nomatch hr
  · rw [e]
    have := rests_run ops (throws := throws) (rests_refl h1) ho
    exact ⟨this.listening, by rw [this.waiting, h2], this.log⟩

/-- The destructor of a server that listens ends the process exactly if a service throws when it is stopped; otherwise it stops and then
    destroys every service once. -/
theorem destructor (throws : Nat → Bool) (s : St) (hl : s.listening = true) :
    ((∃ i < s.services.length, throws (s.calls + i) = true) ∧ (s.step throws .destroy).2 = .terminates) ∨
    ((∀ i < s.services.length, throws (s.calls + i) = false) ∧ (s.step throws .destroy).2 = .returned ∧
      (s.step throws .destroy).1.log = s.log ++ s.services.map .stopped ++ s.services.map .destroyed ∧
      (s.step throws .destroy).1.services = []) := by
  obtain ⟨t, r, e, h0, h1, _, ⟨rfl, h2, _, _, h3⟩ | ⟨rfl, _, _, pre, o, post, h2, h3, _⟩⟩ := stop_result throws s hl
  · right
    replace e : s.stop throws = (t, .returned) := e
    refine ⟨h3, ?_, ?_, ?_⟩ <;> simp [St.step, St.clear, e, h2, h0]
  · left
    replace e : s.stop throws = (t, .threw) := e
    exact ⟨⟨pre.length, by rw [h2]; simp, h3⟩, by simp [St.step, St.clear, e]⟩

/-- What a thread in `join` does when it is woken: it returns if the server does not listen, else it sleeps on. -/
theorem join_returns (throws : Nat → Bool) (s : St) (hw : s.woken ≠ 0) :
    ((s.step throws .wake).1.log = s.log ++ [.joined] ↔ s.listening = false) ∧
      (s.step throws .wake).1.woken + 1 = s.woken ∧
      (s.step throws .wake).1.waiting = if s.listening then s.waiting + 1 else s.waiting := by
  obtain ⟨n, hn⟩ := Nat.exists_eq_succ_of_ne_zero hw
  cases hl : s.listening <;> simp [St.step, hl, hn]

/-- Three services, the second throws when it is stopped: the third is never stopped, and the thread that waits in `join` is still there
    after another `stop` and `clear`, which destroys the third service while it is started. -/
example :
    let s := St.run (fun n => n == 4) {} [.add 1 0, .add 2 1, .add 3 2, .start true, .join, .stop, .wake, .stop, .clear, .wake]
    s.waiting = 1 ∧ s.listening = false ∧
      s.log = [.started 1, .started 2, .started 3, .stopped 1, .stopThrew 2, .destroyed 1, .destroyed 2, .destroyed 3] := by
  decide +kernel

/-- The process ends in the destructor. -/
example : ((St.run (fun n => n == 1) {} [.add 1 0, .start true]).step (fun n => n == 1) .destroy).2 = .terminates := by decide +kernel

/-- Nothing throws: everything is started, stopped and destroyed, and the thread returns. -/
example :
    (St.run (fun _ => false) {} [.add 2 0, .add 1 0, .start true, .join, .stop, .wake, .destroy]).log =
      [.started 1, .started 2, .stopped 1, .stopped 2, .joined, .destroyed 1, .destroyed 2] := by decide +kernel

/-- The hypotheses of `serving_started` hold of histories in which services throw. -/
example : Early (fun n => n == 1) {} [.add 1 0, .add 2 1, .start true, .start true, .stop, .add 3 0, .start true] ∧
    (St.run (fun n => n == 1) {} [.add 1 0, .add 2 1, .start true, .start true, .stop, .add 3 0, .start true]).listening = true := by
  refine ⟨?_, by decide +kernel⟩
  simp [Early, St.step, St.start, St.stop, runAll, about]

/-- The hypotheses of `left_started_partial` and `join_sleeps`. -/
example : ((St.run (fun n => n == 1) {} [.add 1 0, .add 2 1]).step (fun n => n == 1) (.start true)).2 = .threw ∧
    ((St.run (fun n => n == 1) {} [.add 1 0, .start true, .join]).step (fun n => n == 1) .stop).2 = .threw := by decide +kernel

end Verif.Props.ServiceFaults
