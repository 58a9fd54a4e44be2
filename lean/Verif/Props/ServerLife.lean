import Verif.Lemmas.ServerLifeRuns
/-
C86: servers that share a scheduler, started, stopped, joined and destroyed by any threads while its threads handle
their connections.
-/
namespace Verif.Props.ServerLife
open Verif.ServerLife Verif.Spec.ServerLife

/- Careful use. -/

/-- C86, partially: the scheduler runs while a server that was started listens, and while a connection of it is not
    finished. Missing: calls that overlap in the ways `Careful` excludes. -/
theorem scheduler_runs_partial {W : List Nat} {s : St} (hr : Reach W Careful s) {v : Nat}
    (hs : ∀ i, starts (s.pc i) ≠ some v) (h : s.listening v = true ∨ ∃ c, s.owner c = v ∧ Alive s c) :
    s.running = true := by
  have hi := inv hr
  rcases h with h | ⟨c, ho, hc⟩
  · exact hi.runReg v (.inl ⟨h, hs⟩)
  · rcases hi.alive c hc with h | ⟨i, h⟩
    · rw [ho] at h; exact hi.runReg v (.inl ⟨h, hs⟩)
    · rw [ho] at h; exact hi.runReg v (.inr ⟨i, h⟩)

/-- C86, partially: so a client of such a server is served: there is an accept pending, and any thread of the scheduler
    that has nothing else to do takes the connection up, after which the next accept is pending. -/
theorem client_served_partial {W : List Nat} {s : St} (hr : Reach W Careful s) {v w : Nat} (hl : s.listening v = true)
    (hs : ∀ i, starts (s.pc i) ≠ some v) (hw : w ∈ W) (hp : s.pc w = .idle) (hf : s.free w = true) :
    ∃ c s', s.owner c = v ∧ s.status c = .accepting ∧ s.step W w (.accept c true) = some s' ∧
      s'.status c = .handled w ∧ ∃ d, s'.owner d = v ∧ s'.status d = .accepting := by
  have hrun := scheduler_runs_partial hr hs (.inl hl)
  obtain ⟨c, ho, hc⟩ := pending hr v hl (fun i h => hs i (by rw [h]; rfl))
  have hrd : s.ready W w = true := by simp [St.ready, hw, hrun, hp, hf]
  obtain ⟨s', hst⟩ : ∃ s', s.step W w (.accept c true) = some s' := by simp [St.step, hrd, hc]
  refine ⟨c, s', ho, hc, hst, ?_, ?_⟩
  · simp only [St.step, hrd, hc, and_self, if_true] at hst
    cases hst; simp
  · refine pending (hr.step (by trivial) hst) v ?_ ?_
    · simp only [St.step, hrd, hc, and_self, if_true] at hst
      cases hst
      show ((s.use _).listen _).listening v = true
      rw [(listen_eq _ _).2.1]; exact hl
    · simp only [St.step, hrd, hc, and_self, if_true] at hst
      cases hst
      intro i h
      have h : ((s.use (s.owner c)).listen (s.owner c)).pc i = .startListen v := h
      rw [(listen_eq _ _).1] at h
      have h : s.pc i = .startListen v := h
      exact hs i (by rw [h]; rfl)

/-- C86, partially: `shutdown` returns only when every server has been stopped and all their connections are
    finished. -/
theorem shutdown_after_all_partial {W : List Nat} {s s' : St} (hr : Reach W Careful s) {t : Nat} {a : Act}
    (hs : s.step W t a = some s') (hl : s'.log = s.log ++ [.shutdown]) :
    s'.running = false ∧ (∀ v, s'.listening v = false) ∧ ∀ c, ¬ Alive s' c := by
  have hi := inv hr
  obtain ⟨hp, _, he⟩ := shutdown_event hs hl
  have hrun := hi.heldRun (hi.heldOf t hp)
  have hno : ∀ v, ¬ Reg s v := fun v h => by rw [hi.runReg v h] at hrun; cases hrun
  have hst : ∀ i v, starts (s.pc i) ≠ some v := by
    intro i v h
    have := hi.calm i t v h
    rw [hp] at this; cases this
  have hli : ∀ v, s.listening v = false := by
    intro v
    cases h : s.listening v
    · rfl
    · exact absurd (.inl ⟨h, fun i => hst i v⟩) (hno v)
  subst he
  refine ⟨hrun, hli, fun c hc => ?_⟩
  rcases hi.alive c hc with h | ⟨i, h⟩
  · rw [hli] at h; cases h
  · exact hno _ (.inr ⟨i, h⟩)

/-- C86, partially: when `stop` or the destructor of a server returns, whether it found the server listening or not, the
    server does not listen and all its connections are finished. -/
theorem stop_returned_partial {W : List Nat} {s s' : St} (hr : Reach W Careful s) {t v : Nat} {a : Act} {found : Bool}
    (ho : Careful s t a) (hs : s.step W t a = some s')
    (hl : s'.log = s.log ++ [.stopped v found] ∨ s'.log = s.log ++ [.destroyed v]) :
    s'.listening v = false ∧ ∀ c, s'.owner c = v → ¬ Alive s' c := by
  have key : s'.listening v = false ∧ ∀ i, stops (s'.pc i) ≠ some v := by
    rcases hl with hl | hl
    · exact stopped_event (inv hr) ho hs (.inl ⟨found, rfl⟩) hl
    · exact stopped_event (inv hr) ho hs (.inr rfl) hl
  refine ⟨key.1, fun c hc ha => ?_⟩
  rcases (inv (hr.step ho hs)).alive c ha with h | ⟨i, h⟩
  · rw [hc, key.1] at h; cases h
  · rw [hc] at h; exact key.2 i h

/-- C86, partially: a server that was destroyed is not used any more, neither by a call that was still running nor by
    the handlers of its connections. -/
theorem not_used_after_destroyed_partial {W : List Nat} {s : St} (hr : Reach W Careful s) : s.bad = false :=
  (inv hr).good

/-- C86, partially: a `stop` (or destructor) that waits can always return, as soon as one thread of the scheduler has
    nothing else to do and no handler of the server's connections is stuck in a call: the scheduler runs, so that the
    pending accept is aborted and the other connections can be finished. This holds whether their clients want to keep them
    (`keep`) or not: each is handled at most once more. -/
theorem stop_can_return_partial (keep : Bool) {W : List Nat} {s : St} (hr : Reach W Careful s) {t v w : Nat} {g : Bool}
    (ht : s.pc t = .stopLoop v g) (hw : w ∈ W) (hp : s.pc w = .idle) (hf : s.free w = true)
    (hh : ∀ c i, s.owner c = v → s.status c = .handled i → s.pc i = .idle) :
    ∃ acts s', (∀ x ∈ acts, x = (t, .go) ∨ ∃ c, x.2 = .accept c false ∨ x.2 = .handle c ∨ x.2 = .finish c keep) ∧
      s.run W acts = some s' ∧ s'.pc t = .idle ∧
      s'.log = s.log ++ [if g then .destroyed v else .stopped v true] :=
  stop_finishes keep (inv hr) ht hw hp hf hh

/-- C86, partially: no notification of the end of the last server is lost. A thread that waits in `shutdown` without
    having been notified waits for a server that listens or is being stopped. -/
theorem shutdown_not_stuck_partial {W : List Nat} {s : St} (hr : Reach W Careful s) {t : Nat}
    (h : s.pc t = .shutWait false) : ∃ v, s.listening v = true ∨ ∃ i, stops (s.pc i) = some v := by
  have hi := inv hr
  obtain ⟨r, _, h2, h3⟩ := hi.regs
  have hu := hi.noteU t h
  cases r with
  | nil => exact absurd (UInt32.toNat_inj.1 h2) hu
  | cons v r =>
    refine ⟨v, ?_⟩
    rcases (h3 v).1 (by simp) with h | h
    · exact .inl h.1
    · exact .inr h

/-- C86, partially: when all servers have been stopped and the threads of the scheduler have nothing to do, a thread in
    `shutdown` returns in its next two steps. -/
theorem shutdown_returns_partial {W : List Nat} {s : St} (hr : Reach W Careful s) {t : Nat} {b : Bool}
    (h : s.pc t = .shutWait b) (hh : s.held = false) (hs : ∀ v, s.listening v = false ∧ ∀ i, stops (s.pc i) ≠ some v)
    (he : ∀ w ∈ W, s.pc w = .idle ∧ s.free w = true) :
    ∃ s', s.run W [(t, .go), (t, .go)] = some s' ∧ s'.log = s.log ++ [.shutdown] := by
  have hi := inv hr
  have hu : s.users = 0 := by
    obtain ⟨r, _, h2, h3⟩ := hi.regs
    cases r with
    | nil => exact UInt32.toNat_inj.1 h2
    | cons v r =>
      rcases (h3 v).1 (by simp) with h | ⟨i, h⟩
      · rw [(hs v).1] at h; exact absurd h.1 (by simp)
      · exact absurd h ((hs v).2 i)
  have htW : t ∉ W := fun hw => by have := (he t hw).1; rw [h] at this; cases this
  have h1 : s.step W t .go = some { s with running := false, held := true, pc := set s.pc t .shutJoin } := by
    simp [St.step, St.go, h, hh, St.shutRound, hu]
  have hend : ({ s with running := false, held := true, pc := set s.pc t .shutJoin } : St).ended W = true := by
    unfold St.ended
    rw [List.all_eq_true]
    intro w hw
    have hne : w ≠ t := by rintro rfl; exact htW hw
    have h2 := (he w hw).2
    unfold St.free at h2 ⊢
    simp only [set_apply, if_neg hne, (he w hw).1, beq_self_eq_true, Bool.true_and]
    exact h2
  refine ⟨{ s with running := false, held := false, pc := set (set s.pc t .shutJoin) t .idle, log := s.log ++ [.shutdown] }, ?_, rfl⟩
  simp only [St.run, h1]
  simp only [St.step, St.go, set_same, hend, if_true]

/- `join`, without any contract. -/

/-- C86: `join` returns only when the server does not listen, and its notification is not lost: a thread that waits in
    it without having been notified waits for a server that listens or is being stopped. -/
theorem join_returns {W : List Nat} {s : St} (hr : Reach W Any s) :
    (∀ t a s' v, s.step W t a = some s' → s'.log = s.log ++ [.joined v] → s'.listening v = false) ∧
    (∀ i v, s.pc i = .joinWait v false → s.listening v = true ∨ ∃ j, stops (s.pc j) = some v) :=
  ⟨fun _ _ _ _ hs hl => (joined_event hs hl).1, joinOk hr⟩

/-- C86, partially: a `join` that has to wait returns only after a `stop` or the destructor of the server has returned.
    Missing: a `join` called while `stop` is waiting, and threads that wake without having been notified. -/
theorem join_waits_partial {W : List Nat} {s s1 s2 s' : St} {t v : Nat} {a : Act} (hj : s.step W t (.join v) = some s1)
    (hw : s1.pc t = .joinWait v false) (hr : Steps W Notified s1 s2) (hn : Notified s2 t a)
    (hs : s2.step W t a = some s') (_ : s'.log = s2.log ++ [.joined v]) :
    ∃ l, s2.log = s.log ++ l ∧ (.stopped v true ∈ l ∨ .destroyed v ∈ l) := by
  have he : s1.log = s.log := by
    simp only [St.step] at hj
    split at hj
    · cases hj
      unfold St.joinRound at hw ⊢
      split
      · rfl
      · rename_i hlis
        simp [hlis] at hw
    · cases hj
  obtain ⟨l, h1, h2⟩ := join_steps hw hr
  refine ⟨l, by rw [h1, he], ?_⟩
  rcases h2 with h2 | h2
  · by_cases ha : a = .go
    · exact absurd h2 ((hn ha).1 v)
    · exact (idle_only (by rw [h2]; simp) ha hs).elim
  · exact h2

/- Findings. -/

/-- Finding: `stop` (or the destructor) of a server, called by a handler of one of its own connections, never returns,
    whatever the other threads do: it waits for the connection that waits for it. -/
theorem stop_in_handler_never_returns {W : List Nat} {ok : St → Nat → Act → Prop} {s s' : St} (hr : Reach W ok s)
    {t v c : Nat} {g : Bool} (hp : s.pc t = .stopLoop v g) (hc : s.status c = .handled t) (ho : s.owner c = v)
    {acts : List (Nat × Act)} (hrun : s.run W acts = some s') : s'.pc t = .stopLoop v g ∧ Alive s' c := by
  obtain ⟨h1, h2⟩ := self_stop_run (fresh hr) hp hc ho hrun
  exact ⟨h1, by rw [h2]; simp, by rw [h2]; simp⟩

/-- Finding: without the scheduler a server cannot be stopped. While it does not run, and no thread is going to start it,
    the accept that is pending is never aborted, and no `stop` of the server that finds it listening returns. -/
theorem stop_needs_scheduler {W : List Nat} {ok : St → Nat → Act → Prop} {s s' : St} (hr : Reach W ok s) {v : Nat}
    (hrun : s.running = false) (hst : ∀ i, starts (s.pc i) = none) (hl : s.listening v = true)
    {acts : List (Nat × Act)} (ha : ∀ x ∈ acts, x.2 ≠ .startup ∧ ∀ w, x.2 ≠ .start w) (h : s.run W acts = some s') :
    s'.log.count (.stopped v true) = s.log.count (.stopped v true) := by
  obtain ⟨c, ho, hc⟩ := pending hr v hl (fun i h => by have := hst i; rw [h] at this; cases this)
  exact (asleep_run (fresh hr) ⟨hrun, hst⟩ hc ho ha h).2

/-- Finding: `start` registers the server with the scheduler only after it listens. If another thread shuts the
    scheduler down after `start` has seen that it runs, `start` returns with a server that listens and that nobody
    serves; by `stop_needs_scheduler` it cannot be stopped (and so not be destroyed) either. -/
theorem server_without_scheduler : ∃ s, Reach [1] Any s ∧ .started 0 ∈ s.log ∧ s.listening 0 = true ∧ s.running = false ∧
    s.users = 1 ∧ ∀ i, starts (s.pc i) = none := by
  obtain ⟨s, hr, hi, h⟩ := any_state (W := [1])
    (as := [(2, .startup), (0, .start 0), (0, .go), (0, .go), (2, .shutdown), (2, .go), (0, .go)])
    (f := fun s => ((s.log, s.listening 0, s.running), s.users, starts (s.pc 0), starts (s.pc 2)))
    (x := (([.shutdown, .started 0], true, false), 1, none, none)) (by decide +kernel)
  simp only [Prod.mk.injEq] at h
  refine ⟨s, hr, by rw [h.1.1]; simp, h.1.2.1, h.1.2.2, h.2.1, fun i => ?_⟩
  by_cases h0 : i = 0
  · subst h0; exact h.2.2.1
  · by_cases h2 : i = 2
    · subst h2; exact h.2.2.2
    · rw [hi i (by simp [h0, h2])]; rfl

/-- Finding: a `stop` in another thread can find the server listening before `start` has registered it. The counter of
    users becomes 2^32 - 1, and zero again when `start` goes on, of which nobody is notified: a `shutdown` called
    meanwhile waits although there is no server left. -/
theorem shutdown_stuck : ∃ s, Reach [1] Any s ∧ s.pc 3 = .shutWait false ∧ s.users = 0 ∧ s.log = [.stopped 0 true, .started 0] ∧
    (∀ i, i ≠ 3 → s.pc i = .idle) ∧ s.listening 0 = false := by
  obtain ⟨s, hr, hi, h⟩ := any_state (W := [1])
    (as := [(0, .startup), (0, .start 0), (2, .stop 0), (3, .shutdown), (0, .go), (0, .go), (0, .go)])
    (f := fun s => (s.pc 3, s.users, s.log, s.pc 0, s.pc 2, s.listening 0))
    (x := (.shutWait false, 0, [.stopped 0 true, .started 0], .idle, .idle, false)) (by decide +kernel)
  simp only [Prod.mk.injEq] at h
  refine ⟨s, hr, h.1, h.2.1, h.2.2.1, fun i h3 => ?_, h.2.2.2.2.2⟩
  by_cases h0 : i = 0
  · subst h0; exact h.2.2.2.1
  · by_cases h2 : i = 2
    · subst h2; exact h.2.2.2.2.1
    · exact hi i (by simp [h0, h2, h3])

/-- Finding: `join` called while `stop` is waiting returns at once, a connection being handled. A program that now
    destroys the server does so while `stop` and the handler still use it. -/
theorem join_returns_early : ∃ s, Reach [1] Careful s ∧ s.log = [.started 0, .joined 0] ∧ s.status 0 = .handled 1 ∧
    s.pc 2 = .stopLoop 0 false ∧
    ((s.step [1] 0 (.destroy 0)).bind fun s1 => s1.step [1] 2 .go).map (fun s2 => s2.bad) = some true ∧
    ((s.step [1] 0 (.destroy 0)).bind fun s1 => s1.step [1] 1 (.finish 0 false)).map (fun s2 => s2.bad) = some true := by
  obtain ⟨s, hr, -, h⟩ := careful_state (W := [1]) (T := [0, 1, 2])
    (as := [(0, .start 0), (0, .go), (0, .go), (0, .go), (0, .go), (1, .accept 0 true), (2, .stop 0), (0, .join 0)])
    (f := fun s => (s.log, s.status 0, s.pc 2,
      ((s.step [1] 0 (.destroy 0)).bind fun s1 => s1.step [1] 2 .go).map (fun s2 => s2.bad),
      ((s.step [1] 0 (.destroy 0)).bind fun s1 => s1.step [1] 1 (.finish 0 false)).map (fun s2 => s2.bad)))
    (x := ([.started 0, .joined 0], .handled 1, .stopLoop 0 false, some true, some true)) (by decide +kernel)
  simp only [Prod.mk.injEq] at h
  exact ⟨s, hr, h.1, h.2.1, h.2.2.1, h.2.2.2.1, h.2.2.2.2⟩

/- Cases that meet the hypotheses. -/

/-- Two servers are started; one has a connection whose next request is awaited. -/
def twoServers : List (Nat × Act) :=
  [(0, .start 0), (0, .go), (0, .go), (0, .go), (0, .go), (2, .start 1), (2, .go), (2, .go), (2, .go),
   (1, .accept 0 true), (1, .await 0)]

/-- `scheduler_runs_partial`, `client_served_partial`: both servers listen, the scheduler has two users, the first
    connection waits. -/
example : (carefulRun [1] [0, 1, 2] {} twoServers).map (fun s => (s.listening 0, s.listening 1, s.users, s.log)) =
    some (true, true, 2, [.started 0, .started 1]) := by decide +kernel
example : (carefulRun [1] [0, 1, 2] {} twoServers).map (fun s => [0, 1, 2].map fun c => (s.owner c, s.status c)) =
    some [(0, .waiting), (1, .accepting), (0, .accepting)] := by decide +kernel

/-- `stop_can_return_partial`, `shutdown_not_stuck_partial`: a `stop` waits for a connection and for the pending accept,
    and a `shutdown` waits for both servers. -/
example : (carefulRun [1] [0, 1, 2, 3] {} (twoServers ++ [(0, .stop 0), (3, .shutdown)])).map (fun s =>
      (s.pc 0, s.pc 3, s.pc 1, s.free 1, s.status 0)) =
    some (.stopLoop 0 false, .shutWait false, .idle, true, .waiting) := by decide +kernel

/-- `stop_returned_partial`, `shutdown_after_all_partial`, `shutdown_returns_partial`: the handlers finish the
    connections, both servers are stopped, one by its destructor, and the scheduler is shut down. -/
example : (carefulRun [1] [0, 1, 2, 3] {} (twoServers ++ [(0, .stop 0), (3, .shutdown), (1, .handle 0), (1, .finish 0 true),
      (1, .accept 2 false), (0, .go), (2, .destroy 1), (1, .accept 1 false), (2, .go), (3, .go), (3, .go)])).map (fun s =>
      ((s.log, s.users, s.running), s.status 0, s.status 1, s.status 2, s.gone 1)) =
    some (([.started 0, .started 1, .stopped 0 true, .destroyed 1, .shutdown], 0, false), .finished, .finished, .finished, true) := by
  decide +kernel

/-- `join_waits_partial`: a `join` waits, is notified when `stop` returns, and returns. -/
example : (carefulRun [1] [0, 1, 2, 3] {} (twoServers ++ [(3, .join 1), (2, .stop 1), (1, .accept 1 false), (2, .go)])).map
      (fun s => (s.pc 3, s.log, (s.step [1] 3 .go).map (fun s' => s'.log))) =
    some (.joinWait 1 true, [.started 0, .started 1, .stopped 1 true],
      some [.started 0, .started 1, .stopped 1 true, .joined 1]) := by decide +kernel

/-- `stop_in_handler_never_returns`: the handler of a connection calls `stop`. -/
example : (carefulRun [1] [0, 1, 2] {} (twoServers ++ [(1, .handle 0), (1, .stop 0)])).map (fun s =>
      (s.pc 1, s.status 0, s.owner 0)) = some (.stopLoop 0 false, .handled 1, 0) := by decide +kernel

/-- `not_used_after_destroyed_partial`: a server can be started again after it was stopped, and destroyed. -/
example : (carefulRun [1] [0, 1] {} [(0, .start 0), (0, .go), (0, .go), (0, .go), (0, .go), (0, .stop 0),
      (1, .accept 0 false), (0, .go), (0, .start 0), (0, .go), (0, .go), (0, .go), (0, .destroy 0), (1, .accept 1 true),
      (1, .drop 1), (0, .go)]).map (fun s => (s.log, s.gone 0, s.bad, s.status 1)) =
    some ([.started 0, .stopped 0 true, .started 0, .destroyed 0], true, false, .finished) := by decide +kernel

end Verif.Props.ServerLife
