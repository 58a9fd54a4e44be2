import Verif.Spec.Workers
import Verif.Lemmas.Workers
/-
C80: the work given to a scheduler is executed, once and in order, by threads that go on until the scheduler is shut down.
-/
namespace Verif.Props.Workers

open Verif.Workers

/-- While a scheduler is started, its service has work and is not stopped, so `run` does not return except by the exception of a
    handler, and no thread has ended: whatever is posted, completes or throws. -/
theorem started_serves {k : Kind} {s : St} (h : Reach k s) (hr : s.running = true) :
    s.stopped = false ∧ 0 < s.work ∧ Worker.exited ∉ s.workers := by
  obtain ⟨h1, h2, h3⟩ := (reach_inv h).alive hr
  exact ⟨h2, Nat.lt_of_lt_of_le h1 (tokens_work s), h3⟩

/-- A scheduler started with `n` threads has `n` threads until it is shut down. -/
theorem threads_kept {k : Kind} {s s' : St} {n : Nat} {as : List Step} (h : Reach k s)
    (hs : run s (.startup n :: as) = some s') (ha : .stop ∉ as) :
    s'.running = true ∧ s'.workers.length = n ∧ Worker.exited ∉ s'.workers := by
  simp only [run, Option.bind_eq_some_iff] at hs
  obtain ⟨s1, h1, h2⟩ := hs
  have i1 := step_inv (reach_inv h) h1
  have hr1 : s1.running = true ∧ s1.workers.length = n := by
    simp only [step] at h1
    split at h1 <;> cases h1
    exact ⟨rfl, by simp⟩
  obtain ⟨f1, -, f3⟩ := run_tokens i1 hr1.1 ha h2
  exact ⟨f1, f3.trans hr1.2, ((run_inv i1 h2).alive f1).2.2⟩

/-- A single-service scheduler executes what it has accepted once and in order, and loses nothing, across any number of shutdowns and
    restarts: at every moment what was accepted is what has been executed followed by what is still ready. -/
theorem in_order {s : St} (h : Reach .single s) : s.accepted = s.executed ++ users s.queue := by
  obtain ⟨as, h⟩ := h
  exact run_order rfl h rfl

/-- Whatever the kind of the scheduler, what is executed was accepted, is executed once for each time it was accepted, and in that
    order. -/
theorem each_once {k : Kind} {s : St} (h : Reach k s) : s.executed.Sublist s.accepted := by
  obtain ⟨as, h⟩ := h
  exact (List.sublist_append_left _ _).trans (run_sub (s := { kind := k }) (List.Sublist.refl _) h)

/-- What is ready is executed: when one worker that is not kept from going on has made four steps for each handler that is ready, and
    three more, every handler that was ready has been executed, whatever the others do, throw and post. -/
theorem served {k : Kind} {s s' : St} {as : List Step} {t : Nat} (h : Reach k s) (hr : s.running = true)
    (ht : t < s.workers.length) (hs : run s as = some s') (ha : .stop ∉ as)
    (hn : 4 * s.queue.length + 3 ≤ as.countP (ofWorker t)) : s.executed ++ users s.queue <+: s'.executed := by
  have hw : s.workers[t]? = some s.workers[t] := List.getElem?_eq_getElem ht
  refine run_front (new := []) (reach_inv h) hr ha (by simp) hw hs ?_
  have := stage_le s.workers[t]
  omega

/-- When a handler is ready, a worker of a started scheduler that is not executing one can go on: none sleeps. -/
theorem not_asleep {k : Kind} {s : St} {t : Nat} {w : Worker} (h : Reach k s) (hr : s.running = true)
    (hw : s.workers[t]? = some w) (hq : s.queue ≠ []) : ∃ s', step s (.go t) = some s' := by
  have i := reach_inv h
  have hst := (i.alive hr).2.1
  cases w with
  | loop => by_cases h0 : s.work = 0 <;> exact ⟨_, by simp [step, St.go, hw, hr, h0]; rfl⟩
  | inRun =>
    obtain ⟨x, xs, hx⟩ := List.exists_cons_of_ne_nil hq
    cases x <;> exact ⟨_, by simp only [step, St.go, hw, hst, hx]; rfl⟩
  | handling x => cases x <;> exact ⟨_, by simp [step, St.go, hw, hr]; rfl⟩
  | rearm => exact ⟨_, by simp only [step, St.go, hw]; rfl⟩
  | exited => exact absurd (List.mem_of_getElem? hw) (i.alive hr).2.2

/-- When `shutdown` has returned, nothing is executed until the next startup, whatever is posted or completes. -/
theorem shutdown_quiet {s s1 s' : St} {as : List Step} (hj : step s .join = some s1)
    (hs : run s1 as = some s') (ha : ∀ n, .startup n ∉ as) : s'.executed = s.executed := by
  have h1 : s1.workers = [] ∧ s1.executed = s.executed := by
    simp only [step] at hj
    split at hj <;> [skip; cases hj]
    split at hj <;> cases hj <;> exact ⟨rfl, rfl⟩
  exact (run_rest h1.1 ha hs).trans h1.2

/-- Nor does a worker begin a handler once `shutdown` has stopped the service. -/
theorem stop_quiet {k : Kind} {s s' : St} {as : List Step} (h : Reach k s) (hs : run s (.stop :: as) = some s')
    (ha : .join ∉ as) : s'.executed = s.executed := by
  simp only [run, Option.bind_eq_some_iff] at hs
  obtain ⟨s1, h1, h2⟩ := hs
  have i1 := step_inv (reach_inv h) h1
  obtain ⟨hj, he⟩ : s1.joining = true ∧ s1.executed = s.executed := by
    simp only [step] at h1; split at h1 <;> cases h1; exact ⟨rfl, rfl⟩
  rw [← he]
  clear h h1 he s
  induction as generalizing s1 with
  | nil => cases h2; rfl
  | cons a as ih =>
    simp only [run, Option.bind_eq_some_iff] at h2
    obtain ⟨s2, h3, h4⟩ := h2
    have ha1 : a ≠ .join := fun e => ha (e ▸ List.mem_cons_self)
    obtain ⟨f1, -⟩ := step_closing i1 hj ha1 h3
    refine (ih (fun e => ha (List.mem_cons_of_mem _ e)) s2 h4 (step_inv i1 h3) f1).trans ?_
    have hst := (i1.joins hj).2
    cases a with
    | startup n => simp [step, hj] at h3
    | stop => simp [step, hj] at h3
    | join => exact absurd rfl ha1
    | post n => cases h3; rfl
    | initiate n => cases h3; rfl
    | complete n => simp only [step] at h3; split at h3 <;> cases h3; rfl
    | expire => simp only [step] at h3; split at h3 <;> cases h3; rfl
    | throw t => obtain ⟨n, hw, rfl⟩ := throw_cases h3; exact (finished_fields _).2.2.2.2.2.1
    | go t =>
      cases go_cases h3 with
      | user n q hw hs' => rw [hst] at hs'; cases hs'
      | dropped => exact (finished_fields _).2.2.2.2.2.1
      | done => exact (finished_fields _).2.2.2.2.2.1
      | _ => rfl

/-- `shutdown` ends: while it waits for the threads they make at most three steps each, and as long as one has not ended one can make a
    step, unless its handler does not return; when all have ended `shutdown` returns. -/
theorem shutdown_ends {k : Kind} {s s' : St} {as : List Step} (h : Reach k s) (hj : s.joining = true)
    (hs : run s as = some s') (ha : .join ∉ as) :
    as.countP ofAny ≤ 3 * s.workers.length ∧
      ((∃ t s1, step s' (.go t) = some s1) ∨ ∃ s1, step s' .join = some s1) := by
  have i := reach_inv h
  obtain ⟨f1, f2, f3⟩ := run_closing i hj ha hs
  refine ⟨by have := total_le closing_le s.workers; omega, ?_⟩
  by_cases hall : s'.workers.all (· = .exited)
  · right
    cases hk : s'.kind with
    | single => exact ⟨_, by simp only [step, hk]; rw [if_pos ⟨f1, hall⟩]⟩
    | oneToOne => exact ⟨_, by simp only [step, hk]; rw [if_pos ⟨f1, hall⟩]⟩
  · left
    simp only [List.all_eq_true, decide_eq_true_eq, not_forall] at hall
    obtain ⟨w, hw, hne⟩ := hall
    obtain ⟨t, ht⟩ := List.mem_iff_getElem?.1 hw
    obtain ⟨s1, h1⟩ := closing_enabled (run_inv i hs) f1 ht hne
    exact ⟨t, s1, h1⟩

/-- A handler that calls `shutdown` hangs: as long as a worker is in a handler no shutdown returns, so one called by that handler never
    does, whatever happens elsewhere. -/
theorem shutdown_in_handler_hangs {k : Kind} {s s' : St} {as : List Step} {t : Nat} {x : Handler} (h : Reach k s)
    (hw : s.workers[t]? = some (.handling x)) (hs : run s as = some s') (ha : as.countP (ofWorker t) = 0) :
    step s' .join = none := by
  have := run_held (reach_inv h) hw ha hs
  simp only [step]
  rw [if_neg]
  rintro ⟨-, hall⟩
  have := List.all_eq_true.1 hall _ (List.mem_of_getElem? this)
  simp at this

/-- (Missing: a scheduler started again, see `restart_spins`.) Started for the first time, a scheduler without work sleeps: its workers make at most four steps for each handler that is ready, and
    three each, before every one of them waits. -/
theorem idle_sleeps_partial {k : Kind} {s s' : St} {as : List Step} (h : Reach k s) (hr : s.running = true) (h1 : s.starts = 1)
    (hs : run s as = some s') (ha : ∀ a ∈ as, ∃ t, a = .go t) :
    as.length ≤ 4 * s.queue.length + 3 * s.workers.length := by
  have i := reach_inv h
  have ht : s.tokens ≤ 1 := h1 ▸ reach_starts h
  suffices as.length ≤ s.idle by
    have := total_le stage_le s.workers
    simp only [St.idle] at *; omega
  clear h h1
  induction as generalizing s with
  | nil => simp
  | cons a as ih =>
    simp only [run, Option.bind_eq_some_iff] at hs
    obtain ⟨s1, e1, e2⟩ := hs
    obtain ⟨t, rfl⟩ := ha a List.mem_cons_self
    obtain ⟨f1, f2, f3⟩ := go_idle i hr ht e1
    have := ih f1 e2 (fun a h => ha a (List.mem_cons_of_mem _ h)) (step_inv i e1) f2
    simp only [List.length_cons]; omega

/-- (Missing: a scheduler started again, see `timer_race`.) Started for the first time, no two threads use the timer of the scheduler at the same time. -/
theorem timer_alone_partial {k : Kind} {s : St} {t u : Nat} (h : Reach k s) (h1 : s.starts = 1)
    (ht : s.workers[t]? = some .rearm ∨ s.workers[t]? = some (.handling .keep))
    (hu : s.workers[u]? = some .rearm ∨ s.workers[u]? = some (.handling .keep)) : t = u := by
  have htok : s.tokens ≤ 1 := h1 ▸ reach_starts h
  have hc : s.workers.countP Worker.isKeep ≤ 1 := by simp only [St.tokens] at htok; omega
  have key : ∀ (l : List Worker) (a b : Nat), a < b → l.countP Worker.isKeep ≤ 1 →
      (l[a]? = some .rearm ∨ l[a]? = some (.handling .keep)) → (l[b]? = some .rearm ∨ l[b]? = some (.handling .keep)) → False := by
    intro l
    induction l with
    | nil => intro a b _ _ h; simp at h
    | cons w l ih =>
      intro a b hab hc ha hb
      obtain ⟨b, rfl⟩ : ∃ c, b = c + 1 := ⟨b - 1, by omega⟩
      simp only [List.getElem?_cons_succ] at hb
      rw [List.countP_cons] at hc
      cases a with
      | zero =>
        have hw : w.isKeep = true := by
          simp only [List.getElem?_cons_zero, Option.some.injEq] at ha
          rcases ha with rfl | rfl <;> rfl
        have hp : 0 < l.countP Worker.isKeep := List.countP_pos_iff.2 (by
          rcases hb with hb | hb
          · exact ⟨_, List.mem_of_getElem? hb, rfl⟩
          · exact ⟨_, List.mem_of_getElem? hb, rfl⟩)
        rw [if_pos hw] at hc; omega
      | succ a =>
        simp only [List.getElem?_cons_succ] at ha
        exact ih a b (by omega) (by omega) ha hb
  rcases Nat.lt_trichotomy t u with h | h | h
  · exact (key _ _ _ h hc ht hu).elim
  · exact h
  · exact (key _ _ _ h hc hu ht).elim

/-- Restarted, a single-service scheduler with one thread never sleeps again, although it has no work: a shutdown that does not happen to
    meet the timer's handler in execution leaves its wait in the service, and after the next startup the two waits cancel each other
    for ever. -/
theorem restart_spins {s s' : St} {as bs : List Step} (h : Reach .single s) (hr : s.running = true)
    (hk : Worker.handling .keep ∉ s.workers)
    (hs : run s (.stop :: as ++ [.join, .startup 1] ++ bs) = some s') (ha : .join ∉ as) (hb : .stop ∉ bs) :
    s'.workers.length = 1 ∧ ∃ s'', step s' (.go 0) = some s'' := by
  have i := reach_inv h
  have hkind : s.kind = .single := by obtain ⟨_, e⟩ := h; exact run_kind e
  rw [List.append_assoc, List.cons_append] at hs
  simp only [run, Option.bind_eq_some_iff] at hs
  obtain ⟨s1, h1, hs⟩ := hs
  rw [run_append, Option.bind_eq_some_iff] at hs
  obtain ⟨s2, h2, hs⟩ := hs
  simp only [List.cons_append, List.nil_append, run, Option.bind_eq_some_iff] at hs
  obtain ⟨s3, h3, s4, h4, h5⟩ := hs
  have i1 := step_inv i h1
  have e1 : s1.joining = true ∧ s1.tokens = s.tokens ∧ s1.workers = s.workers := by
    simp only [step] at h1; split at h1 <;> cases h1; exact ⟨rfl, rfl, rfl⟩
  obtain ⟨g1, g2⟩ := run_left i1 e1.1 (e1.2.2 ▸ hk) ha h2
  have i2 := run_inv i1 h2
  have k2 : s2.kind = .single := (run_kind h2).trans ((step_kind h1).trans hkind)
  have e3 : s3.tokens = s2.tokens ∧ s3.workers = [] := by
    simp only [step, k2] at h3
    split at h3
    · next hc =>
      cases h3
      have h0 : s2.workers.countP Worker.isKeep = 0 := by
        rw [List.countP_eq_zero]
        intro w hw
        have := List.all_eq_true.1 hc.2 w hw
        simp only [decide_eq_true_eq] at this
        subst this; simp [Worker.isKeep]
      exact ⟨by simp only [St.tokens, List.countP_nil, h0], rfl⟩
    · cases h3
  have i4 := step_inv (step_inv i2 h3) h4
  have e4 : s4.tokens = s3.tokens + 1 ∧ s4.running = true ∧ One s4 := by
    simp only [step] at h4
    split at h4 <;> cases h4
    refine ⟨?_, rfl, by simp, by simp, (fun e => by cases e)⟩
    simp [St.tokens, St.expires, e3.2, Worker.isKeep]
  have hp := (i.alive hr).1
  obtain ⟨r1, r2, r3⟩ := run_tokens i4 e4.2.1 hb h5
  have o := run_one i4 e4.2.1 e4.2.2 hb h5
  exact ⟨o.one, one_spins (run_inv i4 h5) r1 o (by omega)⟩

/-- A scheduler with two threads, shut down and started again. -/
def again : List Step := [.startup 2, .stop, .go 0, .go 1, .join, .startup 2]

/-- Restarted, two threads can use the timer of a single-service scheduler at the same time, which asio does not allow. -/
theorem timer_race : ∃ s, Reach .single s ∧ s.starts = 2 ∧ s.workers = [.rearm, .rearm] :=
  ⟨_, ⟨again ++ [.go 0, .go 1, .go 0, .go 0, .go 1, .go 1], rfl⟩, rfl, rfl⟩

/-- A one-to-one scheduler drops what it has accepted and not executed when it is shut down: here handler 7 is never executed. -/
theorem shutdown_drops : ∃ s, Reach .oneToOne s ∧ s.accepted = [7] ∧ s.executed = [] ∧ s.queue = [] ∧ s.running = true :=
  ⟨_, ⟨[.startup 1, .post 7, .stop, .go 0, .join, .startup 1], rfl⟩, rfl, rfl, rfl, rfl⟩

/-- Handlers posted before and while the scheduler runs; one throws, the next are executed by both threads. -/
def busy : List Step :=
  [.post 1, .initiate 9, .startup 2, .post 2, .go 0, .go 0, .go 1, .throw 0, .go 1, .complete 9, .go 0, .go 0, .go 1]

example : ∃ s, run { kind := .single } busy = some s ∧ s.executed = [1, 2, 9] ∧ s.running = true ∧ s.workers.length = 2 ∧
    s.starts = 1 := ⟨_, rfl, rfl, rfl, rfl, rfl⟩

/-- `served` and `idle_sleeps_partial` have instances. -/
example : ∃ s s', Reach .single s ∧ s.running = true ∧ s.queue = [.user 5] ∧
    run s [.go 0, .go 0, .go 0, .expire, .go 0, .go 0, .go 0, .post 6, .go 0] = some s' ∧ s'.executed = [5, 6] :=
  ⟨_, _, ⟨[.startup 1, .post 5], rfl⟩, rfl, rfl, rfl, rfl⟩

/-- `shutdown_ends`, `shutdown_quiet` and `shutdown_in_handler_hangs` have instances. -/
example : ∃ s s1 s2, Reach .oneToOne s ∧ s.joining = true ∧ s.workers = [.handling (.user 5)] ∧
    run s [.go 0, .go 0, .go 0] = some s1 ∧ step s1 .join = some s2 :=
  ⟨_, _, _, ⟨[.startup 1, .post 5, .go 0, .go 0, .stop], rfl⟩, rfl, rfl, rfl, rfl⟩

/-- What was posted to a single-service scheduler before a shutdown is executed after the restart, and `restart_spins` has an instance: the
    worker makes as many steps as one likes without time passing. -/
example : ∃ s s', Reach .single s ∧ s.running = true ∧ Worker.handling .keep ∉ s.workers ∧
    run s (.stop :: [.go 0] ++ [.join, .startup 1] ++
      [.go 0, .go 0, .go 0, .go 0, .go 0, .go 0, .go 0, .go 0, .go 0, .go 0, .go 0, .go 0]) = some s' ∧ s'.executed = [7] :=
  ⟨_, _, ⟨[.startup 1, .post 7], rfl⟩, rfl, by decide, rfl, rfl⟩

end Verif.Props.Workers
