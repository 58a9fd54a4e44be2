import Verif.Spec.Workers
import Mathlib.Tactic.Common
/-
Lemmas about the worker threads of a scheduler.
-/
namespace Verif.Workers

/-- In the handler of the timer. -/
def Worker.isKeep : Worker → Bool
  | .handling .keep => true
  | .rearm => true
  | _ => false

@[local simp] theorem isKeep_loop : Worker.loop.isKeep = false := rfl
@[local simp] theorem isKeep_inRun : Worker.inRun.isKeep = false := rfl
@[local simp] theorem isKeep_exited : Worker.exited.isKeep = false := rfl
@[local simp] theorem isKeep_rearm : Worker.rearm.isKeep = true := rfl
@[local simp] theorem isKeep_keep : (Worker.handling .keep).isKeep = true := rfl
@[local simp] theorem isKeep_user (n : Nat) : (Worker.handling (.user n)).isKeep = false := rfl

/-- The handlers of the timer that are ready, being executed or waiting. -/
def St.tokens (s : St) : Nat := s.queue.count .keep + s.waits + s.workers.countP Worker.isKeep

theorem countP_set {p : Worker → Bool} {l : List Worker} {t : Nat} {w : Worker} (w' : Worker) (h : l[t]? = some w) :
    (l.set t w').countP p + (if p w then 1 else 0) = l.countP p + (if p w' then 1 else 0) := by
  induction l generalizing t with
  | nil => simp at h
  | cons a l ih =>
    cases t with
    | zero =>
      simp only [List.getElem?_cons_zero, Option.some.injEq] at h
      subst h
      simp only [List.set_cons_zero, List.countP_cons]
      omega
    | succ t =>
      simp only [List.getElem?_cons_succ] at h
      have := ih h
      simp only [List.set_cons_succ, List.countP_cons]
      omega

theorem mem_set {l : List Worker} {t : Nat} {w' x : Worker} (h : x ∈ l.set t w') : x ∈ l ∨ x = w' :=
  List.mem_or_eq_of_mem_set h

theorem isKeep_busy {w : Worker} : w.isKeep = true → w.busy = true := by
  cases w <;> simp [Worker.isKeep, Worker.busy]

theorem tokens_work (s : St) : s.tokens ≤ s.work := by
  have h1 : s.queue.count .keep ≤ s.queue.length := List.count_le_length
  have h2 : s.workers.countP Worker.isKeep ≤ s.workers.countP Worker.busy :=
    List.countP_mono_left fun w _ => isKeep_busy
  simp only [St.tokens, St.work]
  omega

theorem finished_running {s : St} (h : 0 < s.tokens) : s.finished = s := by
  have := tokens_work s
  unfold St.finished
  rw [if_neg (by omega)]

theorem finished_tokens (s : St) : s.finished.tokens = s.tokens := by
  unfold St.finished; split <;> rfl

theorem users_append (a b : List Handler) : users (a ++ b) = users a ++ users b := List.filterMap_append

theorem users_keeps (n : Nat) : users (List.replicate n .keep) = [] := by
  induction n with
  | zero => rfl
  | succ n ih => rw [List.replicate_succ]; exact ih

/-- What holds of every state that can be reached. -/
structure Inv (s : St) : Prop where
  alive : s.running = true → 0 < s.tokens ∧ s.stopped = false ∧ Worker.exited ∉ s.workers
  joins : s.joining = true → s.running = false ∧ s.stopped = true
  rest : s.running = false → s.joining = false → s.workers = []

/-- The cases of a step of a worker. -/
inductive Go (s : St) (t : Nat) : St → Prop
  | empty : s.workers[t]? = some .loop → s.running = true → s.work = 0 → Go s t { s with stopped := true }
  | enter : s.workers[t]? = some .loop → s.running = true → s.work ≠ 0 → Go s t { s with workers := s.workers.set t .inRun }
  | exit : s.workers[t]? = some .loop → s.running = false → Go s t { s with workers := s.workers.set t .exited }
  | returns : s.workers[t]? = some .inRun → s.stopped = true → Go s t { s with workers := s.workers.set t .loop }
  | keep (q) : s.workers[t]? = some .inRun → s.stopped = false → s.queue = .keep :: q →
      Go s t { s with queue := q, workers := s.workers.set t (.handling .keep) }
  | user (n q) : s.workers[t]? = some .inRun → s.stopped = false → s.queue = .user n :: q →
      Go s t { s with queue := q, workers := s.workers.set t (.handling (.user n)), executed := s.executed ++ [n] }
  | expires : s.workers[t]? = some (.handling .keep) → s.running = true →
      Go s t { s.expires with workers := s.workers.set t .rearm }
  | dropped : s.workers[t]? = some (.handling .keep) → s.running = false →
      Go s t { s with workers := s.workers.set t .inRun }.finished
  | rearm : s.workers[t]? = some .rearm → Go s t { s with waits := s.waits + 1, workers := s.workers.set t .inRun }
  | done (n) : s.workers[t]? = some (.handling (.user n)) → Go s t { s with workers := s.workers.set t .inRun }.finished

theorem go_cases {s s' : St} {t : Nat} (h : s.go t = some s') : Go s t s' := by
  unfold St.go at h
  split at h
  · next hw =>
    split at h
    · next hr =>
      split at h
      · next h0 => cases h; exact .empty hw hr h0
      · next h0 => cases h; exact .enter hw hr h0
    · next hr => cases h; exact .exit hw (by simpa using hr)
  · next hw =>
    split at h
    · next hs => cases h; exact .returns hw hs
    · next hs =>
      have hs : s.stopped = false := by simpa using hs
      split at h
      · cases h
      · next q hq => cases h; exact .keep q hw hs hq
      · next n q hq => cases h; exact .user n q hw hs hq
  · next hw =>
    split at h
    · next hr => cases h; exact .expires hw hr
    · next hr => cases h; exact .dropped hw (by simpa using hr)
  · next hw => cases h; exact .rearm hw
  · next n hw => cases h; exact .done n hw
  · cases h

theorem finished_fields (s : St) : s.finished.running = s.running ∧ s.finished.joining = s.joining ∧
    s.finished.workers = s.workers ∧ s.finished.queue = s.queue ∧ s.finished.waits = s.waits ∧
    s.finished.executed = s.executed ∧ s.finished.accepted = s.accepted ∧ s.finished.kind = s.kind ∧
    (s.stopped = true → s.finished.stopped = true) ∧ s.finished.starts = s.starts ∧ s.finished.pending = s.pending := by
  unfold St.finished; split <;> simp

theorem not_mem_set {l : List Worker} {t : Nat} {w' x : Worker} (h : x ∉ l) (hx : x ≠ w') : x ∉ l.set t w' :=
  fun hm => (mem_set hm).elim h hx

/-- A step of a worker changes the handlers of the timer only by dropping one when the scheduler does not run. -/
theorem go_tokens {s s' : St} {t : Nat} (h : Go s t s') :
    s'.tokens = s.tokens ∨ (s.running = false ∧ s.workers[t]? = some (.handling .keep) ∧ s'.tokens + 1 = s.tokens) := by
  cases h with
  | empty => exact .inl rfl
  | enter hw => have := countP_set (p := Worker.isKeep) .inRun hw; left; simp [St.tokens] at this ⊢; omega
  | exit hw => have := countP_set (p := Worker.isKeep) .exited hw; left; simp [St.tokens] at this ⊢; omega
  | returns hw => have := countP_set (p := Worker.isKeep) .loop hw; left; simp [St.tokens] at this ⊢; omega
  | keep q hw _ hq =>
    have := countP_set (p := Worker.isKeep) (.handling .keep) hw
    left; simp [St.tokens, hq] at this ⊢; omega
  | user n q hw _ hq =>
    have := countP_set (p := Worker.isKeep) (.handling (.user n)) hw
    left; simp [St.tokens, hq] at this ⊢; omega
  | expires hw =>
    have := countP_set (p := Worker.isKeep) .rearm hw
    left; simp [St.tokens, St.expires] at this ⊢; omega
  | dropped hw hr =>
    have := countP_set (p := Worker.isKeep) .inRun hw
    right; rw [finished_tokens]; refine ⟨hr, hw, ?_⟩
    simp [St.tokens] at this ⊢; omega
  | rearm hw =>
    have := countP_set (p := Worker.isKeep) .inRun hw
    left; simp [St.tokens] at this ⊢; omega
  | done n hw =>
    have := countP_set (p := Worker.isKeep) .inRun hw
    left; rw [finished_tokens]; simp [St.tokens] at this ⊢; omega

theorem go_inv {s s' : St} {t : Nat} (i : Inv s) (h : Go s t s') : Inv s' := by
  have ht := go_tokens h
  have htok : s.running = true → s'.tokens = s.tokens := by
    intro hr; rcases ht with h | ⟨h, _⟩
    · exact h
    · rw [hr] at h; cases h
  have hne : s.workers ≠ [] := by
    intro he; cases h <;> simp_all
  have hl : ∀ w, s.workers.set t w ≠ [] := by
    intro w he; exact hne (by simpa using congrArg List.length he)
  cases h with
  | empty hw hr h0 =>
    have := i.alive hr; have := tokens_work s; omega
  | enter hw hr => exact ⟨fun hr => ⟨by rw [htok hr]; exact (i.alive hr).1, (i.alive hr).2.1, not_mem_set (i.alive hr).2.2 (by simp)⟩,
      i.joins, fun a b => absurd (i.rest a b) hne⟩
  | exit hw hr => exact ⟨fun h => absurd (hr.symm.trans h) (by simp), i.joins, fun a b => absurd (i.rest a b) hne⟩
  | returns hw hs => exact ⟨fun hr => absurd ((i.alive hr).2.1.symm.trans hs) (by simp), i.joins, fun a b => absurd (i.rest a b) hne⟩
  | keep q hw => exact ⟨fun hr => ⟨by rw [htok hr]; exact (i.alive hr).1, (i.alive hr).2.1, not_mem_set (i.alive hr).2.2 (by simp)⟩,
      i.joins, fun a b => absurd (i.rest a b) hne⟩
  | user n q hw => exact ⟨fun hr => ⟨by rw [htok hr]; exact (i.alive hr).1, (i.alive hr).2.1, not_mem_set (i.alive hr).2.2 (by simp)⟩,
      i.joins, fun a b => absurd (i.rest a b) hne⟩
  | expires hw hr => exact ⟨fun hr => ⟨by rw [htok hr]; exact (i.alive hr).1, (i.alive hr).2.1, not_mem_set (i.alive hr).2.2 (by simp)⟩,
      i.joins, fun a b => absurd (i.rest a b) hne⟩
  | dropped hw hr =>
    obtain ⟨f1, f2, f3, -, -, -, -, -, f9, -, -⟩ := finished_fields { s with workers := s.workers.set t .inRun }
    exact ⟨fun h => absurd ((f1.trans hr).symm.trans h) (by simp),
      fun h => ⟨f1.trans hr, f9 (i.joins (f2.symm.trans h)).2⟩, fun a b => absurd (i.rest (f1.symm.trans a) (f2.symm.trans b)) hne⟩
  | rearm hw => exact ⟨fun hr => ⟨by rw [htok hr]; exact (i.alive hr).1, (i.alive hr).2.1, not_mem_set (i.alive hr).2.2 (by simp)⟩,
      i.joins, fun a b => absurd (i.rest a b) hne⟩
  | done n hw =>
    obtain ⟨f1, f2, f3, -, -, -, -, -, f9, -, -⟩ := finished_fields { s with workers := s.workers.set t .inRun }
    refine ⟨fun h => ?_, fun h => ⟨f1.trans (i.joins (f2.symm.trans h)).1, f9 (i.joins (f2.symm.trans h)).2⟩,
      fun a b => absurd (i.rest (f1.symm.trans a) (f2.symm.trans b)) hne⟩
    have hr : s.running = true := f1.symm.trans h
    have h1 := (i.alive hr).1
    have h2 := htok hr
    rw [finished_tokens] at h2
    rw [finished_running (by rw [h2]; exact h1)]
    exact ⟨by rw [h2]; exact h1, (i.alive hr).2.1, not_mem_set (i.alive hr).2.2 (by simp)⟩

/-- A handler that throws. -/
theorem throw_cases {s s' : St} {t : Nat} (h : step s (.throw t) = some s') :
    ∃ n, s.workers[t]? = some (.handling (.user n)) ∧ s' = { s with workers := s.workers.set t .loop }.finished := by
  simp only [step] at h
  split at h
  · next n hw => cases h; exact ⟨n, hw, rfl⟩
  · cases h

theorem throw_tokens {s : St} {t n : Nat} (hw : s.workers[t]? = some (.handling (.user n))) :
    ({ s with workers := s.workers.set t .loop } : St).tokens = s.tokens := by
  have := countP_set (p := Worker.isKeep) .loop hw
  simp [St.tokens] at this ⊢; omega

theorem step_inv {s s' : St} {a : Step} (i : Inv s) (h : step s a = some s') : Inv s' := by
  cases a with
  | startup n =>
    simp only [step] at h
    split at h
    · cases h
    · next hc =>
      have hj : s.joining = false := by simpa using fun h => hc (Or.inr h)
      cases h
      refine ⟨fun _ => ⟨?_, rfl, ?_⟩, fun h => absurd (hj.symm.trans h) (by simp), fun h => by cases h⟩
      · simp only [St.tokens]; omega
      · intro hm; have := List.eq_of_mem_replicate hm; cases this
  | stop =>
    simp only [step] at h
    split at h
    · cases h
    · cases h; exact ⟨(fun h => by cases h), fun _ => ⟨rfl, rfl⟩, (fun _ h => by cases h)⟩
  | join =>
    simp only [step] at h
    split at h
    · next hc =>
      have hr := (i.joins hc.1).1
      split at h <;> cases h <;>
        exact ⟨fun h => absurd (hr.symm.trans h) (by simp), (fun h => by cases h), fun _ _ => rfl⟩
    · cases h
  | post n =>
    cases h
    refine ⟨fun hr => ⟨?_, (i.alive hr).2⟩, i.joins, i.rest⟩
    have := (i.alive hr).1
    simp [St.tokens] at this ⊢; omega
  | initiate n => cases h; exact ⟨i.alive, i.joins, i.rest⟩
  | complete n =>
    simp only [step] at h
    split at h
    · cases h
      refine ⟨fun hr => ⟨?_, (i.alive hr).2⟩, i.joins, i.rest⟩
      have := (i.alive hr).1
      simp [St.tokens] at this ⊢; omega
    · cases h
  | expire =>
    simp only [step] at h
    split at h
    · cases h
      refine ⟨fun hr => ⟨?_, (i.alive hr).2⟩, i.joins, i.rest⟩
      have := (i.alive hr).1
      simp [St.tokens, St.expires] at this ⊢; omega
    · cases h
  | go t => exact go_inv i (go_cases h)
  | throw t =>
    obtain ⟨n, hw, rfl⟩ := throw_cases h
    have hne : s.workers ≠ [] := fun he => by rw [he] at hw; simp at hw
    obtain ⟨f1, f2, f3, -, -, -, -, -, f9, -, -⟩ := finished_fields { s with workers := s.workers.set t .loop }
    refine ⟨fun h => ?_, fun h => ⟨f1.trans (i.joins (f2.symm.trans h)).1, f9 (i.joins (f2.symm.trans h)).2⟩,
      fun a b => absurd (i.rest (f1.symm.trans a) (f2.symm.trans b)) hne⟩
    have hr : s.running = true := f1.symm.trans h
    have h1 := (i.alive hr).1
    have h2 := throw_tokens hw
    rw [finished_running (by rw [h2]; exact h1)]
    exact ⟨by rw [h2]; exact h1, (i.alive hr).2.1, not_mem_set (i.alive hr).2.2 (by simp)⟩

theorem run_append {s : St} (as bs : List Step) : run s (as ++ bs) = (run s as).bind (run · bs) := by
  induction as generalizing s with
  | nil => rfl
  | cons a as ih =>
    simp only [List.cons_append, run]
    cases step s a with
    | none => rfl
    | some s1 => simpa using ih

theorem run_inv {s s' : St} {as : List Step} (i : Inv s) (h : run s as = some s') : Inv s' := by
  induction as generalizing s with
  | nil => cases h; exact i
  | cons a as ih =>
    simp only [run, Option.bind_eq_some_iff] at h
    obtain ⟨s1, h1, h2⟩ := h
    exact ih (step_inv i h1) h2

theorem inv_init (k : Kind) : Inv { kind := k } := ⟨(fun h => by cases h), (fun h => by cases h), fun _ _ => rfl⟩

theorem reach_inv {k : Kind} {s : St} (h : Reach k s) : Inv s := by
  obtain ⟨as, h⟩ := h; exact run_inv (inv_init k) h

theorem reach_step {k : Kind} {s s' : St} {a : Step} (h : Reach k s) (e : step s a = some s') : Reach k s' := by
  obtain ⟨as, h⟩ := h
  refine ⟨as ++ [a], ?_⟩
  rw [run_append, h]; simp [run, e]

theorem reach_run {k : Kind} {s s' : St} {bs : List Step} (h : Reach k s) (e : run s bs = some s') : Reach k s' := by
  obtain ⟨as, h⟩ := h
  exact ⟨as ++ bs, by rw [run_append, h]; exact e⟩

/-- The kind of the scheduler never changes. -/
theorem step_kind {s s' : St} {a : Step} (h : step s a = some s') : s'.kind = s.kind := by
  cases a with
  | startup n => simp only [step] at h; split at h <;> cases h; rfl
  | stop => simp only [step] at h; split at h <;> cases h; rfl
  | join => simp only [step] at h; split at h <;> [skip; cases h]; split at h <;> cases h <;> rfl
  | post n => cases h; rfl
  | initiate n => cases h; rfl
  | complete n => simp only [step] at h; split at h <;> cases h; rfl
  | expire => simp only [step] at h; split at h <;> cases h; rfl
  | go t =>
    cases go_cases h with
    | dropped => exact (finished_fields _).2.2.2.2.2.2.2.1
    | done => exact (finished_fields _).2.2.2.2.2.2.2.1
    | _ => rfl
  | throw t => obtain ⟨n, hw, rfl⟩ := throw_cases h; exact (finished_fields _).2.2.2.2.2.2.2.1

theorem run_kind {s s' : St} {as : List Step} (h : run s as = some s') : s'.kind = s.kind := by
  induction as generalizing s with
  | nil => cases h; rfl
  | cons a as ih =>
    simp only [run, Option.bind_eq_some_iff] at h
    obtain ⟨s1, h1, h2⟩ := h
    exact (ih h2).trans (step_kind h1)

/-- What was accepted is what was executed and what is ready, in order, after every step except the end of a shutdown that drops
    the service. -/
theorem step_order {s s' : St} {a : Step} (i : s.accepted = s.executed ++ users s.queue) (h : step s a = some s')
    (hk : s.kind = .single ∨ a ≠ .join) : s'.accepted = s'.executed ++ users s'.queue := by
  cases a with
  | startup n =>
    simp only [step] at h; split at h <;> cases h
    simp only [St.expires, users_append, users_keeps, List.append_nil]; exact i
  | stop => simp only [step] at h; split at h <;> cases h; exact i
  | join =>
    simp only [step] at h; split at h <;> [skip; cases h]
    split at h
    · cases h; exact i
    · next hk' => rcases hk with hk | hk
                  · rw [hk] at hk'; cases hk'
                  · exact absurd rfl hk
  | post n => cases h; simp only [users_append, i, List.append_assoc]; rfl
  | initiate n => cases h; exact i
  | complete n =>
    simp only [step] at h; split at h <;> cases h
    simp only [users_append, i, List.append_assoc]; rfl
  | expire =>
    simp only [step] at h; split at h <;> cases h
    simp only [St.expires, users_append, users_keeps, List.append_nil]; exact i
  | go t =>
    cases go_cases h with
    | keep q hw hs hq => rw [hq] at i; exact i
    | user n q hw hs hq => simpa [users, hq, userOf] using i
    | expires hw hr => simp only [St.expires, users_append, users_keeps, List.append_nil]; exact i
    | dropped =>
      obtain ⟨-, -, -, f4, -, f6, f7, -⟩ := finished_fields { s with workers := s.workers.set t .inRun }
      rw [f7, f6, f4]; exact i
    | done =>
      obtain ⟨-, -, -, f4, -, f6, f7, -⟩ := finished_fields { s with workers := s.workers.set t .inRun }
      rw [f7, f6, f4]; exact i
    | _ => exact i
  | throw t =>
    obtain ⟨n, hw, rfl⟩ := throw_cases h
    obtain ⟨-, -, -, f4, -, f6, f7, -⟩ := finished_fields { s with workers := s.workers.set t .loop }
    rw [f7, f6, f4]; exact i

theorem run_order {s s' : St} {as : List Step} (i : s.accepted = s.executed ++ users s.queue) (h : run s as = some s')
    (hk : s.kind = .single) : s'.accepted = s'.executed ++ users s'.queue := by
  induction as generalizing s with
  | nil => cases h; exact i
  | cons a as ih =>
    simp only [run, Option.bind_eq_some_iff] at h
    obtain ⟨s1, h1, h2⟩ := h
    exact ih (step_order i h1 (.inl hk)) h2 ((step_kind h1).trans hk)

theorem step_sub {s s' : St} {a : Step} (i : (s.executed ++ users s.queue).Sublist s.accepted) (h : step s a = some s') :
    (s'.executed ++ users s'.queue).Sublist s'.accepted := by
  by_cases ha : a = .join
  · subst ha
    simp only [step] at h; split at h <;> [skip; cases h]
    split at h <;> cases h
    · exact i
    · exact ((List.Sublist.refl _).append (List.nil_sublist _)).trans i
  · -- without the end of a shutdown both sides grow by the same
    cases a with
    | startup n =>
      simp only [step] at h; split at h <;> cases h
      simp only [St.expires, users_append, users_keeps, List.append_nil]; exact i
    | stop => simp only [step] at h; split at h <;> cases h; exact i
    | join => exact absurd rfl ha
    | post n => cases h; simp only [users_append, ← List.append_assoc]; exact i.append (List.Sublist.refl _)
    | initiate n => cases h; exact i
    | complete n =>
      simp only [step] at h; split at h <;> cases h
      simp only [users_append, ← List.append_assoc]; exact i.append (List.Sublist.refl _)
    | expire =>
      simp only [step] at h; split at h <;> cases h
      simp only [St.expires, users_append, users_keeps, List.append_nil]; exact i
    | go t =>
      cases go_cases h with
      | keep q hw hs hq => rw [hq] at i; exact i
      | user n q hw hs hq => simpa [users, hq, userOf] using i
      | expires hw hr => simp only [St.expires, users_append, users_keeps, List.append_nil]; exact i
      | dropped =>
        obtain ⟨-, -, -, f4, -, f6, f7, -⟩ := finished_fields { s with workers := s.workers.set t .inRun }
        rw [f7, f6, f4]; exact i
      | done =>
        obtain ⟨-, -, -, f4, -, f6, f7, -⟩ := finished_fields { s with workers := s.workers.set t .inRun }
        rw [f7, f6, f4]; exact i
      | _ => exact i
    | throw t =>
      obtain ⟨n, hw, rfl⟩ := throw_cases h
      obtain ⟨-, -, -, f4, -, f6, f7, -⟩ := finished_fields { s with workers := s.workers.set t .loop }
      rw [f7, f6, f4]; exact i

theorem run_sub {s s' : St} {as : List Step} (i : (s.executed ++ users s.queue).Sublist s.accepted) (h : run s as = some s') :
    (s'.executed ++ users s'.queue).Sublist s'.accepted := by
  induction as generalizing s with
  | nil => cases h; exact i
  | cons a as ih =>
    simp only [run, Option.bind_eq_some_iff] at h
    obtain ⟨s1, h1, h2⟩ := h
    exact ih (step_sub i h1) h2

/-- What has been executed stays so. -/
theorem step_executed {s s' : St} {a : Step} (h : step s a = some s') : s.executed <+: s'.executed := by
  cases a with
  | startup n => simp only [step] at h; split at h <;> cases h; exact List.prefix_rfl
  | stop => simp only [step] at h; split at h <;> cases h; exact List.prefix_rfl
  | join => simp only [step] at h; split at h <;> [skip; cases h]; split at h <;> cases h <;> exact List.prefix_rfl
  | post n => cases h; exact List.prefix_rfl
  | initiate n => cases h; exact List.prefix_rfl
  | complete n => simp only [step] at h; split at h <;> cases h; exact List.prefix_rfl
  | expire => simp only [step] at h; split at h <;> cases h; exact List.prefix_rfl
  | go t =>
    cases go_cases h with
    | user n q hw hs hq => exact List.prefix_append _ _
    | dropped => rw [(finished_fields _).2.2.2.2.2.1]; exact List.prefix_rfl
    | done => rw [(finished_fields _).2.2.2.2.2.1]; exact List.prefix_rfl
    | _ => exact List.prefix_rfl
  | throw t => obtain ⟨n, hw, rfl⟩ := throw_cases h; rw [(finished_fields _).2.2.2.2.2.1]; exact List.prefix_rfl

theorem run_executed {s s' : St} {as : List Step} (h : run s as = some s') : s.executed <+: s'.executed := by
  induction as generalizing s with
  | nil => cases h; exact List.prefix_rfl
  | cons a as ih =>
    simp only [run, Option.bind_eq_some_iff] at h
    obtain ⟨s1, h1, h2⟩ := h
    exact (step_executed h1).trans (ih h2)

/-- The steps a worker needs before it takes a handler. -/
def stage : Worker → Nat
  | .inRun => 1
  | .loop => 2
  | .rearm => 2
  | .handling _ => 3
  | .exited => 0

theorem set_self {l : List Worker} {t : Nat} {w w' : Worker} (h : l[t]? = some w) : (l.set t w')[t]? = some w' := by
  have : t < l.length := (List.getElem?_eq_some_iff.1 h).1
  simp [this]

theorem set_other {l : List Worker} {t u : Nat} (w' : Worker) (h : u ≠ t) : (l.set u w')[t]? = l[t]? :=
  List.getElem?_set_ne h

/-- While the scheduler runs, the handlers that are ready are taken from the front, and each step of a worker brings it nearer to
    taking one. -/
theorem step_front {s s' : St} {a : Step} {t : Nat} {w : Worker} {old new : List Handler} (i : Inv s) (hr : s.running = true)
    (ha : a ≠ .stop) (hq : s.queue = old ++ new) (ho : old ≠ []) (hw : s.workers[t]? = some w) (h : step s a = some s') :
    ∃ old' new' w', s'.running = true ∧ s'.queue = old' ++ new' ∧ s'.executed ++ users old' = s.executed ++ users old ∧
      s'.workers[t]? = some w' ∧ 4 * old'.length + stage w' + (if ofWorker t a then 1 else 0) ≤ 4 * old.length + stage w := by
  obtain ⟨x, xs, rfl⟩ := List.exists_cons_of_ne_nil ho
  have hst := (i.alive hr).2.1
  cases a with
  | startup n => simp [step, hr] at h
  | stop => exact absurd rfl ha
  | join =>
    simp only [step] at h; split at h
    · next hc => have := (i.joins hc.1).1; rw [hr] at this; cases this
    · cases h
  | post n => cases h; exact ⟨x :: xs, new ++ [.user n], w, hr, by simp [hq], rfl, hw, by simp [ofWorker]⟩
  | initiate n => cases h; exact ⟨x :: xs, new, w, hr, hq, rfl, hw, by simp [ofWorker]⟩
  | complete n =>
    simp only [step] at h; split at h <;> cases h
    exact ⟨x :: xs, new ++ [.user n], w, hr, by simp [hq], rfl, hw, by simp [ofWorker]⟩
  | expire =>
    simp only [step] at h; split at h <;> cases h
    exact ⟨x :: xs, new ++ List.replicate s.waits .keep, w, hr, by simp [hq, St.expires], rfl, hw, by simp [ofWorker]⟩
  | throw u =>
    obtain ⟨n, hu, rfl⟩ := throw_cases h
    rw [finished_running (by rw [throw_tokens hu]; exact (i.alive hr).1)]
    by_cases hut : u = t
    · subst hut; rw [hu] at hw; cases hw
      exact ⟨x :: xs, new, .loop, hr, hq, rfl, set_self hu, by simp [ofWorker, stage]⟩
    · exact ⟨x :: xs, new, w, hr, hq, rfl, (set_other _ hut).trans hw, by simp [ofWorker, hut]⟩
  | go u =>
    have own : ofWorker t (.go u) = decide (u = t) := by simp [ofWorker]
    rw [own]
    have g := go_cases h
    have ht : s'.tokens = s.tokens := by
      rcases go_tokens g with h | ⟨h, _⟩
      · exact h
      · rw [hr] at h; cases h
    cases g with
    | empty hu _ h0 => have := (i.alive hr).1; have := tokens_work s; omega
    | enter hu =>
      by_cases hut : u = t
      · subst hut; rw [hu] at hw; cases hw
        exact ⟨x :: xs, new, .inRun, hr, hq, rfl, set_self hu, by simp [stage]⟩
      · exact ⟨x :: xs, new, w, hr, hq, rfl, (set_other _ hut).trans hw, by simp [hut]⟩
    | exit hu hr' => rw [hr] at hr'; cases hr'
    | returns hu hs => rw [hst] at hs; cases hs
    | keep q hu _ hq' =>
      rw [hq, List.cons_append, List.cons.injEq] at hq'
      obtain ⟨rfl, rfl⟩ := hq'
      by_cases hut : u = t
      · subst hut; rw [hu] at hw; cases hw
        exact ⟨xs, new, .handling .keep, hr, rfl, rfl, set_self hu, by simp [stage]; omega⟩
      · exact ⟨xs, new, w, hr, rfl, rfl, (set_other _ hut).trans hw, by simp [hut]; omega⟩
    | user n q hu _ hq' =>
      rw [hq, List.cons_append, List.cons.injEq] at hq'
      obtain ⟨rfl, rfl⟩ := hq'
      have hx : s.executed ++ [n] ++ users xs = s.executed ++ users (.user n :: xs) := by simp [users, userOf]
      by_cases hut : u = t
      · subst hut; rw [hu] at hw; cases hw
        exact ⟨xs, new, .handling (.user n), hr, rfl, hx, set_self hu, by simp [stage]; omega⟩
      · exact ⟨xs, new, w, hr, rfl, hx, (set_other _ hut).trans hw, by simp [hut]; omega⟩
    | expires hu =>
      by_cases hut : u = t
      · subst hut; rw [hu] at hw; cases hw
        exact ⟨x :: xs, new ++ List.replicate s.waits .keep, .rearm, hr, by simp [hq, St.expires], rfl, set_self hu, by simp [stage]⟩
      · exact ⟨x :: xs, new ++ List.replicate s.waits .keep, w, hr, by simp [hq, St.expires], rfl, (set_other _ hut).trans hw,
          by simp [hut]⟩
    | dropped hu hr' => rw [hr] at hr'; cases hr'
    | rearm hu =>
      by_cases hut : u = t
      · subst hut; rw [hu] at hw; cases hw
        exact ⟨x :: xs, new, .inRun, hr, hq, rfl, set_self hu, by simp [stage]⟩
      · exact ⟨x :: xs, new, w, hr, hq, rfl, (set_other _ hut).trans hw, by simp [hut]⟩
    | done n hu =>
      rw [finished_tokens] at ht
      rw [finished_running (by rw [ht]; exact (i.alive hr).1)]
      by_cases hut : u = t
      · subst hut; rw [hu] at hw; cases hw
        exact ⟨x :: xs, new, .inRun, hr, hq, rfl, set_self hu, by simp [stage]⟩
      · exact ⟨x :: xs, new, w, hr, hq, rfl, (set_other _ hut).trans hw, by simp [hut]⟩

theorem run_front {s s' : St} {as : List Step} {t : Nat} {w : Worker} {old new : List Handler} (i : Inv s) (hr : s.running = true)
    (ha : .stop ∉ as) (hq : s.queue = old ++ new) (hw : s.workers[t]? = some w) (h : run s as = some s')
    (hn : 4 * old.length + stage w ≤ as.countP (ofWorker t)) : s.executed ++ users old <+: s'.executed := by
  induction as generalizing s old new w with
  | nil =>
    cases h
    have : old = [] := by cases old with
      | nil => rfl
      | cons => simp at hn
    subst this
    simp [users]
  | cons a as ih =>
    by_cases ho : old = []
    · subst ho; simpa [users] using run_executed h
    · simp only [run, Option.bind_eq_some_iff] at h
      obtain ⟨s1, h1, h2⟩ := h
      obtain ⟨old', new', w', f1, f2, f3, f4, f5⟩ := step_front i hr (fun e => ha (e ▸ List.mem_cons_self)) hq ho hw h1
      rw [← f3]
      refine ih (step_inv i h1) f1 (fun e => ha (List.mem_cons_of_mem _ e)) f2 f4 h2 ?_
      rw [List.countP_cons] at hn
      omega

/-- The sum of a measure over the workers. -/
def total (f : Worker → Nat) (l : List Worker) : Nat := (l.map f).sum

theorem total_set {f : Worker → Nat} {l : List Worker} {t : Nat} {w : Worker} (w' : Worker) (h : l[t]? = some w) :
    total f (l.set t w') + f w = total f l + f w' := by
  induction l generalizing t with
  | nil => simp at h
  | cons a l ih =>
    cases t with
    | zero =>
      simp only [List.getElem?_cons_zero, Option.some.injEq] at h
      subst h
      simp only [total, List.set_cons_zero, List.map_cons, List.sum_cons]
      omega
    | succ t =>
      simp only [List.getElem?_cons_succ] at h
      have := ih h
      simp only [total, List.set_cons_succ, List.map_cons, List.sum_cons] at this ⊢
      omega

theorem total_le {f : Worker → Nat} {n : Nat} (hf : ∀ w, f w ≤ n) (l : List Worker) : total f l ≤ n * l.length := by
  induction l with
  | nil => simp [total]
  | cons a l ih =>
    have := hf a
    simp only [total, List.map_cons, List.sum_cons, List.length_cons, Nat.mul_add] at ih ⊢
    omega

/-- The steps a worker makes until it ends, once the scheduler is being shut down. -/
def closing : Worker → Nat
  | .exited => 0
  | .loop => 1
  | .inRun => 2
  | .rearm => 3
  | .handling _ => 3

theorem closing_le (w : Worker) : closing w ≤ 3 := by cases w <;> simp [closing]

theorem step_closing {s s' : St} {a : Step} (i : Inv s) (hj : s.joining = true) (ha : a ≠ .join) (h : step s a = some s') :
    s'.joining = true ∧ s'.workers.length = s.workers.length ∧
      total closing s'.workers + (if ofAny a then 1 else 0) ≤ total closing s.workers := by
  obtain ⟨hr, hs⟩ := i.joins hj
  cases a with
  | startup n => simp [step, hj] at h
  | stop => simp [step, hj] at h
  | join => exact absurd rfl ha
  | post n => cases h; exact ⟨hj, rfl, by simp [ofAny]⟩
  | initiate n => cases h; exact ⟨hj, rfl, by simp [ofAny]⟩
  | complete n => simp only [step] at h; split at h <;> cases h; exact ⟨hj, rfl, by simp [ofAny]⟩
  | expire => simp only [step] at h; split at h <;> cases h; exact ⟨hj, rfl, by simp [ofAny, St.expires]⟩
  | throw t =>
    obtain ⟨n, hw, rfl⟩ := throw_cases h
    obtain ⟨-, f2, f3, -⟩ := finished_fields { s with workers := s.workers.set t .loop }
    have := total_set (f := closing) .loop hw
    refine ⟨f2.trans hj, by rw [f3]; simp, ?_⟩
    rw [f3]; simp [ofAny, closing] at this ⊢; omega
  | go t =>
    cases go_cases h with
    | empty _ hr' => rw [hr] at hr'; cases hr'
    | enter _ hr' => rw [hr] at hr'; cases hr'
    | exit hw =>
      have := total_set (f := closing) .exited hw
      exact ⟨hj, by simp, by simp [ofAny, closing] at this ⊢; omega⟩
    | returns hw =>
      have := total_set (f := closing) .loop hw
      exact ⟨hj, by simp, by simp [ofAny, closing] at this ⊢; omega⟩
    | keep q _ hs' => rw [hs] at hs'; cases hs'
    | user n q _ hs' => rw [hs] at hs'; cases hs'
    | expires _ hr' => rw [hr] at hr'; cases hr'
    | dropped hw =>
      obtain ⟨-, f2, f3, -⟩ := finished_fields { s with workers := s.workers.set t .inRun }
      have := total_set (f := closing) .inRun hw
      refine ⟨f2.trans hj, by rw [f3]; simp, ?_⟩
      rw [f3]; simp [ofAny, closing] at this ⊢; omega
    | rearm hw =>
      have := total_set (f := closing) .inRun hw
      exact ⟨hj, by simp, by simp [ofAny, closing] at this ⊢; omega⟩
    | done n hw =>
      obtain ⟨-, f2, f3, -⟩ := finished_fields { s with workers := s.workers.set t .inRun }
      have := total_set (f := closing) .inRun hw
      refine ⟨f2.trans hj, by rw [f3]; simp, ?_⟩
      rw [f3]; simp [ofAny, closing] at this ⊢; omega

theorem run_closing {s s' : St} {as : List Step} (i : Inv s) (hj : s.joining = true) (ha : .join ∉ as)
    (h : run s as = some s') : s'.joining = true ∧ s'.workers.length = s.workers.length ∧
      total closing s'.workers + as.countP ofAny ≤ total closing s.workers := by
  induction as generalizing s with
  | nil => cases h; exact ⟨hj, rfl, by simp⟩
  | cons a as ih =>
    simp only [run, Option.bind_eq_some_iff] at h
    obtain ⟨s1, h1, h2⟩ := h
    obtain ⟨f1, f2, f3⟩ := step_closing i hj (fun e => ha (e ▸ List.mem_cons_self)) h1
    obtain ⟨g1, g2, g3⟩ := ih (step_inv i h1) f1 (fun e => ha (List.mem_cons_of_mem _ e)) h2
    refine ⟨g1, g2.trans f2, ?_⟩
    rw [List.countP_cons]; omega

/-- While a shutdown waits, a worker that has not ended can go on. -/
theorem closing_enabled {s : St} {t : Nat} {w : Worker} (i : Inv s) (hj : s.joining = true) (hw : s.workers[t]? = some w)
    (he : w ≠ .exited) : ∃ s', step s (.go t) = some s' := by
  obtain ⟨hr, hs⟩ := i.joins hj
  cases w with
  | loop => exact ⟨_, by simp [step, St.go, hw, hr]; rfl⟩
  | inRun => exact ⟨_, by simp [step, St.go, hw, hs]; rfl⟩
  | handling x => cases x <;> exact ⟨_, by simp [step, St.go, hw, hr]; rfl⟩
  | rearm => exact ⟨_, by simp [step, St.go, hw]; rfl⟩
  | exited => exact absurd rfl he

/-- The measure of a scheduler with one handler of its timer. -/
def St.idle (s : St) : Nat := 4 * s.queue.length + total stage s.workers

theorem stage_le (w : Worker) : stage w ≤ 3 := by cases w <;> simp [stage]

theorem go_idle {s s' : St} {t : Nat} (i : Inv s) (hr : s.running = true) (h1 : s.tokens ≤ 1) (h : step s (.go t) = some s') :
    s'.running = true ∧ s'.tokens ≤ 1 ∧ s'.idle + 1 ≤ s.idle := by
  have g := go_cases h
  have hst := (i.alive hr).2.1
  have ht : s'.tokens = s.tokens := by
    rcases go_tokens g with h | ⟨h, _⟩
    · exact h
    · rw [hr] at h; cases h
  refine ⟨?_, ht ▸ h1, ?_⟩
  · cases g with
    | dropped hu hr' => rw [hr] at hr'; cases hr'
    | done n hu => rw [(finished_fields _).1]; exact hr
    | _ => exact hr
  cases g with
  | empty hu _ h0 => have := (i.alive hr).1; have := tokens_work s; omega
  | enter hw => have := total_set (f := stage) .inRun hw; simp [St.idle, stage] at this ⊢; omega
  | exit hu hr' => rw [hr] at hr'; cases hr'
  | returns hu hs => rw [hst] at hs; cases hs
  | keep q hw _ hq => have := total_set (f := stage) (.handling .keep) hw; simp [St.idle, stage, hq] at this ⊢; omega
  | user n q hw _ hq => have := total_set (f := stage) (.handling (.user n)) hw; simp [St.idle, stage, hq] at this ⊢; omega
  | expires hw =>
    have h2 := total_set (f := stage) .rearm hw
    have h3 : 0 < s.workers.countP Worker.isKeep := List.countP_pos_iff.2 ⟨_, List.mem_of_getElem? hw, rfl⟩
    have h4 : s.waits = 0 := by simp only [St.tokens] at h1; omega
    simp [St.idle, St.expires, stage, h4] at h2 ⊢; omega
  | dropped hu hr' => rw [hr] at hr'; cases hr'
  | rearm hw => have := total_set (f := stage) .inRun hw; simp [St.idle, stage] at this ⊢; omega
  | done n hw =>
    obtain ⟨-, -, f3, f4, -⟩ := finished_fields { s with workers := s.workers.set t .inRun }
    have := total_set (f := stage) .inRun hw
    simp only [St.idle]; rw [f3, f4]; simp [stage] at this ⊢; omega

/-- There is at most one handler of the timer for each startup. -/
theorem step_starts {s s' : St} {a : Step} (i : Inv s) (ht : s.tokens ≤ s.starts) (h : step s a = some s') :
    s'.tokens ≤ s'.starts := by
  cases a with
  | startup n =>
    simp only [step] at h
    split at h
    · cases h
    · next hc =>
      have hw : s.workers = [] := i.rest (by simpa using fun h => hc (Or.inl h)) (by simpa using fun h => hc (Or.inr h))
      cases h
      simp [St.tokens, St.expires, hw, List.countP_replicate] at ht ⊢; omega
  | stop => simp only [step] at h; split at h <;> cases h; exact ht
  | join =>
    simp only [step] at h
    split at h <;> [skip; cases h]
    split at h <;> cases h
    · simp [St.tokens] at ht ⊢; omega
    · simp [St.tokens]
  | post n => cases h; simp [St.tokens] at ht ⊢; omega
  | initiate n => cases h; exact ht
  | complete n => simp only [step] at h; split at h <;> cases h; simp [St.tokens] at ht ⊢; omega
  | expire => simp only [step] at h; split at h <;> cases h; simp [St.tokens, St.expires] at ht ⊢; omega
  | go t =>
    have g := go_cases h
    have h1 := go_tokens g
    have h2 : s'.starts = s.starts := by
      cases g with
      | dropped => exact (finished_fields _).2.2.2.2.2.2.2.2.2.1
      | done => exact (finished_fields _).2.2.2.2.2.2.2.2.2.1
      | _ => rfl
    omega
  | throw t =>
    obtain ⟨n, hw, rfl⟩ := throw_cases h
    rw [finished_tokens, throw_tokens hw, (finished_fields _).2.2.2.2.2.2.2.2.2.1]; exact ht

theorem run_starts {s s' : St} {as : List Step} (i : Inv s) (ht : s.tokens ≤ s.starts) (h : run s as = some s') :
    s'.tokens ≤ s'.starts := by
  induction as generalizing s with
  | nil => cases h; exact ht
  | cons a as ih =>
    simp only [run, Option.bind_eq_some_iff] at h
    obtain ⟨s1, h1, h2⟩ := h
    exact ih (step_inv i h1) (step_starts i ht h1) h2

theorem reach_starts {k : Kind} {s : St} (h : Reach k s) : s.tokens ≤ s.starts := by
  obtain ⟨as, h⟩ := h
  exact run_starts (inv_init k) (by simp [St.tokens]) h

/-- While the scheduler runs, no handler of its timer is lost. -/
theorem step_tokens {s s' : St} {a : Step} (i : Inv s) (hr : s.running = true) (ha : a ≠ .stop) (h : step s a = some s') :
    s'.running = true ∧ s'.tokens = s.tokens ∧ s'.workers.length = s.workers.length := by
  cases a with
  | startup n => simp [step, hr] at h
  | stop => exact absurd rfl ha
  | join =>
    simp only [step] at h; split at h
    · next hc => have := (i.joins hc.1).1; rw [hr] at this; cases this
    · cases h
  | post n => cases h; exact ⟨hr, by simp [St.tokens], rfl⟩
  | initiate n => cases h; exact ⟨hr, rfl, rfl⟩
  | complete n => simp only [step] at h; split at h <;> cases h; exact ⟨hr, by simp [St.tokens], rfl⟩
  | expire =>
    simp only [step] at h; split at h <;> cases h
    exact ⟨hr, by simp [St.tokens, St.expires], rfl⟩
  | throw t =>
    obtain ⟨n, hw, rfl⟩ := throw_cases h
    obtain ⟨f1, -, f3, -⟩ := finished_fields { s with workers := s.workers.set t .loop }
    exact ⟨f1.trans hr, by rw [finished_tokens, throw_tokens hw], by rw [f3]; simp⟩
  | go t =>
    have g := go_cases h
    have ht : s'.tokens = s.tokens := by
      rcases go_tokens g with h | ⟨h, _⟩
      · exact h
      · rw [hr] at h; cases h
    refine ⟨?_, ht, ?_⟩
    · cases g with
      | dropped hu hr' => rw [hr] at hr'; cases hr'
      | done n hu => rw [(finished_fields _).1]; exact hr
      | _ => exact hr
    · cases g with
      | dropped => rw [(finished_fields _).2.2.1]; simp
      | done => rw [(finished_fields _).2.2.1]; simp
      | empty => rfl
      | _ => simp

theorem run_tokens {s s' : St} {as : List Step} (i : Inv s) (hr : s.running = true) (ha : .stop ∉ as)
    (h : run s as = some s') : s'.running = true ∧ s'.tokens = s.tokens ∧ s'.workers.length = s.workers.length := by
  induction as generalizing s with
  | nil => cases h; exact ⟨hr, rfl, rfl⟩
  | cons a as ih =>
    simp only [run, Option.bind_eq_some_iff] at h
    obtain ⟨s1, h1, h2⟩ := h
    obtain ⟨f1, f2, f3⟩ := step_tokens i hr (fun e => ha (e ▸ List.mem_cons_self)) h1
    obtain ⟨g1, g2, g3⟩ := ih (step_inv i h1) f1 (fun e => ha (List.mem_cons_of_mem _ e)) h2
    exact ⟨g1, g2.trans f2, g3.trans f3⟩

/-- One worker, and at most one wait of the timer. -/
structure One (s : St) : Prop where
  one : s.workers.length = 1
  few : s.waits ≤ 1
  gap : s.workers = [.rearm] → s.waits = 0

theorem one_at {s : St} {t : Nat} {w : Worker} (o : s.workers.length = 1) (hw : s.workers[t]? = some w) :
    t = 0 ∧ s.workers = [w] ∧ ∀ w', s.workers.set t w' = [w'] := by
  obtain ⟨x, hx⟩ := List.length_eq_one_iff.1 o
  rw [hx] at hw ⊢
  cases t with
  | zero => simp only [List.getElem?_cons_zero, Option.some.injEq] at hw; subst hw; exact ⟨rfl, rfl, fun _ => rfl⟩
  | succ t => simp at hw

theorem step_one {s s' : St} {a : Step} (i : Inv s) (hr : s.running = true) (o : One s) (ha : a ≠ .stop)
    (h : step s a = some s') : One s' := by
  have hl := (step_tokens i hr ha h).2.2.trans o.one
  cases a with
  | startup n => simp [step, hr] at h
  | stop => exact absurd rfl ha
  | join =>
    simp only [step] at h; split at h
    · next hc => have := (i.joins hc.1).1; rw [hr] at this; cases this
    · cases h
  | post n => cases h; exact ⟨o.one, o.few, o.gap⟩
  | initiate n => cases h; exact ⟨o.one, o.few, o.gap⟩
  | complete n => simp only [step] at h; split at h <;> cases h; exact ⟨o.one, o.few, o.gap⟩
  | expire => simp only [step] at h; split at h <;> cases h; exact ⟨o.one, Nat.zero_le _, fun _ => rfl⟩
  | throw t =>
    obtain ⟨n, hw, rfl⟩ := throw_cases h
    obtain ⟨-, -, f3, -, f5, -⟩ := finished_fields { s with workers := s.workers.set t .loop }
    refine ⟨hl, Nat.le_trans (Nat.le_of_eq f5) o.few, fun e => ?_⟩
    rw [f3] at e
    have := ((one_at o.one hw).2.2 .loop).symm.trans e
    cases this
  | go t =>
    cases go_cases h with
    | empty => exact ⟨o.one, o.few, o.gap⟩
    | enter hw => exact ⟨hl, o.few, fun e => by have := ((one_at o.one hw).2.2 .inRun).symm.trans e; cases this⟩
    | exit hw => exact ⟨hl, o.few, fun e => by have := ((one_at o.one hw).2.2 .exited).symm.trans e; cases this⟩
    | returns hw => exact ⟨hl, o.few, fun e => by have := ((one_at o.one hw).2.2 .loop).symm.trans e; cases this⟩
    | keep q hw => exact ⟨hl, o.few, fun e => by have := ((one_at o.one hw).2.2 (.handling .keep)).symm.trans e; cases this⟩
    | user n q hw => exact ⟨hl, o.few, fun e => by have := ((one_at o.one hw).2.2 (.handling (.user n))).symm.trans e; cases this⟩
    | expires hw => exact ⟨hl, Nat.zero_le _, fun _ => rfl⟩
    | dropped hw hr' => rw [hr] at hr'; cases hr'
    | rearm hw =>
      have h0 := o.gap (one_at o.one hw).2.1
      exact ⟨hl, by simp [h0], fun e => by have := ((one_at o.one hw).2.2 .inRun).symm.trans e; cases this⟩
    | done n hw =>
      obtain ⟨-, -, f3, -, f5, -⟩ := finished_fields { s with workers := s.workers.set t .inRun }
      refine ⟨hl, Nat.le_trans (Nat.le_of_eq f5) o.few, fun e => ?_⟩
      rw [f3] at e
      have := ((one_at o.one hw).2.2 .inRun).symm.trans e
      cases this

theorem run_one {s s' : St} {as : List Step} (i : Inv s) (hr : s.running = true) (o : One s) (ha : .stop ∉ as)
    (h : run s as = some s') : One s' := by
  induction as generalizing s with
  | nil => cases h; exact o
  | cons a as ih =>
    simp only [run, Option.bind_eq_some_iff] at h
    obtain ⟨s1, h1, h2⟩ := h
    have ha1 : a ≠ .stop := fun e => ha (e ▸ List.mem_cons_self)
    exact ih (step_inv i h1) (step_tokens i hr ha1 h1).1 (step_one i hr o ha1 h1) (fun e => ha (List.mem_cons_of_mem _ e)) h2

/-- With two handlers of the timer, a single worker never sleeps. -/
theorem one_spins {s : St} (i : Inv s) (hr : s.running = true) (o : One s) (h2 : 2 ≤ s.tokens) :
    ∃ s', step s (.go 0) = some s' := by
  obtain ⟨w, hw⟩ := List.length_eq_one_iff.1 o.one
  have hst := (i.alive hr).2.1
  have hw0 : s.workers[0]? = some w := by rw [hw]; rfl
  cases w with
  | loop => by_cases h0 : s.work = 0 <;> exact ⟨_, by simp [step, St.go, hw0, hr, h0]; rfl⟩
  | inRun =>
    have hq : s.queue ≠ [] := by
      intro hq
      have := o.few
      simp [St.tokens, hq, hw] at h2
      omega
    obtain ⟨x, xs, hx⟩ := List.exists_cons_of_ne_nil hq
    cases x <;> exact ⟨_, by simp only [step, St.go, hw0, hst, hx]; rfl⟩
  | handling x => cases x <;> exact ⟨_, by simp [step, St.go, hw0, hr]; rfl⟩
  | rearm => exact ⟨_, by simp only [step, St.go, hw0]; rfl⟩
  | exited => exact absurd (hw ▸ List.mem_cons_self) (i.alive hr).2.2

/-- A shutdown that does not find the timer's handler in execution leaves a handler of the timer. -/
theorem step_left {s s' : St} {a : Step} (i : Inv s) (hj : s.joining = true) (hk : Worker.handling .keep ∉ s.workers)
    (ha : a ≠ .join) (h : step s a = some s') : Worker.handling .keep ∉ s'.workers ∧ s'.tokens = s.tokens := by
  obtain ⟨hr, hs⟩ := i.joins hj
  cases a with
  | startup n => simp [step, hj] at h
  | stop => simp [step, hj] at h
  | join => exact absurd rfl ha
  | post n => cases h; exact ⟨hk, by simp [St.tokens]⟩
  | initiate n => cases h; exact ⟨hk, rfl⟩
  | complete n => simp only [step] at h; split at h <;> cases h; exact ⟨hk, by simp [St.tokens]⟩
  | expire => simp only [step] at h; split at h <;> cases h; exact ⟨hk, by simp [St.tokens, St.expires]⟩
  | throw t =>
    obtain ⟨n, hw, rfl⟩ := throw_cases h
    refine ⟨?_, by rw [finished_tokens, throw_tokens hw]⟩
    rw [(finished_fields _).2.2.1]; exact not_mem_set hk (by simp)
  | go t =>
    have g := go_cases h
    have ht : s'.tokens = s.tokens := by
      rcases go_tokens g with h | ⟨_, h, _⟩
      · exact h
      · exact absurd (List.mem_of_getElem? h) hk
    refine ⟨?_, ht⟩
    cases g with
    | keep q _ hs' => rw [hs] at hs'; cases hs'
    | empty => exact hk
    | dropped hw => exact absurd (List.mem_of_getElem? hw) hk
    | done => rw [(finished_fields _).2.2.1]; exact not_mem_set hk (by simp)
    | _ => exact not_mem_set hk (by simp)

theorem run_left {s s' : St} {as : List Step} (i : Inv s) (hj : s.joining = true) (hk : Worker.handling .keep ∉ s.workers)
    (ha : .join ∉ as) (h : run s as = some s') : s'.joining = true ∧ s'.tokens = s.tokens := by
  induction as generalizing s with
  | nil => cases h; exact ⟨hj, rfl⟩
  | cons a as ih =>
    simp only [run, Option.bind_eq_some_iff] at h
    obtain ⟨s1, h1, h2⟩ := h
    have ha1 : a ≠ .join := fun e => ha (e ▸ List.mem_cons_self)
    obtain ⟨f1, f2⟩ := step_left i hj hk ha1 h1
    obtain ⟨g1, g2⟩ := ih (step_inv i h1) (step_closing i hj ha1 h1).1 f1 (fun e => ha (List.mem_cons_of_mem _ e)) h2
    exact ⟨g1, g2.trans f2⟩

/-- Without workers nothing is executed. -/
theorem step_rest {s s' : St} {a : Step} (hw : s.workers = []) (ha : ∀ n, a ≠ .startup n) (h : step s a = some s') :
    s'.workers = [] ∧ s'.executed = s.executed := by
  cases a with
  | startup n => exact absurd rfl (ha n)
  | stop => simp only [step] at h; split at h <;> cases h; exact ⟨hw, rfl⟩
  | join => simp only [step] at h; split at h <;> [skip; cases h]; split at h <;> cases h <;> exact ⟨rfl, rfl⟩
  | post n => cases h; exact ⟨hw, rfl⟩
  | initiate n => cases h; exact ⟨hw, rfl⟩
  | complete n => simp only [step] at h; split at h <;> cases h; exact ⟨hw, rfl⟩
  | expire => simp only [step] at h; split at h <;> cases h; exact ⟨hw, rfl⟩
  | throw t => obtain ⟨n, hw', -⟩ := throw_cases h; simp [hw] at hw'
  | go t => simp [step, St.go, hw] at h

theorem run_rest {s s' : St} {as : List Step} (hw : s.workers = []) (ha : ∀ n, .startup n ∉ as) (h : run s as = some s') :
    s'.executed = s.executed := by
  induction as generalizing s with
  | nil => cases h; rfl
  | cons a as ih =>
    simp only [run, Option.bind_eq_some_iff] at h
    obtain ⟨s1, h1, h2⟩ := h
    obtain ⟨f1, f2⟩ := step_rest hw (fun n e => ha n (e ▸ List.mem_cons_self)) h1
    exact (ih f1 (fun n e => ha n (List.mem_cons_of_mem _ e)) h2).trans f2

/-- A worker stays in its handler as long as it makes no step. -/
theorem step_held {s s' : St} {a : Step} {t : Nat} {x : Handler} (i : Inv s) (hw : s.workers[t]? = some (.handling x))
    (ha : ofWorker t a = false) (h : step s a = some s') : s'.workers[t]? = some (.handling x) := by
  have hne : s.workers ≠ [] := fun e => by simp [e] at hw
  have hset : ∀ u w, a = .go u ∨ a = .throw u → (s.workers.set u w)[t]? = some (.handling x) := by
    intro u w e
    rw [set_other]
    · exact hw
    · rintro rfl; rcases e with rfl | rfl <;> simp [ofWorker] at ha
  cases a with
  | startup n =>
    simp only [step] at h
    split at h
    · cases h
    · next hc => exact absurd (i.rest (by simpa using fun h => hc (Or.inl h)) (by simpa using fun h => hc (Or.inr h))) hne
  | stop => simp only [step] at h; split at h <;> cases h; exact hw
  | join =>
    simp only [step] at h
    split at h <;> [skip; cases h]
    next hc =>
      have := List.all_eq_true.1 hc.2 _ (List.mem_of_getElem? hw)
      simp at this
  | post n => cases h; exact hw
  | initiate n => cases h; exact hw
  | complete n => simp only [step] at h; split at h <;> cases h; exact hw
  | expire => simp only [step] at h; split at h <;> cases h; exact hw
  | throw u => obtain ⟨n, hu, rfl⟩ := throw_cases h; rw [(finished_fields _).2.2.1]; exact hset u _ (.inr rfl)
  | go u =>
    cases go_cases h with
    | empty => exact hw
    | dropped => rw [(finished_fields _).2.2.1]; exact hset u _ (.inl rfl)
    | done => rw [(finished_fields _).2.2.1]; exact hset u _ (.inl rfl)
    | _ => exact hset u _ (.inl rfl)

theorem run_held {s s' : St} {as : List Step} {t : Nat} {x : Handler} (i : Inv s) (hw : s.workers[t]? = some (.handling x))
    (ha : as.countP (ofWorker t) = 0) (h : run s as = some s') : s'.workers[t]? = some (.handling x) := by
  induction as generalizing s with
  | nil => cases h; exact hw
  | cons a as ih =>
    simp only [run, Option.bind_eq_some_iff] at h
    obtain ⟨s1, h1, h2⟩ := h
    rw [List.countP_cons] at ha
    have ha1 : ofWorker t a = false := by
      cases h : ofWorker t a with
      | false => rfl
      | true => rw [h] at ha; simp at ha
    exact ih (step_inv i h1) (step_held i hw ha1 h1) (by omega) h2

end Verif.Workers
