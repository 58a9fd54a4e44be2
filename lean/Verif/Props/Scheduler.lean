import Verif.Lemmas.Scheduler
/-
C41: `shutdown` returns only when as many users were removed as were added, and the scheduler is running while it has
users. The count is exact for every interleaving; that the scheduler keeps running needs that no `shutdown` comes
between the check and the count in `add_active_user` (`user_without_scheduler` is such a schedule).
C42: `one_to_one_scheduler::get_io_service` returns a service of the pool, and takes them in turn.
-/
namespace Verif.Props.Scheduler
open Verif.Sched Verif.Spec.Sched

/-- A schedule and a contract: reachability by computation, for the examples. -/
private theorem reach_any {s s' : St} (l : List (Nat × Act)) : Reach Any s → s.run l = some s' → Reach Any s' := by
  induction l generalizing s with
  | nil => intro h he; simp only [St.run, Option.some.injEq] at he; exact he ▸ h
  | cons x l ih =>
    obtain ⟨t, a⟩ := x
    intro h he
    simp only [St.run] at he
    cases hs : s.step t a with
    | none => rw [hs] at he; cases he
    | some s1 => rw [hs] at he; exact ih (.step h trivial hs) he

/-- C41, no contract at all: when a call of `shutdown` that found the scheduler running returns, the calls of
    `add_active_user` and `remove_active_user` that have returned are equally many, modulo 2^32. -/
theorem shutdown_counts {s : St} (hr : Reach Any s) {t : Nat} {a : Act} (h : Completes s t a true) :
    adds s % 2 ^ 32 = removes s % 2 ^ 32 := by
  have h0 := completes_users h
  rw [users_eq hr] at h0
  have h1 : UInt32.ofNat (adds s) = UInt32.ofNat (removes s) := by grind
  have := congrArg UInt32.toNat h1
  simpa using this

/-- C41: and if users are removed only after they were added (and there are less than 2^32 of them at a time), equally
    many. -/
theorem shutdown_waits {s : St} (hr : Reach Paired s) {t : Nat} {a : Act} (h : Completes s t a true) :
    adds s = removes s := by
  have h0 := paired_users hr
  rw [completes_users h] at h0
  have := paired_bounds hr
  simp at h0
  omega

/-- Two threads: a user is added, `shutdown` waits, the user is removed, `shutdown` returns. -/
def waitRun : List (Nat × Act) := [(0, .add), (0, .go), (0, .go), (1, .shutdown), (0, .remove)]

example : ∃ s, St.init.run waitRun = some s ∧ Completes s 1 .go true ∧ adds s = 1 ∧ removes s = 1 ∧
    s.pc 1 = .shutWait true :=
  ⟨_, rfl, ⟨_, rfl, rfl⟩, by decide, by decide, rfl⟩

/-- And it does wait: before the removal it cannot return. -/
example : ∃ s, St.init.run (waitRun.take 4) = some s ∧ ¬ Completes s 1 .go true := by
  refine ⟨_, rfl, ?_⟩
  rintro ⟨s', hs, hl⟩
  cases hs
  exact absurd hl (by decide)

/-- C41: no notification is lost. A thread that waits in `shutdown` without having been notified waits for users that
    are still there. -/
theorem shutdown_not_stuck {s : St} (hr : Reach Paired s) {t : Nat} (h : s.pc t = .shutWait false) :
    removes s < adds s := by
  have h1 := waiting_users hr t h
  have h2 := paired_users hr
  have h3 := paired_bounds hr
  have : s.users.toNat ≠ 0 := fun h0 => h1 (UInt32.toNat_inj.mp h0)
  omega

/-- C41: once all users are gone, a thread in `shutdown` that runs returns. -/
theorem shutdown_returns {s : St} (hr : Reach Paired s) {t : Nat} {b : Bool} (h : s.pc t = .shutWait b)
    (he : adds s = removes s) : Completes s t .go true := by
  have h2 := paired_users hr
  have h0 : s.users = 0 := UInt32.toNat_inj.mp (by simp; omega)
  have hs : s.step t .go = some (s.shutLoop t) := by
    unfold St.step
    rw [h]
  refine ⟨_, hs, ?_⟩
  unfold St.shutLoop
  rw [if_neg (by rw [h0]; decide)]
  rfl

/-- C41: `join` returns only when the scheduler has stopped, and is notified when it does. -/
theorem join_stopped {ok : St → Nat → Act → Prop} {s : St} (hr : Reach ok s) :
    (∀ t a s', s.step t a = some s' → s'.log = s.log ++ [.joined] → s.running = false) ∧
    (∀ t, s.pc t = .joinWait false → s.running = true) := by
  refine ⟨?_, waiting_running hr⟩
  intro t a s' hs hl
  unfold St.step at hs
  split at hs <;> (try cases hs) <;> (try simp at hl)
  · split at hl
    · unfold St.shutLoop at hl
      split at hl <;> simp [St.finish] at hl
    · simp [St.finish] at hl
  · unfold St.shutLoop at hl
    split at hl <;> simp [St.finish] at hl
  all_goals
    unfold St.joinLoop at hl
    split at hl
    · simp at hl
    · rename_i h; simpa using h

example : ∃ s s', St.init.run [(0, .startup), (1, .join), (2, .shutdown)] = some s ∧ s.pc 1 = .joinWait true ∧
    s.step 1 .go = some s' ∧ s'.log = s.log ++ [.joined] :=
  ⟨_, _, rfl, rfl, rfl, rfl⟩

/-- C41, partially: while there are users the scheduler is running, and a call of `shutdown` returns, whether it found
    the scheduler running or not, only when there are none. Missing: schedules in which a `shutdown` returns while
    another thread is between the check and the count of `add_active_user`. -/
theorem running_with_users_partial {s : St} (hr : Reach Calm s) :
    (removes s < adds s → s.running = true) ∧ (∀ t a b, Completes s t a b → adds s = removes s) := by
  have hi := calm_inv hr
  refine ⟨fun h => ?_, fun t a b h => ?_⟩
  · rcases hi with hi | hi
    · exact hi
    · omega
  · cases b with
    | true => exact shutdown_waits (calm_paired hr) h
    | false =>
      rcases hi with hi | hi
      · rw [completes_stopped h] at hi; cases hi
      · exact hi.1

/-- Finding: thread 0 finds the scheduler running, thread 1 shuts it down, thread 0 counts its user. The scheduler has
    a user and is not running, and another `shutdown` returns at once. -/
theorem user_without_scheduler : ∃ s, Reach Any s ∧ removes s = 0 ∧ adds s = 1 ∧ s.running = false ∧
    Completes s 1 .shutdown false :=
  ⟨_, reach_any [(1, .startup), (0, .add), (1, .shutdown), (0, .go)] .init rfl, by decide, by decide, rfl, ⟨_, rfl, rfl⟩⟩

/-- Finding: a `remove_active_user` too many makes the counter 2^32 - 1, and `shutdown` waits. -/
theorem unpaired_remove_hangs : ∃ s, Reach Any s ∧ adds s = 0 ∧ s.pc 0 = .shutWait false ∧ s.users = 0xffffffff :=
  ⟨_, reach_any [(0, .startup), (0, .remove), (0, .shutdown)] .init rfl, by decide, rfl, rfl⟩

/-- Finding: `stop_threads` joins every thread of the pool, the calling one too, although it is meant to leave it out:
    `shutdown` called by a worker waits for itself. -/
theorem stop_threads_joins_caller (pool : List Nat) : joined pool = pool := by
  simp [joined]

example : 3 ∈ joined [2, 3, 4] := by decide

/-- C42: at any time after any calls, as long as the number of threads is not zero, `get_io_service` returns a service
    of the pool, one of the first `threads` ones. -/
theorem get_valid (ops : List POp) (hn : 0 < (Pool.init.run ops).threads.toNat) :
    ∃ i x, i < (Pool.init.run ops).threads.toNat ∧ (Pool.init.run ops).get.2 = some x ∧
      (Pool.init.run ops).get.1.services[i]? = some x := by
  have hx := next_lt ops Pool.init (by decide)
  obtain ⟨h1, h2, _⟩ := get_eq _ hx hn
  have hi := index_lt _ hn
  have hg := grow_length (Pool.init.run ops)
  have hlt : (Pool.init.run ops).index < (Pool.init.run ops).grow.services.length := by omega
  refine ⟨_, (Pool.init.run ops).grow.services[(Pool.init.run ops).index], hi, ?_, ?_⟩
  · rw [h1, List.getElem?_eq_getElem hlt]
  · rw [h2, List.getElem?_eq_getElem hlt]

private theorem rotate_perm (n s : Nat) (hs : s < n) :
    ((List.range n).map fun j => (s + j) % n).Perm (List.range n) := by
  have h1 : List.range n = List.range (n - s) ++ (List.range s).map ((n - s) + ·) := by
    rw [← List.range_add]; congr 1; omega
  have h2 : List.range n = List.range s ++ (List.range (n - s)).map (s + ·) := by
    rw [← List.range_add]; congr 1; omega
  have h3 : ((List.range n).map fun j => (s + j) % n) = (List.range (n - s)).map (s + ·) ++ List.range s := by
    conv => lhs; arg 2; rw [h1]
    rw [List.map_append, List.map_map]
    congr 1
    · apply List.map_congr_left
      intro j hj
      have := List.mem_range.mp hj
      exact Nat.mod_eq_of_lt (by omega)
    · conv => rhs; rw [← List.map_id (List.range s)]
      apply List.map_congr_left
      intro j hj
      have := List.mem_range.mp hj
      simp only [Function.comp, id]
      have h4 : s + (n - s + j) = j + n := by omega
      rw [h4, Nat.add_mod_right, Nat.mod_eq_of_lt (by omega)]
  rw [h3]
  conv => rhs; rw [h2]
  exact List.perm_append_comm

private theorem take_map {α : Type} (l : List α) (n : Nat) (h : n ≤ l.length) :
    (List.range n).map (fun i => l[i]?) = (l.take n).map some := by
  apply List.ext_getElem
  · simp; omega
  · intro i h1 h2
    simp only [List.length_map, List.length_range] at h1
    simp

/-- C42: any `n` calls in a row, `n` being the number of threads, return each of `n` different services once. -/
theorem get_each_once (ops : List POp) (hn : 0 < (Pool.init.run ops).threads.toNat) :
    ∃ services : List Nat, services.Nodup ∧ services.length = (Pool.init.run ops).threads.toNat ∧
      ((Pool.init.run ops).gets (Pool.init.run ops).threads.toNat).2.Perm (services.map some) := by
  have hx := next_lt ops Pool.init (by decide)
  have hok := grow_ok (run_ok ops Pool.init ⟨List.nodup_nil, by simp [Pool.init]⟩)
  generalize Pool.init.run ops = p at *
  have hi := index_lt p hn
  have hg := grow_length p
  refine ⟨p.grow.services.take p.threads.toNat, hok.1.sublist (List.take_sublist _ _), by simp; omega, ?_⟩
  rw [gets_eq _ p hx hn, ← take_map _ _ hg]
  have := (rotate_perm p.threads.toNat p.index hi).map fun i => p.grow.services[i]?
  rwa [List.map_map] at this

/-- C42: and the calls go round: the result of a call depends on its number only modulo the number of threads. -/
theorem get_round_robin (ops : List POp) (hn : 0 < (Pool.init.run ops).threads.toNat) (k : Nat) :
    ∃ services : List Nat, ∃ start < (Pool.init.run ops).threads.toNat,
      ((Pool.init.run ops).gets k).2 =
        (List.range k).map fun j => services[(start + j) % (Pool.init.run ops).threads.toNat]? :=
  ⟨_, _, index_lt _ hn, gets_eq k _ (next_lt ops Pool.init (by decide)) hn⟩

example : (Pool.init.run [.get, .get, .setThreads 3, .get]).gets 4 =
    (⟨List.range 8, 1, 3, 8⟩, [some 1, some 2, some 0, some 1]) := by decide

example : ((Pool.init.run [.setThreads 3, .startup, .get]).gets 3).2 = [some 2, some 0, some 1] := by decide

/-- With zero threads the assertion fails. -/
theorem get_zero_threads (p : Pool) (h : p.threads = 0) : p.get.2 = none := by
  simp [Pool.get, Pool.grow, h]

end Verif.Props.Scheduler
