import Verif.Base
/-
Model of the worker threads of a scheduler and the `io_service` they run (/repo/src/scheduler.cpp:77-86, 108-175,
/repo/include/pion/scheduler.hpp:199-357): the one service of `single_service_scheduler`, or one of the services of
`one_to_one_scheduler`. The calls of `startup`, `shutdown` and the workers interleave.

The `io_service` is modelled after the documentation of asio: handlers that are ready are taken in order; an operation or
a wait that has not completed, a ready handler and a handler that is being executed are work; `run` returns when the service is
stopped or without work, in which case it becomes stopped, or by an exception of a handler. `deadline_timer::expires_from_now`
makes the handlers of the pending waits ready (with an error `keep_running` does not look at).

The reads of `m_is_running` by the workers, which hold no lock, are modelled as if the flag were atomic.

Simplified: users of the scheduler (`Model/Scheduler` has them); `shutdown` is called by a thread that is not a worker unless a
theorem says otherwise; `m_is_running = false` and `stop_services` are one step; a handler is done in one step, what it posts is posted by separate steps.
-/
namespace Verif.Workers

/-- `single`: `single_service_scheduler`; otherwise `one_to_one_scheduler`. -/
inductive Kind where
  | single | oneToOne
  deriving Repr, DecidableEq

/-- The handler of the scheduler's own timer (/repo/src/scheduler.cpp:83), or one of its users. -/
inductive Handler where
  | keep
  | user (n : Nat)
  deriving Repr, DecidableEq

/-- Where a worker is in `process_service_work` (/repo/src/scheduler.cpp:108-118). -/
inductive Worker where
  /-- about to read `m_is_running` (/repo/src/scheduler.cpp:109) -/
  | loop
  /-- in `service.run()`, not in a handler -/
  | inRun
  | handling (h : Handler)
  /-- in `keep_running` between `expires_from_now` and `async_wait` (/repo/src/scheduler.cpp:82-83) -/
  | rearm
  /-- the thread has ended -/
  | exited
  deriving Repr, DecidableEq

/-- The scheduler and its service. `waits`: pending waits of the timer; `pending`: operations of users that have not
    completed; `joining`: a call of `shutdown` is in `stop_threads`. For the theorems: `accepted` are the handlers of users that have
    become ready, `executed` those a worker has begun, in order; `starts` counts the startups. -/
structure St where
  kind : Kind
  running : Bool := false
  joining : Bool := false
  stopped : Bool := false
  queue : List Handler := []
  waits : Nat := 0
  pending : List Nat := []
  workers : List Worker := []
  accepted : List Nat := []
  executed : List Nat := []
  starts : Nat := 0
  deriving Repr, DecidableEq

def Worker.busy : Worker → Bool
  | .handling _ => true
  | .rearm => true
  | _ => false

/-- The work of the service. -/
def St.work (s : St) : Nat := s.queue.length + s.waits + s.pending.length + s.workers.countP Worker.busy

/-- The service becomes stopped when its work is finished. -/
def St.finished (s : St) : St := if s.work = 0 then { s with stopped := true } else s

/-- `expires_from_now` (/repo/src/scheduler.cpp:82). -/
def St.expires (s : St) : St := { s with queue := s.queue ++ List.replicate s.waits .keep, waits := 0 }

inductive Step where
  /-- `startup` with this number of threads (/repo/src/scheduler.cpp:121-142, 148-175) -/
  | startup (threads : Nat)
  /-- `shutdown` up to `stop_threads` (/repo/src/scheduler.cpp:43-44, 57,
      /repo/include/pion/scheduler.hpp:269, 331-335) -/
  | stop
  /-- the rest of `shutdown` (/repo/src/scheduler.cpp:45-47, 58-60, /repo/include/pion/scheduler.hpp:214-231,
      272, 338): the threads are joined; a service of `single_service_scheduler` is reset, and keeps its handlers and operations, one of
      `one_to_one_scheduler` is destroyed with them -/
  | join
  /-- `post` (/repo/include/pion/scheduler.hpp:88-90) -/
  | post (n : Nat)
  /-- an operation begins, and completes -/
  | initiate (n : Nat)
  | complete (n : Nat)
  /-- the five seconds have passed -/
  | expire
  /-- a worker goes on -/
  | go (t : Nat)
  /-- a worker's handler ends by an exception -/
  | throw (t : Nat)
  deriving Repr, DecidableEq

/-- `process_service_work` (/repo/src/scheduler.cpp:108-118) and what `run` does, for worker `t`; `none` if it sleeps. -/
def St.go (s : St) (t : Nat) : Option St :=
  match s.workers[t]? with
  | some .loop =>
    if s.running then
      if s.work = 0 then some { s with stopped := true } else some { s with workers := s.workers.set t .inRun }
    else some { s with workers := s.workers.set t .exited }
  | some .inRun =>
    if s.stopped then some { s with workers := s.workers.set t .loop }
    else match s.queue with
      | [] => none
      | .keep :: q => some { s with queue := q, workers := s.workers.set t (.handling .keep) }
      | .user n :: q => some { s with queue := q, workers := s.workers.set t (.handling (.user n)), executed := s.executed ++ [n] }
  | some (.handling .keep) =>
    if s.running then some { s.expires with workers := s.workers.set t .rearm }
    else some { s with workers := s.workers.set t .inRun }.finished
  | some .rearm => some { s with waits := s.waits + 1, workers := s.workers.set t .inRun }
  | some (.handling (.user _)) => some { s with workers := s.workers.set t .inRun }.finished
  | _ => none

/-- One step; `none` if it cannot be taken now. -/
def step (s : St) : Step → Option St
  | .startup threads =>
    if s.running = true ∨ s.joining = true then none
    else
      let s := { s with running := true, stopped := false, starts := s.starts + 1 }.expires
      some { s with waits := 1, workers := List.replicate threads .loop }
  | .stop => if s.joining then none else some { s with running := false, stopped := true, joining := true }
  | .join =>
    if s.joining = true ∧ s.workers.all (· = .exited) then
      match s.kind with
      | .single => some { s with stopped := false, joining := false, workers := [] }
      | .oneToOne => some { s with stopped := false, joining := false, workers := [], queue := [], waits := 0, pending := [] }
    else none
  | .post n => some { s with queue := s.queue ++ [.user n], accepted := s.accepted ++ [n] }
  | .initiate n => some { s with pending := s.pending ++ [n] }
  | .complete n =>
    if n ∈ s.pending then some { s with pending := s.pending.erase n, queue := s.queue ++ [.user n], accepted := s.accepted ++ [n] }
    else none
  | .expire =>
    if 0 < s.waits then some s.expires else none
  | .go t => s.go t
  | .throw t =>
    match s.workers[t]? with
    | some (.handling (.user _)) => some { s with workers := s.workers.set t .loop }.finished
    | _ => none

/-- A sequence of steps. -/
def run (s : St) : List Step → Option St
  | [] => some s
  | a :: as => (step s a).bind (run · as)

/-- What can be reached from a new scheduler. -/
def Reach (k : Kind) (s : St) : Prop := ∃ as, run { kind := k } as = some s

end Verif.Workers
