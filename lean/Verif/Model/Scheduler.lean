import Verif.Base
/-
Model of `scheduler` (/repo/include/pion/scheduler.hpp, /repo/src/scheduler.cpp): any number of threads call it, and
their calls interleave at the points where the mutex is taken or released. Also the pool of `one_to_one_scheduler`.

Not modelled: the worker threads and their io_services. Stopping the services and joining the workers is part of the
step that finishes `shutdown` (the mutex is held all the while); it is taken to return.
-/
namespace Verif.Sched

/-- Where a thread is inside a call. Conditions can wake a thread at any time; the flag says that it was notified. -/
inductive Pc where
  | idle
  /-- in `add_active_user` (/repo/src/scheduler.cpp:90), about to call `startup` -/
  | addStartup
  /-- in `add_active_user`, about to take the mutex (/repo/src/scheduler.cpp:91) -/
  | addCount
  /-- in `shutdown`, waiting for `m_no_more_active_users` (/repo/src/scheduler.cpp:39) -/
  | shutWait (notified : Bool)
  /-- in `join`, waiting for `m_scheduler_has_stopped` (/repo/src/scheduler.cpp:73) -/
  | joinWait (notified : Bool)
  deriving Repr, DecidableEq

/-- Calls that have returned, in order. `shutdown b`: the scheduler was running when `shutdown` was entered. -/
inductive Ev where
  | added | removed | shutdown (wasRunning : Bool) | joined
  deriving Repr, DecidableEq

/-- `m_is_running`, `m_active_users`, the threads, and the calls that have returned. -/
structure St where
  running : Bool
  users : UInt32
  pc : Nat → Pc
  log : List Ev

/-- The constructor (/repo/include/pion/scheduler.hpp:40-43). -/
def St.init : St := ⟨false, 0, fun _ => .idle, []⟩

/-- What a thread does next: an idle thread begins a call, a thread inside a call goes on. -/
inductive Act where
  | startup | add | remove | shutdown | join | go
  deriving Repr, DecidableEq

def setPc (pc : Nat → Pc) (t : Nat) (p : Pc) : Nat → Pc := fun i => if i = t then p else pc i

/-- `m_no_more_active_users.notify_all()` (/repo/src/scheduler.cpp:99). -/
def notifyUsers (pc : Nat → Pc) : Nat → Pc := fun i => match pc i with
  | .shutWait _ => .shutWait true
  | p => p

/-- `m_scheduler_has_stopped.notify_all()` (/repo/src/scheduler.cpp:52, 64). -/
def notifyStopped (pc : Nat → Pc) : Nat → Pc := fun i => match pc i with
  | .joinWait _ => .joinWait true
  | p => p

/-- The end of `shutdown` (/repo/src/scheduler.cpp:42-52 and 56-64). -/
def St.finish (s : St) (t : Nat) (wasRunning : Bool) : St :=
  ⟨false, s.users, setPc (notifyStopped s.pc) t .idle, s.log ++ [.shutdown wasRunning]⟩

/-- The loop of `shutdown` on a running scheduler (/repo/src/scheduler.cpp:36-40). -/
def St.shutLoop (s : St) (t : Nat) : St :=
  if s.users > 0 then { s with pc := setPc s.pc t (.shutWait false) } else s.finish t true

/-- The loop of `join` (/repo/src/scheduler.cpp:71-74). -/
def St.joinLoop (s : St) (t : Nat) : St :=
  if s.running then { s with pc := setPc s.pc t (.joinWait false) }
  else { s with pc := setPc s.pc t .idle, log := s.log ++ [.joined] }

/-- One step of thread `t`; `none` if the thread cannot do that. `startup` is
    /repo/src/scheduler.cpp:123-143 and 148-175 (of the two schedulers), `add` and `remove` are 88-100, `shutdown` is
    27-66, `join` is 68-75. -/
def St.step (s : St) (t : Nat) (a : Act) : Option St :=
  match s.pc t, a with
  | .idle, .startup => some { s with running := true }
  | .idle, .add => some { s with pc := setPc s.pc t (if s.running then .addCount else .addStartup) }
  | .addStartup, .go => some { s with running := true, pc := setPc s.pc t .addCount }
  | .addCount, .go => some { s with users := s.users + 1, pc := setPc s.pc t .idle, log := s.log ++ [.added] }
  | .idle, .remove =>
    some { s with
      users := s.users - 1, log := s.log ++ [.removed],
      pc := if s.users - 1 = 0 then notifyUsers s.pc else s.pc }
  | .idle, .shutdown => some (if s.running then s.shutLoop t else s.finish t false)
  | .shutWait _, .go => some (s.shutLoop t)
  | .idle, .join => some (s.joinLoop t)
  | .joinWait _, .go => some (s.joinLoop t)
  | _, _ => none

/-- A schedule: which thread does what. -/
def St.run (s : St) : List (Nat × Act) → Option St
  | [] => some s
  | (t, a) :: rest => match s.step t a with
    | none => none
    | some s' => s'.run rest

/-- `stop_threads` (/repo/include/pion/scheduler.hpp:214-228): the threads that are joined. `current_thread` is a
    default-constructed `boost::thread`, which is no thread (`none`), not the calling one. -/
def joined (pool : List Nat) : List Nat := pool.filter fun i => some i ≠ (none : Option Nat)

/- `one_to_one_scheduler` -/

/-- `m_service_pool`, `m_next_service`, `m_num_threads` (/repo/include/pion/scheduler.hpp:353-356, 186). Services are
    numbered in the order they are made; `fresh` is the next number. -/
structure Pool where
  services : List Nat
  next : UInt32
  threads : UInt32
  fresh : Nat
  deriving Repr, DecidableEq

/-- The constructors (/repo/include/pion/scheduler.hpp:40-43, 292-294); 8 threads (/repo/src/scheduler.cpp:19). -/
def Pool.init : Pool := ⟨[], 0, 8, 0⟩

/-- `while (m_service_pool.size() < m_num_threads) push_back(new …)`
    (/repo/include/pion/scheduler.hpp:302-305, /repo/src/scheduler.cpp:158-161), as the services it adds. -/
def Pool.grow (p : Pool) : Pool :=
  let k := p.threads.toNat - p.services.length
  { p with services := p.services ++ (List.range k).map (p.fresh + ·), fresh := p.fresh + k }

/-- `get_io_service()` (/repo/include/pion/scheduler.hpp:300-310); `none` as result: the assertion fails, or without
    it, the vector is indexed out of bounds. -/
def Pool.get (p : Pool) : Pool × Option Nat :=
  let p := p.grow
  let next := if p.next + 1 ≥ p.threads then 0 else p.next + 1
  let p := { p with next }
  (p, if next < p.threads then p.services[next.toNat]? else none)

/-- Calls on the pool: `startup` grows it (/repo/src/scheduler.cpp:153-161; a call on a running
    scheduler does nothing and is left out), `shutdown` destroys the services
    (`finish_services`, /repo/include/pion/scheduler.hpp:338). -/
inductive POp where
  | get | startup | shutdown | setThreads (n : UInt32)

def Pool.op (p : Pool) : POp → Pool
  | .get => p.get.1
  | .startup => p.grow
  | .shutdown => { p with services := [] }
  | .setThreads n => { p with threads := n }

def Pool.run (p : Pool) (ops : List POp) : Pool := ops.foldl Pool.op p

/-- The results of `n` calls of `get_io_service` in a row, and the pool after them. -/
def Pool.gets (p : Pool) : Nat → Pool × List (Option Nat)
  | 0 => (p, [])
  | n + 1 =>
    let (p1, r) := p.get
    let (p2, rs) := p1.gets n
    (p2, r :: rs)

end Verif.Sched
