import Verif.Base
/-
Model of `process` (/repo/include/pion/process.hpp, /repo/src/process.cpp) on Unix: any number of threads call `shutdown`
and `wait_for_shutdown`, and signals arrive at any time on any thread, where the handler calls `shutdown` on top of
whatever the thread is doing.

Not modelled: the creation of the configuration by `get_config` (/repo/include/pion/process.hpp:123-126), which is taken
to be done already, the inside of the mutex and of the condition variable, and the dump files on Windows.
-/
namespace Verif.Process

/-- A call that a thread is in, and where it is. -/
inductive Frame where
  /-- in `shutdown`, about to take the mutex (/repo/src/process.cpp:37) -/
  | shutLock
  /-- in `shutdown` with the mutex, about to look at the flag (/repo/src/process.cpp:38) -/
  | shutTest
  /-- the flag is set, about to notify (/repo/src/process.cpp:40) -/
  | shutNotify
  /-- at the end of `shutdown`, where the mutex is released (/repo/src/process.cpp:42) -/
  | shutUnlock
  /-- in `wait_for_shutdown`, about to take the mutex (/repo/src/process.cpp:47) -/
  | waitLock
  /-- in `wait_for_shutdown` with the mutex, about to look at the flag (/repo/src/process.cpp:48) -/
  | waitTest
  /-- waiting for the condition, without the mutex (/repo/src/process.cpp:49) -/
  | waitSleep (notified : Bool)
  /-- at the end of `wait_for_shutdown` (/repo/src/process.cpp:50) -/
  | waitUnlock
  deriving Repr, DecidableEq

/-- What has happened: a call of `shutdown` or a signal began; a `shutdown` returned; a `wait_for_shutdown` returned. -/
inductive Ev where
  | asked | shut | waited
  deriving Repr, DecidableEq

/-- `shutdown_now`, the thread that has `shutdown_mutex`, and what each thread is doing, the innermost call first. -/
structure St where
  flag : Bool
  owner : Option Nat
  stack : Nat → List Frame
  log : List Ev

/-- The constructor of `config_type` (/repo/include/pion/process.hpp:94). -/
def St.init : St := ⟨false, none, fun _ => [], []⟩

/-- What happens next on a thread: an idle thread calls `shutdown` or `wait_for_shutdown`; SIGINT or SIGTERM arrives
    (`handle_signal`, /repo/src/process.cpp:222-225, 235-236); the thread goes on; the thread is woken from the condition
    for no reason. -/
inductive Act where
  | shutdown | wait | signal | go | spurious
  deriving Repr, DecidableEq

def setStack (st : Nat → List Frame) (t : Nat) (fs : List Frame) : Nat → List Frame := fun i => if i = t then fs else st i

/-- `notify_all` for one call. -/
def Frame.notify : Frame → Frame
  | .waitSleep _ => .waitSleep true
  | f => f

/-- The thread goes on (/repo/src/process.cpp:34-50); `none` if it is blocked. Waiting releases the mutex and waits in one
    step. -/
def St.go (s : St) (t : Nat) : Option St :=
  match s.stack t with
  | [] => none
  | .shutLock :: fs => if s.owner = none then some { s with owner := some t, stack := setStack s.stack t (.shutTest :: fs) } else none
  | .shutTest :: fs =>
    if s.flag then some { s with stack := setStack s.stack t (.shutUnlock :: fs) }
    else some { s with flag := true, stack := setStack s.stack t (.shutNotify :: fs) }
  | .shutNotify :: fs => some { s with stack := fun i => (setStack s.stack t (.shutUnlock :: fs) i).map Frame.notify }
  | .shutUnlock :: fs => some { s with owner := none, stack := setStack s.stack t fs, log := s.log ++ [.shut] }
  | .waitLock :: fs => if s.owner = none then some { s with owner := some t, stack := setStack s.stack t (.waitTest :: fs) } else none
  | .waitTest :: fs =>
    if s.flag then some { s with stack := setStack s.stack t (.waitUnlock :: fs) }
    else some { s with owner := none, stack := setStack s.stack t (.waitSleep false :: fs) }
  | .waitSleep true :: fs =>
    if s.owner = none then some { s with owner := some t, stack := setStack s.stack t (.waitTest :: fs) } else none
  | .waitSleep false :: _ => none
  | .waitUnlock :: fs => some { s with owner := none, stack := setStack s.stack t fs, log := s.log ++ [.waited] }

/-- One step; `none` if it is not possible. -/
def St.step (s : St) (t : Nat) (a : Act) : Option St :=
  match a with
  | .shutdown => if s.stack t = [] then some { s with stack := setStack s.stack t [.shutLock], log := s.log ++ [.asked] } else none
  | .wait => if s.stack t = [] then some { s with stack := setStack s.stack t [.waitLock] } else none
  | .signal => some { s with stack := setStack s.stack t (.shutLock :: s.stack t), log := s.log ++ [.asked] }
  | .go => s.go t
  | .spurious => match s.stack t with
    | .waitSleep false :: fs => some { s with stack := setStack s.stack t (.waitSleep true :: fs) }
    | _ => none

/-- A schedule: what happens on which thread. -/
def St.run (s : St) : List (Nat × Act) → Option St
  | [] => some s
  | (t, a) :: rest => match s.step t a with
    | none => none
    | some s' => s'.run rest

/- `daemonize` -/

/-- What a descriptor is open on: something inherited, or `/dev/null`. -/
inductive File where
  | inherited (n : Nat) | null
  deriving Repr, DecidableEq

/-- The descriptors of a process, and its file creation mask. -/
structure Proc where
  fds : Nat → Option File
  umask : Nat
  session : Bool

/-- `for (i=getdtablesize();i>=0;--i) close(i)` (/repo/src/process.cpp:258); closing what is not open fails and is not
    noticed. -/
def closeDown (fds : Nat → Option File) : Nat → Nat → Option File
  | 0 => fun i => if i = 0 then none else fds i
  | n + 1 => closeDown (fun i => if i = n + 1 then none else fds i) n

/-- `open` and `dup`: the lowest free descriptor below the limit. -/
def lowest (fds : Nat → Option File) (limit : Nat) : Option Nat := (List.range limit).find? fun i => (fds i).isNone

def alloc (fds : Nat → Option File) (limit : Nat) (f : File) : (Nat → Option File) × Option Nat :=
  match lowest fds limit with
  | none => (fds, none)
  | some n => (fun i => if i = n then some f else fds i, some n)

/-- `dup(i)`; its failure is not looked at. -/
def dup (fds : Nat → Option File) (limit i : Nat) : Nat → Option File :=
  match fds i with
  | none => fds
  | some f => (alloc fds limit f).1

/-- What becomes of the process that calls `daemonize`, and of the child if there is one. -/
inductive Daemon where
  /-- it is a daemon already -/
  | already (p : Proc)
  | failed
  /-- the parent exits with 0, the child goes on -/
  | forked (child : Proc)

/-- `daemonize` (/repo/src/process.cpp:239-269). `limit` is `getdtablesize()`; `nullOpens` tells whether `/dev/null` can
    be opened. -/
def daemonize (isInit forks nullOpens : Bool) (limit : Nat) (p : Proc) : Daemon :=
  if isInit then .already p
  else if !forks then .failed
  else
    let fds := closeDown p.fds limit
    let fds := if nullOpens then
        match alloc fds limit .null with
        | (fds, none) => fds
        | (fds, some i) => dup (dup fds limit i) limit i
      else fds
    .forked ⟨fds, 0o27, true⟩

end Verif.Process
