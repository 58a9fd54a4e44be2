import Verif.Base
/-
Model of `scheduler::get_wakeup_time` and the two functions `scheduler::sleep` (/repo/src/scheduler.cpp:102-106,
/repo/include/pion/scheduler.hpp:107-126), and of the time that the loop of `tcp::server::stop` takes
(/repo/src/tcp_server.cpp:132-140).

Time is counted in microseconds, the unit of `boost::system_time`. `wall t` is what `boost::get_system_time()` returns at
the moment `t`: the clock of the system, which can be set while the program runs. Threads run as soon as they can: the
delays of the system's own scheduler are not modelled.
-/
namespace Verif.Sleep

/-- The conversion of an `uint32_t` to the `long` that `boost::posix_time::seconds` takes: 64 bits on Linux, 32 on Windows. -/
def toLong (bits : Nat) (x : UInt32) : Int := (BitVec.ofNat bits x.toNat).toInt

/-- `scheduler::get_wakeup_time` (/repo/src/scheduler.cpp:102-106); `now` is `boost::get_system_time()`. -/
def getWakeupTime (bits : Nat) (now : Int) (sec nsec : UInt32) : Int :=
  now + toLong bits sec * 1000000 + (nsec / 1000).toNat

/-- `sleep(sec, nsec)` (/repo/include/pion/scheduler.hpp:107-110), called at `start`, returns at `stop`:
    `boost::thread::sleep(wakeup_time)` returns as soon as the clock shows this time. Interruption is not modelled. -/
structure Sleeps (bits : Nat) (wall : Nat → Int) (sec nsec : UInt32) (start stop : Nat) : Prop where
  order : start ≤ stop
  before : ∀ t, start ≤ t → t < stop → wall t < getWakeupTime bits (wall start) sec nsec
  over : getWakeupTime bits (wall start) sec nsec ≤ wall stop

/-- `sleep(condition, lock, sec, nsec)` (/repo/include/pion/scheduler.hpp:121-126), called at `start`, returns at `stop`:
    `timed_wait` returns when the clock shows the time, or when the condition is signaled, or for no reason; `signal` are
    the moments at which one of the last two happens. -/
structure Waits (bits : Nat) (wall : Nat → Int) (signal : Nat → Prop) (sec nsec : UInt32) (start stop : Nat) : Prop where
  order : start ≤ stop
  before : ∀ t, start ≤ t → t < stop → wall t < getWakeupTime bits (wall start) sec nsec
  over : getWakeupTime bits (wall start) sec nsec ≤ wall stop ∨ signal stop

/-- The loop of `tcp::server::stop` (/repo/src/tcp_server.cpp:132-140), which begins its test at `start` and leaves the loop
    at `stop`. `open_ t`: how many connections the pool holds at `t` after `prune_connections` took those out that only the
    pool still knew. `m_no_more_connections` is the condition. -/
inductive Stops (bits : Nat) (wall : Nat → Int) (signal : Nat → Prop) (open_ : Nat → Nat) : Nat → Nat → Prop
  | done {t : Nat} : open_ t = 0 → Stops bits wall signal open_ t t
  | again {t u e : Nat} : open_ t ≠ 0 → Waits bits wall signal 0 250000000 t u → Stops bits wall signal open_ u e →
      Stops bits wall signal open_ t e

end Verif.Sleep
