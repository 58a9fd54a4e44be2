import Verif.Base
/-
Model of `LogServiceAppender` (/repo/services/LogService.hpp, LogService.cpp), built with one of the log libraries.
Log messages are already formatted strings.
-/
namespace Verif.LogRing

/-- `m_max_events`, `m_num_events` (both `unsigned int`) and `m_log_events`
    (/repo/services/LogService.hpp:66-73). -/
structure St where
  max : UInt32
  num : UInt32
  events : List Bytes

/-- The constructor (/repo/services/LogService.cpp:30, 35-46): `DEFAULT_MAX_EVENTS` is 25. -/
def St.init : St := ⟨25, 0, []⟩

/-- The loop of `addLogString` (/repo/services/LogService.cpp:98-101): erases at the front while the counter is above
    the maximum. `none`: `erase(begin())` of an empty list, which is undefined. -/
def trim (max num : UInt32) (events : List Bytes) : Option (UInt32 × List Bytes) :=
  if num > max then
    match events with
    | [] => none
    | _ :: rest => trim max (num - 1) rest
  else some (num, events)
termination_by events.length

/-- `addLogString` (/repo/services/LogService.cpp:93-102). The mutex makes the call one step. -/
def St.add (s : St) (log : Bytes) : Option St :=
  (trim s.max (s.num + 1) (s.events ++ [log])).map fun r => ⟨s.max, r.1, r.2⟩

/-- `setMaxEvents` (/repo/services/LogService.hpp:54). -/
def St.setMax (s : St) (n : UInt32) : St := { s with max := n }

/-- `writeLogEvents` (/repo/services/LogService.cpp:104-117): what is written to the response. -/
def St.written (s : St) : Bytes := s.events.flatten

/-- Calls on an appender. -/
inductive Op where
  | add (log : Bytes)
  | setMax (n : UInt32)

def St.op (s : St) : Op → Option St
  | .add log => s.add log
  | .setMax n => some (s.setMax n)

/-- A sequence of calls; `none` if one of them is undefined. -/
def St.run (s : St) : List Op → Option St
  | [] => some s
  | o :: os => match s.op o with
    | none => none
    | some s' => s'.run os

end Verif.LogRing
