import Verif.Model.LogRing
import Verif.Model.Responses
/-
`LogService` (/repo/services/LogService.cpp:55-90, 104-162): what is logged for an event, and the response to a request for
the log.
-/
namespace Verif.LogAnswers
open Verif.Responses Verif.Writer

/-- What the logging library hands to the appender; the time and the level as text. -/
structure Event where
  time : Bytes
  level : Bytes
  logger : Bytes
  message : Bytes
  deriving Repr, DecidableEq

/-- `append` for log4cxx and log4cplus (/repo/services/LogService.cpp:58-70, 72-84). With log4cpp the layout of that library is
    used instead, which is not modelled. -/
def format (e : Event) : Bytes :=
  e.time ++ [c! " "] ++ e.level ++ [c! " "] ++ e.logger ++ b! " - " ++ e.message ++ [0x0a]

/-- How the library was built. -/
inductive Build where
  /-- with log4cxx, log4cplus or log4cpp -/
  | library
  /-- with logging to `std::cout` -/
  | ostream
  /-- with `PION_DISABLE_LOGGING` -/
  | disabled
  deriving Repr, DecidableEq

/-- `writeLogEvents` (/repo/services/LogService.cpp:104-119). -/
def logWrites : Build → LogRing.St → List Op
  | .library, s => s.events.map .text
  | .disabled, _ => [.text (b! "Logging is disabled."), .text (b! "\r\n")]
  | .ostream, _ => [.text (b! "Using ostream logging."), .text (b! "\r\n")]

/-- `LogService::operator()` (/repo/services/LogService.cpp:154-162). -/
def log (b : Build) (s : LogRing.St) (req : Msg) : Reply :=
  .plain req [(b! "Content-Type", b! "text/plain")] (logWrites b s)

end Verif.LogAnswers
