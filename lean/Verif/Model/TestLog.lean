import Verif.Base
/-
Model of `pion::test::safe_xml_log_formatter` (/repo/include/pion/test/unit_test.hpp:41-202): several threads write the entries
of one log.

Simplifications: each call of a function of the class is one step, which is what holding `m_mutex` gives (the functions that do
not lock it are taken to write at once as well); `attrs` is the text of the attributes, with the file and the line; waiting
for `m_entry_complete` is that the step is not possible.
-/
namespace Verif.TestLog
open Verif

/-- A call of one thread. -/
inductive Call where
  /-- `log_entry_start` (/repo/include/pion/test/unit_test.hpp:136-154) -/
  | start (tag attrs : Bytes)
  /-- `log_entry_value` (/repo/include/pion/test/unit_test.hpp:158-165) -/
  | value (v : Bytes)
  /-- `log_entry_finish` (/repo/include/pion/test/unit_test.hpp:169-178) -/
  | finish
  /-- one of the functions that do not lock the mutex: `log_start`, `log_finish`, `log_build_info`, `test_unit_start`,
      `test_unit_finish`, `test_unit_skipped`, `log_exception` (/repo/include/pion/test/unit_test.hpp:55-133), with what it
      writes -/
  | plain (text : Bytes)
  deriving Repr, DecidableEq

/-- `m_entry_in_progress`, `m_curr_tag` and what has been written (/repo/include/pion/test/unit_test.hpp:192-201). -/
structure St where
  inProgress : Bool := false
  tag : Bytes := []
  out : Bytes := []
  deriving Repr, DecidableEq

/-- One call; `none` if it has to wait. -/
def St.step (s : St) : Call → Option St
  | .start tag attrs =>
    if s.inProgress then none
    else some { inProgress := true, tag := tag, out := s.out ++ (b! "<" ++ tag ++ attrs ++ b! "><![CDATA[") }
  | .value v => some (if s.inProgress then { s with out := s.out ++ v } else s)
  | .finish =>
    some (if s.inProgress then { inProgress := false, tag := [], out := s.out ++ (b! "]]></" ++ s.tag ++ b! ">\n") } else s)
  | .plain text => some { s with out := s.out ++ text }

/-- Calls of threads, in the order in which they take place. -/
def St.run (s : St) : List (Nat × Call) → Option St
  | [] => some s
  | (_, c) :: cs => match s.step c with
    | none => none
    | some s' => s'.run cs

end Verif.TestLog
