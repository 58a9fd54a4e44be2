import Verif.Spec.Reader
/-
What a caller of the blocking `message::receive` relies on.
-/
namespace Verif.Reader
open Verif.Http

/-- A program that receives messages from one connection with blocking calls: it stops at the first error, and when the connection
    is not kept open (`get_keep_alive`). What it has after each call: `none` for an error, or the message. At most `n` calls; a call
    that does not return because nothing more is delivered gives nothing. -/
def calls (cfg : Cfg) (m : Msg) : Nat → Conn → List Read → Option (List (Option Msg))
  | 0, _, _ => some []
  | n + 1, c, reads =>
    match syncReceive cfg c m reads with
    | none => none
    | some (_, _, .waiting, _) => some []
    | some (_, _, .done true, _) => some [none]
    | some (c, s, .done false, reads) =>
      if c.lifecycle = .close then some [some s.msg] else (calls cfg m n c reads).map (some s.msg :: ·)

/-- What the user of readers is told about each message, in the same form. -/
def told (g : Got) : Option Msg := if g.error then none else some g.message

/-- `a` is what a blocking call on the connection `c` does, `b` what a reader does. They end at the same read and agree whether
    there is an error; without one they give the same message and leave the connection in the same state, unless
    it is to be closed. After an error the messages differ at most in `is_valid()`, and the blocking call has left the connection
    alone. -/
structure Agree (c : Conn) (a b : Conn × S × Status × List Read) : Prop where
  status : a.2.2.1 = b.2.2.1
  reads : a.2.2.2 = b.2.2.2
  message : a.2.2.1 = .done false → a.2.1 = b.2.1 ∧ a.1.lifecycle = b.1.lifecycle ∧ (a.1.lifecycle ≠ .close → a.1 = b.1)
  error : a.2.2.1 = .done true → invalidate a.2.1 = invalidate b.2.1 ∧ a.1 = c
  waits : a.2.2.1 = .waiting → a.2.1 = b.2.1 ∧ a.1 = c

end Verif.Reader
