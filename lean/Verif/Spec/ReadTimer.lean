import Verif.Model.ReadTimer
/-
Words for the time limit of reads.
-/
namespace Verif.Spec.ReadTimer
open Verif.ReadTimer

def isArrived : Ev → Bool | .arrived _ => true | _ => false
def isGot : Ev → Bool | .got _ _ => true | _ => false
def isCancelled : Ev → Bool | .cancelled _ => true | _ => false

/-- The reader asks for bytes, or is given the result of a read, or is done. -/
def turns : Ev → Bool | .asked _ | .got _ _ | .told _ => true | _ => false

/-- After these events the reader has been waiting for bytes since `t0`. -/
def WaitingSince (log : List Ev) (t0 : Nat) : Prop := ∃ a b, log = a ++ .asked t0 :: b ∧ ∀ e ∈ b, turns e = false

/-- Bytes have arrived which the reader was not given yet. -/
def Arrived (log : List Ev) : Prop := ∃ a t b, log = a ++ .arrived t :: b ∧ ∀ e ∈ b, isGot e = false

/-- A timer has cancelled the operations of the connection since the reader last asked for bytes. -/
def Fired (log : List Ev) : Prop := ∃ a t b, log = a ++ .cancelled t :: b ∧ ∀ e ∈ b, turns e = false

/-- The program and the timers have nothing to do for the next `n` seconds: they only wait for the peer. -/
def Rests (s : St) (n : Nat) : Prop :=
  s.phase ≠ .armed ∧ s.phase ≠ .parsing ∧ (∀ k r, s.op ≠ .complete k r) ∧
    ∀ t ∈ s.timers, t.queued = 0 ∧ (t.pending > 0 → s.now + n ≤ t.deadline)

/-- Time passes only while the program and the timers rest: whatever can be done is done at once. -/
def Prompt (timeout : Nat) (l : List Act) : Prop :=
  ∀ a n b s, l = a ++ .tick n :: b → run timeout a = some s → Rests s n

end Verif.Spec.ReadTimer
