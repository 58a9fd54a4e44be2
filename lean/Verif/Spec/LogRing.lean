import Verif.Model.LogRing
/-
What a reader of the log expects: the last `n` of all strings logged.
-/
namespace Verif.Spec.LogRing
open Verif.LogRing

/-- The last `n` elements of a list. -/
def last {α : Type} (n : Nat) (l : List α) : List α := l.drop (l.length - n)

/-- The strings logged by a sequence of calls, in order. -/
def logged : List Op → List Bytes
  | [] => []
  | .add log :: os => log :: logged os
  | .setMax _ :: os => logged os

/-- The maximum in force after a sequence of calls. -/
def maxAfter (m : UInt32) : List Op → UInt32
  | [] => m
  | .add _ :: os => maxAfter m os
  | .setMax n :: os => maxAfter n os

/-- How many strings are kept: one more with each call, but never more than the maximum in force at that call. -/
def kept (m : UInt32) (k : Nat) : List Op → Nat
  | [] => k
  | .add _ :: os => kept m (min m.toNat (k + 1)) os
  | .setMax n :: os => kept n k os

end Verif.Spec.LogRing
