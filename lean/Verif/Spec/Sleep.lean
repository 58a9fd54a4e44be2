import Verif.Base
/-
Clocks, and how long somebody asked to sleep.
-/
namespace Verif.Spec.Sleep

/-- Nobody sets the clock. -/
def Steady (wall : Nat → Int) : Prop := ∀ t, wall (t + 1) = wall t + 1

/-- The time that was asked for, in nanoseconds. -/
def asked (sec nsec : UInt32) : Nat := sec.toNat * 1000000000 + nsec.toNat

/-- A clock that is right up to the moment `at_` and is set back by `by_` then. -/
def setBack (at_ by_ : Nat) (t : Nat) : Int := if t < at_ then t else (t : Int) - by_

end Verif.Spec.Sleep
