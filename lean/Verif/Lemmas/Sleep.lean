import Verif.Model.Sleep
import Verif.Spec.Sleep
/-
Lemmas for `Props/Sleep`: conversions to `long`, and steady clocks.
-/
namespace Verif.Sleep
open Verif Verif.Spec.Sleep

theorem toLong_64 (x : UInt32) : toLong 64 x = x.toNat := by
  have := x.toNat_lt
  unfold toLong
  rw [BitVec.toInt_eq_toNat_cond, BitVec.toNat_ofNat, Nat.mod_eq_of_lt (by omega), if_pos (by omega)]

theorem toLong_32 (x : UInt32) (h : x.toNat < 2 ^ 31) : toLong 32 x = x.toNat := by
  unfold toLong
  rw [BitVec.toInt_eq_toNat_cond, BitVec.toNat_ofNat, Nat.mod_eq_of_lt (by omega), if_pos (by omega)]

theorem steady_add {wall : Nat → Int} (h : Steady wall) (a k : Nat) : wall (a + k) = wall a + k := by
  induction k with
  | zero => simp
  | succ k ih => rw [← Nat.add_assoc, h, ih]; omega

theorem steady_sub {wall : Nat → Int} (h : Steady wall) {a b : Nat} (hab : a ≤ b) : wall b = wall a + (b - a : Nat) := by
  rw [← steady_add h, Nat.add_sub_cancel' hab]

theorem quarter (bits : Nat) (hb : bits = 64 ∨ bits = 32) (now : Int) : getWakeupTime bits now 0 250000000 = now + 250000 := by
  unfold getWakeupTime
  have : toLong bits 0 = 0 := by rcases hb with rfl | rfl <;> decide
  rw [this, show ((250000000 : UInt32) / 1000).toNat = 250000 by decide]
  omega

end Verif.Sleep
