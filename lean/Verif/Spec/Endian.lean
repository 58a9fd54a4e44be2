import Verif.Base
/-
Big-endian integers, independent of the model.
-/
namespace Verif.Spec.Endian

/-- Value of a big-endian byte sequence. -/
def beNat (bs : List (BitVec 8)) : Nat := bs.foldl (fun acc b => acc * 256 + b.toNat) 0

/-- Two's complement value of a big-endian byte sequence. -/
def beInt (bs : List (BitVec 8)) : Int :=
  if 2 * beNat bs < 256 ^ bs.length then (beNat bs : Int) else (beNat bs : Int) - (256 ^ bs.length : Nat)

end Verif.Spec.Endian
