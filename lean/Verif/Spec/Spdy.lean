import Verif.Spec.Endian
/-
The layout of SPDY frames (version 2), independent of the model: the numbers that are stored in a packet, and how frames
and blocks of headers are written.
-/
namespace Verif.Spec.Spdy
open Verif.Spec.Endian

/-- The number stored in the `k` bytes from position `i`, big-endian. -/
def stored (mem : Bytes) (i k : Nat) : Nat := beNat (((mem.drop i).take k).map UInt8.toBitVec)

/-- The type of a control frame: bytes 2 and 3. -/
def typeOf (mem : Bytes) : Nat := stored mem 2 2
/-- The length of a frame's payload: bytes 5 to 7. -/
def payloadSize (mem : Bytes) : Nat := stored mem 5 3
/-- Control frames that carry headers: SYN_STREAM, SYN_REPLY, HEADERS. -/
def CarriesHeaders (mem : Bytes) : Prop := typeOf mem = 1 ∨ typeOf mem = 2 ∨ typeOf mem = 8

instance (mem : Bytes) : Decidable (CarriesHeaders mem) := inferInstanceAs (Decidable (_ ∨ _))

def be16 (n : Nat) : Bytes := [UInt8.ofNat (n / 256), UInt8.ofNat n]
def be24 (n : Nat) : Bytes := UInt8.ofNat (n / 65536) :: be16 n
def be32 (n : Nat) : Bytes := be16 (n / 65536) ++ be16 n

/-- A data frame of stream `id`. -/
def dataFrame (id : Nat) (flags : UInt8) (payload : Bytes) : Bytes :=
  be32 id ++ [flags] ++ be24 payload.length ++ payload

/-- A control frame. -/
def controlFrame (version : UInt8) (type : Nat) (flags : UInt8) (payload : Bytes) : Bytes :=
  [0x80, version] ++ be16 type ++ [flags] ++ be24 payload.length ++ payload

/-- A block of headers before compression. -/
def headerBlock (hs : List (Bytes × Bytes)) : Bytes :=
  be16 hs.length ++ hs.flatMap (fun e => be16 e.1.length ++ e.1 ++ be16 e.2.length ++ e.2)

/-- The headers without those whose name has occurred before. -/
def firsts : List (Bytes × Bytes) → List (Bytes × Bytes)
  | [] => []
  | e :: hs => e :: (firsts hs).filter (fun x => x.1 ≠ e.1)

end Verif.Spec.Spdy
