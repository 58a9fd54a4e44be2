import Verif.Spec.HttpWire
import Verif.Model.Writer
/-
What a user of `http::writer` expects on the wire, in terms of the calls alone.
-/
namespace Verif.Spec.Writer
open Verif.Http Verif.Writer

/-- The data written is sent as one chunk or as it is; nothing is sent if nothing was written. -/
def piece (chunked : Bool) (d : Bytes) : Bytes := if d = [] then [] else if chunked then chunkWire d else d

/-- The bytes that follow the message head. `pending` is the data written since the start or the last `clear`,
    `chunks` whether the receiver understands chunks, `sending` whether a chunk has been sent. A call of `send_chunk`
    or `send_final_chunk` starts a chunked message. -/
def payload (chunks : Bool) : (sending : Bool) → (pending : Bytes) → List Op → Bytes
  | _, _, [] => []
  | s, p, .text d :: ops => payload chunks s (p ++ d) ops
  | s, p, .buffer d :: ops => payload chunks s (p ++ d) ops
  | s, _, .clear :: ops => payload chunks s [] ops
  | s, p, .send :: ops => piece (chunks && s) p ++ payload chunks s p ops
  | _, p, .sendChunk :: ops => piece chunks p ++ payload chunks true p ops
  | _, p, .sendFinal :: ops => piece chunks p ++ (if chunks then lastChunk else []) ++ payload chunks true p ops

/-- What a receiver that does not understand chunks gets after the message head: at each call that sends, the data written
    since the start or the last `clear`, as it is. -/
def plainData : (pending : Bytes) → List Op → Bytes
  | _, [] => []
  | p, .text d :: ops => plainData (p ++ d) ops
  | p, .buffer d :: ops => plainData (p ++ d) ops
  | _, .clear :: ops => plainData [] ops
  | p, .send :: ops => p ++ plainData p ops
  | p, .sendChunk :: ops => p ++ plainData p ops
  | p, .sendFinal :: ops => p ++ plainData p ops

/-- A call that sends. -/
def Sends : Op → Bool
  | .send | .sendChunk | .sendFinal => true
  | _ => false

/-- Calls that only write data, and the data. -/
def written : List Op → Bytes
  | [] => []
  | .text d :: ops => d ++ written ops
  | .buffer d :: ops => d ++ written ops
  | _ :: ops => written ops

/-- Only `write` and `write_no_copy` calls. -/
def OnlyWrites (ops : List Op) : Prop := ∀ op ∈ ops, ∃ d, op = .text d ∨ op = .buffer d

end Verif.Spec.Writer
