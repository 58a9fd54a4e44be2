import Verif.Model.WriterMemory
/-
What a writer should send, as if the bytes were taken at the moment they are written; and how its user has to use it.
-/
namespace Verif.Spec.WriterMemory
open Verif.WriterMemory

/-- The writer whose buffers are values (`Verif.Writer`), what of it the connection has taken, the memory of the user, the
    handler of the writing that goes on, the blocks of the user that were given to `write_no_copy` since the last `clear`, and
    whether the user has the writer. -/
structure Ideal where
  w : Writer.W
  sent : Bytes := []
  user : Heap := []
  busy : Option Handler := none
  needed : List Nat := []
  held : Bool := true

def op : Kind → Writer.Op
  | .send => .send
  | .chunk => .sendChunk
  | .final => .sendFinal

/-- When a writing is over. -/
def Ideal.over (i : Ideal) (h : Handler) (ok : Bool) : Ideal :=
  let cleared := (h == .own) && ok && i.w.isRequest && i.w.sendingChunks
  { i with
    busy := none
    w := if cleared then Writer.clear i.w else i.w
    needed := if cleared || !i.held then [] else i.needed }

def slice (d : Bytes) (off n : Nat) : Bytes := (d.drop off).take n

def Ideal.step (t : TableOrder) (i : Ideal) : Act → Ideal
  | .text d => { i with w := Writer.step t i.w (.text d) }
  | .binary d => { i with w := Writer.step t i.w (.buffer d) }
  | .noCopy a off n =>
    { i with w := Writer.step t i.w (.buffer (slice ((i.user.get a).getD []) off n)), needed := a :: i.needed }
  | .clear => { i with w := Writer.step t i.w .clear, needed := [] }
  | .change f => { i with w := { i.w with msg := f i.w.msg } }
  | .send k h => { i with w := Writer.step t i.w (op k), busy := if i.w.isOpen then some h else none }
  | .put => { i with sent := i.w.wire.take (i.sent.length + 1) }
  | .finish => match i.busy with
    | some h => if i.sent = i.w.wire then i.over h true else i
    | none => i
  | .fail => match i.busy with
    | some h => Ideal.over { i with w := { i.w with wire := i.sent } } h false
    | none => i
  | .close => { i with w := { i.w with isOpen := false } }
  | .release => { i with held := false, needed := if i.busy.isSome then i.needed else [] }
  | .new d => { i with user := i.user ++ [some d] }
  | .set a k x => { i with user := i.user.set a ((i.user.get a).map (·.set k x)) }
  | .free a => { i with user := i.user.set a none }

def ideal (t : TableOrder) (w : Writer.W) (tr : List Act) : Ideal := tr.foldl (Ideal.step t) { w := w }

/-- The rules: the writer is not used, nor its message changed, while a writing goes on or after it was released; what is given
    to `write_no_copy` is there, and is neither changed nor given back before the writer is cleared or gone; and the writer is not
    released while a writing goes on whose handler does not keep it. -/
def Allowed (i : Ideal) : Act → Prop
  | .text _ | .binary _ | .clear | .change _ | .send _ _ => i.held = true ∧ i.busy = none
  | .noCopy a off n => i.held = true ∧ i.busy = none ∧ ∃ d, i.user.get a = some d ∧ off + n ≤ d.length
  | .release => ∀ h, i.busy = some h → h.keeps = true
  | .set a _ _ | .free a => a ∉ i.needed
  | _ => True

/-- The rules are kept in each step. -/
def Obeys (t : TableOrder) (w : Writer.W) (tr : List Act) : Prop :=
  ∀ tr₁ x tr₂, tr = tr₁ ++ x :: tr₂ → Allowed (ideal t w tr₁) x

def isSend : Act → Bool
  | .send _ _ => true
  | _ => false

end Verif.Spec.WriterMemory
