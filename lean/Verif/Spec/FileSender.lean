import Verif.Model.FileSender
/-
What is expected of the sender: the pieces of a file and the calls that send them.
-/
namespace Verif.Spec.FileSender
open Verif.Writer Verif.FileSender

/-- Pieces of a file: none is empty, none is longer than the limit (if there is one), and together they are the file. -/
structure Pieces (maxChunk : Nat) (content : Bytes) (ps : List Bytes) : Prop where
  whole : ps.flatten = content
  nonempty : ∀ p ∈ ps, p ≠ []
  short : 0 < maxChunk → ∀ p ∈ ps, p.length ≤ maxChunk
  single : maxChunk = 0 ∨ content.length ≤ maxChunk → content ≠ [] → ps = [content]

/-- The calls for a file with the given pieces: `send` if there is at most one, or else a chunk for each. `first` tells
    whether nothing has been sent before. -/
def calls (first : Bool) : List Bytes → List Op
  | [] => [.send]
  | [p] => [.buffer p, if first then .send else .sendFinal]
  | p :: ps => [.buffer p, .sendChunk, .clear] ++ calls false ps

end Verif.Spec.FileSender
