import Verif.Spec.HttpWire
/-
How the content of a request is sent.
-/
namespace Verif.Spec.Posted
open Verif Verif.Http

/-- `Sent ord hs body wire`: the headers `hs` announce the content `body`, and `wire` is what follows the head. The content is sent
    with its length, in chunks, or, if there is none, without a word about it. -/
inductive Sent (ord : Dict.Order) (hs : Dict) : Bytes → Bytes → Prop where
  | nothing : ¬ AnnouncesChunks ord hs → hs.find? ord (b! "Content-Length") = none → Sent ord hs [] []
  | length (body : Bytes) : ¬ AnnouncesChunks ord hs → AnnouncesLength ord hs body.length → Sent ord hs body body
  | chunks (ds : List Bytes) : AnnouncesChunks ord hs → (∀ d ∈ ds, d ≠ [] ∧ d.length ≤ 2 ^ 63 - 1) →
      Sent ord hs ds.flatten (chunkedWire ds)

end Verif.Spec.Posted
