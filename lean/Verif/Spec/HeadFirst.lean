import Verif.Model.HeadFirst
/-
What it means that a message read in two steps is the message read at once.
-/
namespace Verif.Spec.HeadFirst
open Verif.Http

/-- The two messages agree in everything but the query parameters, the cookies, the mark that they are valid and the
    status of their data. -/
def SameBut (a b : Msg) : Prop :=
  { a with queries := [], cookies := [], isValid := false, status := .none } =
    { b with queries := [], cookies := [], isValid := false, status := .none }

/-- The two parsers have read the same: messages that agree, the same bytes given to the payload handler, the same error,
    the same counts and the same memory accesses. -/
structure SameRead (s t : S) : Prop where
  message : SameBut s.msg t.msg
  payload : s.payload = t.payload
  error : s.ec = t.ec
  fault : s.fault = t.fault
  content : s.contentRead = t.contentRead
  total : s.totalRead = t.totalRead
  raw : s.raw = t.raw

end Verif.Spec.HeadFirst
