import Verif.Model.Digits
/-
The files of users and groups: a line for each entry, with fields separated by colons.
-/
namespace Verif.Spec.AdminRights

/-- A user (or a group). `more` are the other fields. -/
structure Entry where
  name : Bytes
  password : Bytes
  id : Nat
  more : List Bytes := []
  deriving Repr, DecidableEq

/-- Text that can be in a field. -/
def Field (s : Bytes) : Prop := c! ":" ∉ s ∧ 0x0a ∉ s

instance (s : Bytes) : Decidable (Field s) := inferInstanceAs (Decidable (_ ∧ _))

def Entry.fields (e : Entry) : List Bytes := e.name :: e.password :: toDec e.id :: e.more

/-- The line of an entry, without the end of line. -/
def Entry.line (e : Entry) : Bytes := [c! ":"].intercalate e.fields

def text (es : List Entry) : Bytes := es.flatMap (fun e => e.line ++ [0x0a])

structure Entry.Ok (e : Entry) : Prop where
  name : e.name ≠ []
  fields : ∀ f ∈ e.fields, Field f

end Verif.Spec.AdminRights
