import Verif.Model.TestLog
/-
What the log of a test is to contain: whole entries, each of one thread.
-/
namespace Verif.Spec.TestLog
open Verif Verif.TestLog

structure Entry where
  tag : Bytes
  attrs : Bytes
  values : List Bytes := []
  deriving Repr, DecidableEq

/-- An entry as far as it has been written before its end. -/
def Entry.opened (e : Entry) : Bytes := b! "<" ++ e.tag ++ e.attrs ++ b! "><![CDATA[" ++ e.values.flatten
/-- A whole entry. -/
def Entry.text (e : Entry) : Bytes := e.opened ++ b! "]]></" ++ e.tag ++ b! ">\n"

/-- What one thread says by one more call, after whole entries and possibly one it has begun; `none` if the call is out of order. -/
def say : List Entry × Option Entry → Call → Option (List Entry × Option Entry)
  | (w, none), .start tag attrs => some (w, some ⟨tag, attrs, []⟩)
  | (w, some e), .value v => some (w, some { e with values := e.values ++ [v] })
  | (w, some e), .finish => some (w ++ [e], none)
  | _, _ => none

/-- What one thread has said by its calls. -/
def said (cs : List Call) : Option (List Entry × Option Entry) := cs.foldlM say ([], none)

/-- The calls of one thread. -/
def own (t : Nat) (cs : List (Nat × Call)) : List Call := (cs.filter (·.1 == t)).map (·.2)

/-- Every thread begins an entry, adds values, ends it, and so on. -/
def Proper (cs : List (Nat × Call)) : Prop := ∀ t, (said (own t cs)).isSome

/-- What a reader of XML takes for the contents of a CDATA section: everything up to the first `]]>`. -/
def cdata : Bytes → Option Bytes
  | [] => none
  | c :: r => if b! "]]>" <+: c :: r then some [] else (cdata r).map (c :: ·)

end Verif.Spec.TestLog
