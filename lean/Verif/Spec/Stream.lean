import Verif.Model.Stream
/-
What a user of a stream expects: writing appends to the bytes sent, reading moves a cursor over the bytes received.
-/
namespace Verif.Spec.Stream
open Verif.Stream

/-- The bytes a call puts into the stream. -/
def put : WOp → Bytes
  | .putc c => [c]
  | .putn s => s
  | .sync => []

/-- A place in the bytes received, and the furthest place reached. -/
structure Cursor where
  pos : Nat
  far : Nat

/-- What a call may do and return, when it is at a place of the bytes `data`. Putting back must work for the last ten
    bytes read, and may work for more. -/
inductive Reads (data : Bytes) : Cursor → ROp → Res → Cursor → Prop where
  | peek {p f c} : data[p]? = some c → Reads data ⟨p, f⟩ .peek (.char (some c)) ⟨p, f⟩
  | getc {p f c} : data[p]? = some c → Reads data ⟨p, f⟩ .getc (.char (some c)) ⟨p + 1, max f (p + 1)⟩
  | getn {p f n} : p + n ≤ data.length →
      Reads data ⟨p, f⟩ (.getn n) (.chars ((data.drop p).take n)) ⟨p + n, max f (p + n)⟩
  | unget {p f c} : data[p]? = some c → Reads data ⟨p + 1, f⟩ .unget (.char (some c)) ⟨p, f⟩
  | noUnget {p f} : p = 0 ∨ 10 ≤ f - p → Reads data ⟨p, f⟩ .unget (.char none) ⟨p, f⟩
  | putback {p f c} : data[p]? = some c → Reads data ⟨p + 1, f⟩ (.putback c) (.char (some c)) ⟨p, f⟩
  | noPutback {p f c} : p = 0 ∨ 10 ≤ f - p → Reads data ⟨p, f⟩ (.putback c) (.char none) ⟨p, f⟩
  | badPutback {p f c} : data[p]? ≠ some c → Reads data ⟨p + 1, f⟩ (.putback c) (.char none) ⟨p + 1, f⟩

/-- A sequence of calls. -/
inductive ReadsAll (data : Bytes) : Cursor → List ROp → List Res → Prop where
  | nil {k} : ReadsAll data k [] []
  | cons {k k' o r os rs} : Reads data k o r k' → ReadsAll data k' os rs → ReadsAll data k (o :: os) (r :: rs)

/-- The bytes returned by calls that read. -/
def returned : List (ROp × Res) → Bytes
  | [] => []
  | (.getc, .char (some c)) :: l => c :: returned l
  | (.getn _, .chars s) :: l => s ++ returned l
  | _ :: l => returned l

/-- Calls that only go forward. -/
def forward : ROp → Bool
  | .peek => true
  | .getc => true
  | .getn _ => true
  | _ => false

end Verif.Spec.Stream
