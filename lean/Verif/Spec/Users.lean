import Verif.Model.User
/-
What a history of user_manager calls means: a finite map from names to credentials.
-/
namespace Verif.Spec.Users
open Verif.Users

/-- What is stored for a user: the password itself (build without SSL) or a digest. -/
inductive Cred where
  | plain (password : Bytes)
  | digest256 (d : Bytes)
  | digest1 (d : Bytes)
  deriving Repr, DecidableEq

/-- The password fits the stored credential. -/
def Fits (b : Build) : Cred → Bytes → Prop
  | .plain p, pw => p = pw
  | .digest256 d, pw => d = b.sha256 pw
  | .digest1 d, pw => d = b.sha1 pw

/-- What is stored for a new password. -/
def ofPassword (b : Build) (pw : Bytes) : Cred := if b.ssl then .digest256 (b.sha256 pw) else .plain pw

/-- The bytes written by pairs of hexadecimal digits; `none` if there is another character or an odd end. -/
def unhex : Bytes → Option Bytes
  | [] => some []
  | [_] => none
  | c :: d :: r => do
    let hi ← hexVal? c
    let lo ← hexVal? d
    let rest ← unhex r
    pure (UInt8.ofNat (16 * hi + lo) :: rest)

/-- The credential a hash text stands for: 64 digits SHA-256, 40 digits SHA-1. -/
def ofText (t : Bytes) : Option Cred :=
  if t.length = 64 then (unhex t).map .digest256
  else if t.length = 40 then (unhex t).map .digest1
  else none

/-- The map from names to credentials after a call. -/
def step (b : Build) (t : Bytes → Option Cred) : Op → (Bytes → Option Cred)
  | .add n pw => fun x => if x = n ∧ t n = none then some (ofPassword b pw) else t x
  | .update n pw => fun x => if x = n ∧ t n ≠ none then some (ofPassword b pw) else t x
  | .remove n => fun x => if x = n then none else t x
  | .addHash n h => fun x => if x = n ∧ t n = none then ofText h else t x
  | .updateHash n h => fun x => if x = n ∧ t n ≠ none ∧ ofText h ≠ none then ofText h else t x

/-- The map after a sequence of calls. -/
def run (b : Build) (ops : List Op) : Bytes → Option Cred := ops.foldl (step b) fun _ => none

/-- Digests have the lengths of SHA-256 and SHA-1. -/
structure Digests (b : Build) : Prop where
  len256 : ∀ x, (b.sha256 x).length = 32
  len1 : ∀ x, (b.sha1 x).length = 20

/-- Hash texts in the call are either hexadecimal or of a wrong length. -/
def HexOk : Op → Prop
  | .addHash _ h => (h.length = 64 ∨ h.length = 40) → (unhex h).isSome
  | .updateHash _ h => (h.length = 64 ∨ h.length = 40) → (unhex h).isSome
  | _ => True

/-- The calls with hash texts exist only in the build with SSL (/repo/include/pion/user.hpp:223-263). -/
def Available (b : Build) : Op → Prop
  | .addHash _ _ => b.ssl = true
  | .updateHash _ _ => b.ssl = true
  | _ => True

end Verif.Spec.Users
