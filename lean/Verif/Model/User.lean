import Verif.Model.SortedMap
import Verif.Model.Strtol
/-
Model of `user` and `user_manager` (/repo/include/pion/user.hpp).
-/
namespace Verif.Users

/-- How the library was built: with PION_HAVE_SSL passwords are kept as digests, computed by OpenSSL's SHA256
    and SHA1 (library functions: arbitrary functions here). -/
structure Build where
  ssl : Bool
  sha256 : Bytes → Bytes
  sha1 : Bytes → Bytes

/-- `user::password_hash_type_t` (/repo/include/pion/user.hpp:150). -/
inductive HashType where
  | empty | sha1 | sha256
  deriving Repr, DecidableEq

/-- A `user` object (/repo/include/pion/user.hpp:143-157): password text, kind and bytes of the digest. The
    array `m_password_hash` is shown as zeros before it is written. The user name is the key in the manager's
    map. -/
structure User where
  password : Bytes := []
  hashType : HashType := .empty
  hash : Bytes := List.replicate 32 0
  deriving Repr, DecidableEq

/-- Overwrite the beginning of the array `m_password_hash`. -/
def overwrite (old new : Bytes) : Bytes := new ++ old.drop new.length

/-- `sprintf(buf, "%.2x", n)` (/repo/include/pion/user.hpp:104). -/
def hex2 (c : UInt8) : Bytes :=
  let digit (v : Nat) : UInt8 := if v < 10 then UInt8.ofNat (v + 0x30) else UInt8.ofNat (v - 10 + 0x61)
  [digit (c.toNat / 16), digit (c.toNat % 16)]

/-- `user::match_password` (/repo/include/pion/user.hpp:76-91). -/
def matchPassword (b : Build) (u : User) (pw : Bytes) : Bool :=
  if b.ssl then
    match u.hashType with
    | .sha256 => u.hash.take 32 == (b.sha256 pw).take 32
    | .sha1 => u.hash.take 20 == (b.sha1 pw).take 20
    | .empty => false
  else u.password == pw

/-- `user::set_password` (/repo/include/pion/user.hpp:94-110). -/
def setPassword (b : Build) (u : User) (pw : Bytes) : User :=
  if b.ssl then
    let h := overwrite u.hash (b.sha256 pw)
    { password := (h.take 32).flatMap hex2, hashType := .sha256, hash := h }
  else { u with password := pw }

/-- `boost::numeric_cast<unsigned char>(strtoul(buf, 0, 16))` for a two character string
    (/repo/include/pion/user.hpp:135): `none` is the exception, thrown for a negative number, which `strtoul`
    turns into a huge one. -/
def hexByte (c d : UInt8) : Option UInt8 :=
  let v := strtol16 [c, d]
  if 0 ≤ v ∧ v < 256 then some (UInt8.ofNat v.toNat) else none

/-- The conversion loop of `set_password_hash` (/repo/include/pion/user.hpp:126-136): bytes converted until the
    end or until the exception. -/
def hexLoop : Bytes → Bytes × Bool
  | c :: d :: r =>
    match hexByte c d with
    | some x => let (xs, ok) := hexLoop r; (x :: xs, ok)
    | none => ([], false)
  | _ => ([], true)

/-- `user::set_password_hash` (/repo/include/pion/user.hpp:114-137): the changed object and whether the call
    returned (`false`: it threw; the members assigned before stay assigned). -/
def setPasswordHash (u : User) (text : Bytes) : User × Bool :=
  if text.length = 64 then
    let (xs, ok) := hexLoop text
    ({ password := text, hashType := .sha256, hash := overwrite u.hash xs }, ok)
  else if text.length = 40 then
    let (xs, ok) := hexLoop text
    ({ password := text, hashType := .sha1, hash := overwrite u.hash xs }, ok)
  else (u, false)

/-- `user_manager::m_users`. The manager holds pointers; an object removed from the map lives on while an
    authenticator's cache or a request refers to it, which only the name can be seen of here. -/
abbrev Manager := SMap User

/-- Calls that change the manager. -/
inductive Op where
  | add (name password : Bytes)
  | update (name password : Bytes)
  | remove (name : Bytes)
  | addHash (name text : Bytes)
  | updateHash (name text : Bytes)
  deriving Repr, DecidableEq

/-- What a call gives back. -/
inductive Res where
  | returned (b : Bool)
  | threw
  deriving Repr, DecidableEq

/-- `add_user`, `update_user`, `remove_user`, `add_user_hash`, `update_user_hash`
    (/repo/include/pion/user.hpp:192-277). -/
def step (b : Build) (m : Manager) : Op → Manager × Res
  | .add n pw =>
    if (m.lookup n).isSome then (m, .returned false) else (m.insert n (setPassword b {} pw), .returned true)
  | .update n pw =>
    match m.lookup n with
    | none => (m, .returned false)
    | some u => (m.assign n (setPassword b u pw), .returned true)
  | .remove n =>
    if (m.lookup n).isSome then (m.erase n, .returned true) else (m, .returned false)
  | .addHash n t =>
    if (m.lookup n).isSome then (m, .returned false)
    else if (setPasswordHash {} t).2 then (m.insert n (setPasswordHash {} t).1, .returned true) else (m, .threw)
  | .updateHash n t =>
    match m.lookup n with
    | none => (m, .returned false)
    | some u =>
      (m.assign n (setPasswordHash u t).1, if (setPasswordHash u t).2 then .returned true else .threw)

/-- The manager after a sequence of calls on an empty one. -/
def run (b : Build) (ops : List Op) : Manager := ops.foldl (fun m op => (step b m op).1) []

/-- `user_manager::empty` (/repo/include/pion/user.hpp:179-182). -/
def isEmpty (m : Manager) : Bool := List.isEmpty m

/-- `user_manager::get_user(username)` (/repo/include/pion/user.hpp:282-289). -/
def getUser (m : Manager) (name : Bytes) : Option User := m.lookup name

/-- `user_manager::get_user(username, password)` (/repo/include/pion/user.hpp:294-301). -/
def getUserPw (b : Build) (m : Manager) (name pw : Bytes) : Option User :=
  match m.lookup name with
  | none => none
  | some u => if matchPassword b u pw then some u else none

end Verif.Users
