import Verif.Model.Uri
/-
Model of `admin_rights` (/repo/src/admin_rights.cpp, /repo/include/pion/admin_rights.hpp; the version for systems with
user ids, not the one for Windows).
-/
namespace Verif.AdminRights

/-- The user and group ids of a process. They are the process's, not a thread's. -/
structure Proc where
  ruid : Nat
  euid : Nat
  suid : Nat
  rgid : Nat := 0
  egid : Nat := 0
  sgid : Nat := 0
  deriving Repr, DecidableEq

/-- `seteuid` (system call, Linux): -1 is not an id; the administrator may take any id, others only one of their own
    three. Privileges that do not come from the user id (capabilities) are not modelled. -/
def Proc.seteuid (p : Proc) (u : Nat) : Proc × Bool :=
  if u = 2 ^ 32 - 1 then (p, false)
  else if p.euid = 0 ∨ u = p.ruid ∨ u = p.euid ∨ u = p.suid then ({ p with euid := u }, true)
  else (p, false)

/-- `setegid` (system call, Linux). -/
def Proc.setegid (p : Proc) (g : Nat) : Proc × Bool :=
  if g = 2 ^ 32 - 1 then (p, false)
  else if p.euid = 0 ∨ g = p.rgid ∨ g = p.egid ∨ g = p.sgid then ({ p with egid := g }, true)
  else (p, false)

/-- Assignment of a user id (32 bits, unsigned) to a `boost::int16_t` (/repo/include/pion/admin_rights.hpp:75). -/
def toInt16 (u : Nat) : Int := if u % 65536 < 32768 then (u % 65536 : Nat) else (u % 65536 : Nat) - 65536

/-- Conversion of an integer to a user id. -/
def toUid (i : Int) : Nat := (i % 2 ^ 32).toNat

/-- An `admin_rights` object: `m_user_id` and `m_has_rights`. -/
structure Obj where
  saved : Int := -1
  has : Bool := false
  deriving Repr, DecidableEq

/-- A process with all objects ever made (a destroyed one stays, without rights). `owner` is the object that has
    locked the mutex. -/
structure St where
  proc : Proc
  owner : Option Nat := none
  objs : List Obj := []
  deriving Repr, DecidableEq

/-- What the threads do with such objects. Both are done under the mutex, so they are steps. -/
inductive Act where
  /-- the constructor -/
  | construct
  /-- `release`, also called by the destructor (/repo/include/pion/admin_rights.hpp:37) -/
  | release (i : Nat)
  deriving Repr, DecidableEq

/-- The constructor (/repo/src/admin_rights.cpp:62-77). While the mutex is locked it waits: no effect. -/
def St.construct (s : St) : St :=
  match s.owner with
  | some _ => s
  | none =>
    match s.proc.seteuid 0 with
    | (p, true) =>
      { proc := p, owner := some s.objs.length, objs := s.objs ++ [{ saved := toInt16 s.proc.euid, has := true }] }
    | (_, false) => { s with objs := s.objs ++ [{ saved := toInt16 s.proc.euid }] }

/-- `release` (/repo/src/admin_rights.cpp:79-92). -/
def St.release (s : St) (i : Nat) : St :=
  match s.objs[i]? with
  | none => s
  | some o =>
    if o.has then
      { proc := (s.proc.seteuid (toUid o.saved)).1, owner := none, objs := s.objs.set i { o with has := false } }
    else s

def St.step (s : St) : Act → St
  | .construct => s.construct
  | .release i => s.release i

def run (p : Proc) (as : List Act) : St := as.foldl St.step { proc := p }

/-- Results of `find_system_id`: -1, an id, or the exception of `lexical_cast`. -/
inductive Id where
  | none
  | id (n : Nat)
  | thrown
  deriving Repr, DecidableEq

/-- A match of the regular expression `\d+` (/repo/src/admin_rights.cpp:122). -/
def justNumbers (s : Bytes) : Bool := !s.isEmpty && s.all isDigit

/-- `lexical_cast<int32_t>` of digits (/repo/src/admin_rights.cpp:124, 148). -/
def castId (s : Bytes) : Id := if decVal s < 2 ^ 31 then .id (decVal s) else .thrown

/-- The tokens of a line (/repo/src/admin_rights.cpp:134-141): a `char_separator` drops empty tokens. -/
def tokens (line : Bytes) : List Bytes := (line.splitOn (c! ":")).filter (· ≠ [])

/-- The loop over the lines (/repo/src/admin_rights.cpp:139-152). -/
def search (name : Bytes) : List Bytes → Id
  | [] => .none
  | l :: ls =>
    match tokens l with
    | [] => search name ls
    | t :: rest =>
      if t = name then
        match rest with
        | _ :: n :: _ => if justNumbers n then castId n else .none
        | _ => .none
      else search name ls

/-- `find_system_id` (/repo/src/admin_rights.cpp:118-155). `file` is the content of the system file, `none` if it
    cannot be opened. `getline` does not give an empty last line; it would have no tokens. -/
def findSystemId (name : Bytes) (file : Option Bytes) : Id :=
  if justNumbers name then castId name
  else
    match file with
    | none => .none
    | some content => search name (content.splitOn 0x0a)

/-- `run_as_user` (/repo/src/admin_rights.cpp:94-104) and what it returns; `none` is an exception. -/
def runAsUser (p : Proc) (name : Bytes) (passwd : Option Bytes) : Proc × Option Int :=
  match findSystemId name passwd with
  | .thrown => (p, none)
  | .none => (p, some p.euid)
  | .id n =>
    match p.seteuid n with
    | (p, true) => (p, some n)
    | (p, false) => (p, some (-1))

/-- `run_as_group` (/repo/src/admin_rights.cpp:106-116). -/
def runAsGroup (p : Proc) (name : Bytes) (group : Option Bytes) : Proc × Option Int :=
  match findSystemId name group with
  | .thrown => (p, none)
  | .none => (p, some p.egid)
  | .id n =>
    match p.setegid n with
    | (p, true) => (p, some n)
    | (p, false) => (p, some (-1))

end Verif.AdminRights
