import Verif.Model.ServiceConfig
/-
What a configuration file means, line by line.
-/
namespace Verif.Spec.Config
open Verif.Config (isAlpha toLower Kind Auth Call Out Env)

/-- Carriage return or line feed: each ends a line (so that CR LF ends a line and an empty one). -/
def eol (c : UInt8) : Bool := c == 0x0d || c == 0x0a
/-- Space or tab. -/
def ws (c : UInt8) : Bool := c == c! " " || c == 0x09

/-- The lines that are ended, and what comes after the last line end. -/
def lines : Bytes → List Bytes × Bytes
  | [] => ([], [])
  | c :: t =>
    if eol c then ([] :: (lines t).1, (lines t).2)
    else match lines t with
      | ([], r) => ([], c :: r)
      | (l :: ls, r) => ((c :: l) :: ls, r)

/-- The commands. -/
inductive Cmd where
  | path (dir : Bytes)
  | auth (kind : Kind)
  | restrict (resource : Bytes)
  | user (name password : Bytes)
  | service (resource name : Bytes)
  | option (resource name value : Bytes)
  deriving Repr, DecidableEq

/-- A first word (which is not empty) and the rest, which is not empty either, without the white space before
    it. -/
def twoParts (s : Bytes) : Option (Bytes × Bytes) :=
  let w := s.takeWhile fun c => !ws c
  let r := (s.dropWhile fun c => !ws c).dropWhile ws
  if w.isEmpty || r.isEmpty then none else some (w, r)

/-- `NAME=VALUE`, split at the first equals sign. -/
def assignment (s : Bytes) : Option (Bytes × Bytes) :=
  match s.dropWhile (· ≠ c! "=") with
  | [] => none
  | _ :: v => some (s.takeWhile (· ≠ c! "="), v)

/-- The arguments of a command: the rest of the line, without the white space before it. -/
def arguments (word args : Bytes) : Option Cmd :=
  if word = b! "path" then if args.isEmpty then none else some (.path args)
  else if word = b! "auth" then
    if args = b! "basic" then some (.auth .basic) else if args = b! "cookie" then some (.auth .cookie) else none
  else if word = b! "restrict" then if args.isEmpty then none else some (.restrict args)
  else if word = b! "user" then (twoParts args).map fun (n, p) => .user n p
  else if word = b! "service" then (twoParts args).map fun (r, n) => .service r n
  else if word = b! "option" then
    match twoParts args with
    | none => none
    | some (r, a) => (assignment a).map fun (n, v) => .option r n v
  else none

/-- A line: `none` if it is malformed, `some none` if it is blank or a comment. The case of the command does not
    matter. -/
def parse (line : Bytes) : Option (Option Cmd) :=
  match line with
  | [] => some none
  | c :: _ =>
    if c = c! "#" then some none
    else
      match line.dropWhile isAlpha with
      | [] => none
      | d :: r =>
        if ws d then (arguments ((line.takeWhile isAlpha).map toLower) (r.dropWhile ws)).map some else none

/-- A command as it is usually written. -/
def Cmd.text : Cmd → Bytes
  | .path d => b! "path " ++ d
  | .auth .basic => b! "auth basic"
  | .auth .cookie => b! "auth cookie"
  | .restrict r => b! "restrict " ++ r
  | .user n p => b! "user " ++ n ++ b! " " ++ p
  | .service r n => b! "service " ++ r ++ b! " " ++ n
  | .option r n v => b! "option " ++ r ++ b! " " ++ n ++ b! "=" ++ v

/-- Not empty, without white space and line ends. -/
def Word (s : Bytes) : Prop := s ≠ [] ∧ ∀ c ∈ s, ws c = false ∧ eol c = false

/-- Not empty, without white space at its beginning and without line ends. -/
def Rest (s : Bytes) : Prop := (∃ c t, s = c :: t ∧ ws c = false) ∧ ∀ c ∈ s, eol c = false

/-- The command can be written. -/
def Cmd.Ok : Cmd → Prop
  | .path d => Rest d
  | .auth _ => True
  | .restrict r => Rest r
  | .user n p => Word n ∧ Rest p
  | .service r n => Word r ∧ Rest n
  | .option r n v => Word r ∧ Rest (n ++ b! "=" ++ v) ∧ c! "=" ∉ n

/-- A file with these commands, one in a line. -/
def written (cs : List Cmd) : Bytes := cs.flatMap fun c => c.text ++ [0x0a]

/-- What the commands have done so far: the authenticator described, and the calls made. -/
abbrev State := Option Auth × List Call

/-- A call which may throw. -/
def make (env : Env) (s : State) (c : Call) : Except Out State :=
  if env s.2 c then .error (.threw (s.2 ++ [c])) else .ok (s.1, s.2 ++ [c])

/-- Effect of a command. Restricted resources and users belong to an authenticator: without one these commands are
    errors. -/
def perform (env : Env) (s : State) : Cmd → Except Out State
  | .path d => .ok (s.1, s.2 ++ [.addDirectory d])
  | .auth k => .ok (some { kind := k }, s.2)
  | .restrict r => match s.1 with
    | none => .error (.badConfig s.2)
    | some a => .ok (some { a with restrict := a.restrict ++ [r] }, s.2)
  | .user n p => match s.1 with
    | none => .error (.badConfig s.2)
    | some a => .ok (some { a with users := a.users ++ [(n, p)] }, s.2)
  | .service r n => make env s (.loadService r n)
  | .option r n v => make env s (.setOption r n v)

/-- Effect of lines, up to the first error. -/
def performAll (env : Env) (s : State) : List Bytes → Except Out State
  | [] => .ok s
  | l :: ls =>
    match parse l with
    | none => .error (.badConfig s.2)
    | some none => performAll env s ls
    | some (some c) =>
      match perform env s c with
      | .error o => .error o
      | .ok s => performAll env s ls

/-- The commands of some lines. -/
def commands (ls : List Bytes) : List Cmd := ls.filterMap fun l => (parse l).join

/-- The calls a command makes. -/
def calls : Cmd → List Call
  | .path d => [.addDirectory d]
  | .service r n => [.loadService r n]
  | .option r n v => [.setOption r n v]
  | _ => []

/-- The authenticator after a command. -/
def authAfter (a : Option Auth) : Cmd → Option Auth
  | .auth k => some { kind := k }
  | .restrict r => a.map fun a => { a with restrict := a.restrict ++ [r] }
  | .user n p => a.map fun a => { a with users := a.users ++ [(n, p)] }
  | _ => a

/-- The letters. -/
def small : Bytes := b! "abcdefghijklmnopqrstuvwxyz"
def capital : Bytes := b! "ABCDEFGHIJKLMNOPQRSTUVWXYZ"

/-- The same letter, but small. -/
def smallOf (c : UInt8) : UInt8 := ((capital.zip small).find? (·.1 = c)).elim c (·.2)

/-- The names of the commands. -/
def names : List Bytes := [b! "path", b! "auth", b! "restrict", b! "user", b! "service", b! "option"]

/-- The beginning of a line that is not (yet) an error: blank, a comment, the letters of a command, or a command and
    something after it. -/
def startOk (tail : Bytes) : Bool :=
  match tail with
  | [] => true
  | c :: _ =>
    c = c! "#" ||
      match tail.dropWhile isAlpha with
      | [] => true
      | d :: _ => ws d && names.contains ((tail.takeWhile isAlpha).map toLower)

end Verif.Spec.Config
