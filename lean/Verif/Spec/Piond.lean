import Verif.Model.Piond
/-
The command line of `piond` as its usage text has it (/repo/utils/piond.cpp:31-37), for C72.
-/
namespace Verif.Spec.Piond
open Verif.Piond

/-- An option. -/
inductive Flag where
  | port (v : Bytes) | address (v : Bytes) | config (v : Bytes) | dir (v : Bytes) | option (name value : Bytes)
  | ssl (v : Bytes) | verbose
  deriving Repr, DecidableEq

/-- As arguments. -/
def Flag.args : Flag → List Bytes
  | .port v => [b! "-p", v]
  | .address v => [b! "-i", v]
  | .config v => [b! "-c", v]
  | .dir v => [b! "-d", v]
  | .option n v => [b! "-o", n ++ c! "=" :: v]
  | .ssl v => [b! "-ssl", v]
  | .verbose => [b! "-v"]

/-- What comes after the options: nothing, one or both of RESOURCE and WEBSERVICE. -/
inductive Tail where
  | nothing | service (s : Bytes) | both (r s : Bytes)
  /-- the last argument of all is `-v` -/
  | resourceVerbose (r : Bytes)
  deriving Repr, DecidableEq

def Tail.args : Tail → List Bytes
  | .nothing => []
  | .service s => [s]
  | .both r s => [r, s]
  | .resourceVerbose r => [r, b! "-v"]

/-- The options make sense: addresses are addresses, directories exist, names have no `=`. -/
def Flag.Good (w : World) : Flag → Prop
  | .address v => w.isAddress v = true
  | .dir v => w.exists' v = true
  | .option n _ => c! "=" ∉ n
  | _ => True

/-- RESOURCE and WEBSERVICE do not look like options. -/
def Tail.Good : Tail → Prop
  | .nothing => True
  | .service s => s.head? ≠ some (c! "-")
  | .both r s => r.head? ≠ some (c! "-") ∧ s.head? ≠ some (c! "-")
  | .resourceVerbose r => r.head? ≠ some (c! "-")

/-- The port a text stands for. -/
def portNumber (v : Bytes) : UInt16 := if UInt16.ofNat (strtoul10 v) = 0 then 8080 else UInt16.ofNat (strtoul10 v)

/-- What an option is about. -/
def Flag.port? : Flag → Option UInt16
  | .port v => some (portNumber v)
  | _ => none

def Flag.address? : Flag → Option Bytes
  | .address v => some v
  | _ => none

def Flag.config? : Flag → Option Bytes
  | .config v => some v
  | _ => none

def Flag.ssl? : Flag → Option Bytes
  | .ssl v => some v
  | _ => none

def Flag.option? : Flag → Option (Bytes × Bytes)
  | .option n v => some (n, v)
  | _ => none

def Flag.dir? : Flag → Option Bytes
  | .dir v => some v
  | _ => none

/-- What the arguments mean. Of options that can be there once the last one counts; `-o` and `-d` add up, in order. -/
def meaning (fs : List Flag) (t : Tail) : Opts where
  port := (fs.filterMap Flag.port?).getLast?.getD 8080
  address := (fs.filterMap Flag.address?).getLast?
  config := (fs.filterMap Flag.config?).getLast?.getD []
  pem := (fs.filterMap Flag.ssl?).getLast?.getD []
  ssl := fs.any (·.ssl?.isSome)
  verbose := fs.contains .verbose || (match t with | .resourceVerbose _ => true | _ => false)
  options := fs.filterMap Flag.option?
  dirs := fs.filterMap Flag.dir?
  resource := match t with | .both r _ => r | .resourceVerbose r => r | _ => []
  service := match t with | .both _ s => s | .service s => s | _ => []

end Verif.Spec.Piond
