import Verif.Model.Chars
import Verif.Model.Strtol
import Verif.Model.HttpMessage
/-
Model of the program `piond` (/repo/utils/piond.cpp): its command line, and what it does with the server. Arguments are
texts without NUL. `argv[0]` is left out; `argnum+1 < argc` is then that an argument follows.

Not modelled: logging, and what the server does (Verif.Model.PluginServer, ServiceConfig).
-/
namespace Verif.Piond

/-- `strtoul(s, 0, 10)` for a 64 bit `unsigned long` (C standard, 7.22.1.4): leading white space, an optional sign, digits.
    Numbers that are too large become the largest; a minus sign negates modulo 2^64. -/
def strtoul10 (s : Bytes) : Nat :=
  let num (r : Bytes) : Nat := decVal (r.takeWhile isDigit)
  match s.dropWhile isSpaceC with
  | [] => 0
  | c :: r =>
    if c = c! "-" then (if num r < 2 ^ 64 then (2 ^ 64 - num r) % 2 ^ 64 else 2 ^ 64 - 1)
    else if c = c! "+" then min (num r) (2 ^ 64 - 1)
    else min (num (c :: r)) (2 ^ 64 - 1)

/-- The variables of `main` (/repo/utils/piond.cpp:45-55); `none` as address is that of all IPv4 interfaces. `dirs` are the
    directories given to `plugin::add_plugin_directory`. -/
structure Opts where
  port : UInt16 := 8080
  address : Option Bytes := none
  config : Bytes := []
  resource : Bytes := []
  service : Bytes := []
  pem : Bytes := []
  ssl : Bool := false
  verbose : Bool := false
  options : List (Bytes × Bytes) := []
  dirs : List Bytes := []
  deriving Repr, DecidableEq

/-- How the command line is read: understood; the usage is printed and 1 returned; a directory does not exist (1 is
    returned); an exception leaves `main`. -/
inductive Read where
  | ok (o : Opts)
  | usage
  | noDirectory
  | thrown
  deriving Repr, DecidableEq

/-- The world: which texts `address::from_string` takes, and which directories exist. -/
structure World where
  isAddress : Bytes → Bool
  exists' : Bytes → Bool

/-- `endpoint::port(unsigned short)` of the number read (/repo/utils/piond.cpp:59-63). -/
def setPort (o : Opts) (v : Bytes) : Opts :=
  let p := UInt16.ofNat (strtoul10 v)
  { o with port := if p = 0 then 8080 else p }

/-- `-o` (/repo/utils/piond.cpp:77-86): the text before and after the first `=`; `none` if there is none. -/
def splitOption (v : Bytes) : Option (Bytes × Bytes) :=
  if c! "=" ∈ v then some (v.takeWhile (· ≠ c! "="), (v.dropWhile (· ≠ c! "=")).drop 1) else none

/-- The loop over the arguments (/repo/utils/piond.cpp:57-107). The last argument has none after it; only `-v` needs none.
    The last two arguments may be without `-`: RESOURCE and WEBSERVICE. -/
def parse (w : World) (o : Opts) : List Bytes → Read
  | [] => .ok o
  | [a] =>
    if a.head? = some (c! "-") then if a = b! "-v" then .ok { o with verbose := true } else .usage
    else .ok { o with service := a }
  | a :: v :: rest =>
    if a.head? = some (c! "-") then
      if a = b! "-p" then parse w (setPort o v) rest
      else if a = b! "-i" then if w.isAddress v then parse w { o with address := some v } rest else .thrown
      else if a = b! "-c" then parse w { o with config := v } rest
      else if a = b! "-d" then if w.exists' v then parse w { o with dirs := o.dirs ++ [v] } rest else .noDirectory
      else if a = b! "-o" then
        match splitOption v with
        | none => .usage
        | some nv => parse w { o with options := o.options ++ [nv] } rest
      else if a = b! "-ssl" then parse w { o with ssl := true, pem := v } rest
      else if a = b! "-v" then parse w { o with verbose := true } (v :: rest)
      else .usage
    else if rest = [] then parse w { o with resource := a } (v :: rest)
    else .usage

/-- The command line (/repo/utils/piond.cpp:57-112). -/
def commandLine (w : World) (args : List Bytes) : Read :=
  match parse w {} args with
  | .ok o => if o.config = [] ∧ (o.resource = [] ∨ o.service = []) then .usage else .ok o
  | r => r

/-- What is done with the server (/repo/utils/piond.cpp:145-174), up to the first exception. -/
inductive Do where
  | listen (address : Option Bytes) (port : UInt16)
  | sslKey (pem : Bytes)
  | loadService (resource service : Bytes)
  | setOption (resource name value : Bytes)
  | loadConfig (file : Bytes)
  | start
  | waitForShutdown
  deriving Repr, DecidableEq

/-- The rest of `main` (/repo/utils/piond.cpp:144-174), built with SSL. -/
def serve (o : Opts) : List Do :=
  [.listen o.address o.port] ++ (if o.ssl then [.sslKey o.pem] else []) ++
  (if o.config = [] then .loadService o.resource o.service :: o.options.map (fun nv => .setOption o.resource nv.1 nv.2)
   else [.loadConfig o.config]) ++ [.start, .waitForShutdown]

end Verif.Piond
