import Verif.Model.AdminRights
/-
Model of where a `tcp::server` listens (/repo/include/pion/tcp/server.hpp, /repo/src/tcp_server.cpp): its endpoint, its
acceptor, the system calls that starting and stopping it make, and the user the process makes them as. Several servers live in one process. Their
connections and threads are modelled in `Model.TcpServer`.

Not modelled: users that get at the acceptor by `get_acceptor`; calls of `set_port`, `set_address` and `set_endpoint` by
one thread while another is in `start` (they take no lock); Windows.
-/
namespace Verif.Listen
open Verif.AdminRights (Proc)

/-- `boost::asio::ip::tcp::endpoint`: the family, the address (0 is the address that stands for all of them) and the port. -/
structure Endpoint where
  v6 : Bool := false
  addr : Nat := 0
  port : UInt16
  deriving Repr, DecidableEq

/-- The calls on the acceptor that can fail. -/
inductive Call where
  /-- `open` on an acceptor that is open: asio answers `already_open` without asking the system -/
  | openAgain
  | open | option | bind | name | listen
  deriving Repr, DecidableEq

/-- The acceptor (asio): its socket does not exist, exists, has a name, or listens. -/
inductive Acceptor where
  | closed | opened | bound (e : Endpoint) | listening (e : Endpoint)
  deriving Repr, DecidableEq

/-- What the system answers during one call of `start`: which calls succeed, and the port it chooses if asked for any. -/
structure Os where
  opens : Bool := true
  options : Bool := true
  binds : Bool := true
  names : Bool := true
  listens : Bool := true
  port : UInt16 := 49152
  deriving Repr, DecidableEq

/-- What happens, in order; the number says for which server. -/
inductive Ev where
  /-- `before_starting` -/
  | before (n : Nat)
  /-- a socket comes into being -/
  | opened (n : Nat)
  /-- it is bound: the endpoint asked for and the one given -/
  | bound (n : Nat) (asked given : Endpoint)
  | listens (n : Nat) (e : Endpoint)
  /-- the socket is gone -/
  | closed (n : Nat)
  /-- `start` throws what this call threw -/
  | threw (n : Nat) (c : Call)
  /-- `start` returns, having started the server -/
  | started (n : Nat)
  /-- `after_stopping` -/
  | after (n : Nat)
  deriving Repr, DecidableEq

/-- The members of a server that matter here (/repo/include/pion/tcp/server.hpp:211, 226, 232). -/
structure Srv where
  ep : Endpoint
  acc : Acceptor := .closed
  listening : Bool := false
  deriving Repr, DecidableEq

/-- The servers of the process, its user, and all that happened, with the user the process ran as then. -/
structure World where
  srv : Nat → Option Srv := fun _ => none
  proc : Proc
  log : List (Nat × Ev) := []

inductive Op where
  /-- a constructor with a port (/repo/src/tcp_server.cpp:23-33, 47-57) -/
  | create (n : Nat) (port : Nat)
  /-- a constructor with an endpoint (/repo/src/tcp_server.cpp:35-45, 59-69) -/
  | createAt (n : Nat) (e : Endpoint)
  | setPort (n : Nat) (port : Nat)
  | setAddress (n : Nat) (v6 : Bool) (addr : Nat)
  | setEndpoint (n : Nat) (e : Endpoint)
  | start (n : Nat) (os : Os)
  | stop (n : Nat)
  | destroy (n : Nat)
  deriving Repr, DecidableEq

/-- The conversion of an `unsigned int` to the `unsigned short` that is the port of an endpoint (asio). -/
def toPort (p : Nat) : UInt16 := UInt16.ofNat p

/-- The `try` block of `start` (/repo/src/tcp_server.cpp:85-98) without the rights: the calls that succeed, the server
    after them and the call that threw. The protocol of `open` is the one of the endpoint. -/
def attempt (n : Nat) (os : Os) (v : Srv) : List Ev × Srv × Option Call :=
  match v.acc with
  | .closed =>
    if !os.opens then ([], v, some .open)
    else
      let v := { v with acc := .opened }
      if !os.options then ([.opened n], v, some .option)
      else if !os.binds then ([.opened n], v, some .bind)
      else
        let given : Endpoint := { v.ep with port := if v.ep.port = 0 then os.port else v.ep.port }
        let l := [.opened n, .bound n v.ep given]
        let v := { v with acc := .bound given }
        if v.ep.port = 0 ∧ os.names = false then (l, v, some .name)
        else
          let v := if v.ep.port = 0 then { v with ep := given } else v
          if !os.listens then (l, v, some .listen)
          else (l ++ [.listens n given], { v with acc := .listening given }, none)
  | _ => ([], v, some .openAgain)

/-- The constructor of `admin_rights` and, on the object it made, the destructor: the user while it lives and the process
    after it (/repo/src/admin_rights.cpp:62-92). -/
def withRights (p : Proc) : Nat × Proc :=
  let s := AdminRights.St.construct { proc := p }
  (s.proc.euid, (s.release 0).proc)

/-- `start` (/repo/src/tcp_server.cpp:71-109): what happens, as which user, the server and the process after it. The
    rights are taken whatever the port is: the argument of the constructor only says whether that is logged
    (/repo/include/pion/admin_rights.hpp:32-34). They are given back whether or not something throws. The acceptor is left
    as it is when something throws. -/
def start (n : Nat) (os : Os) (p : Proc) (v : Srv) : List (Nat × Ev) × Srv × Proc :=
  if v.listening then ([], v, p)
  else
    let (admin, p') := withRights p
    let (l, v, e) := attempt n os v
    let l := (p.euid, .before n) :: l.map (fun ev => (admin, ev))
    match e with
    | some c => (l ++ [(p'.euid, .threw n c)], v, p')
    | none => (l ++ [(p'.euid, .started n)], { v with listening := true }, p')

/-- `stop` (/repo/src/tcp_server.cpp:111-149), without the connections. -/
def stop (n : Nat) (p : Proc) (v : Srv) : List (Nat × Ev) × Srv × Proc :=
  if v.listening then ([(p.euid, .closed n), (p.euid, .after n)], { v with listening := false, acc := .closed }, p)
  else ([], v, p)

/-- `~server` (/repo/include/pion/tcp/server.hpp:37), then the destructor of the acceptor. `stop` is called there on an
    object that is a `tcp::server` and nothing more, whose `after_stopping` does nothing. -/
def destroy (n : Nat) (p : Proc) (v : Srv) : List (Nat × Ev) :=
  match v.acc with
  | .closed => []
  | _ => [(p.euid, .closed n)]

/-- Changes a server that exists. -/
def World.update (w : World) (n : Nat) (f : Proc → Srv → List (Nat × Ev) × Srv × Proc) : World :=
  match w.srv n with
  | none => w
  | some v =>
    { srv := fun i => if i = n then some (f w.proc v).2.1 else w.srv i
      proc := (f w.proc v).2.2
      log := w.log ++ (f w.proc v).1 }

/-- A new server. A number names one object at a time: nothing happens if it is in use. -/
def World.create (w : World) (n : Nat) (e : Endpoint) : World :=
  match w.srv n with
  | none => { w with srv := fun i => if i = n then some { ep := e } else w.srv i }
  | some _ => w

/-- Changes the endpoint of a server: `set_port`, `set_address`, `set_endpoint`
    (/repo/include/pion/tcp/server.hpp:67, 73, 79). -/
def World.set (w : World) (n : Nat) (f : Endpoint → Endpoint) : World :=
  w.update n fun p v => ([], { v with ep := f v.ep }, p)

def World.step (w : World) : Op → World
  | .create n p => w.create n { port := toPort p }
  | .createAt n e => w.create n e
  | .setPort n p => w.set n fun e => { e with port := toPort p }
  | .setAddress n f a => w.set n fun e => { e with v6 := f, addr := a }
  | .setEndpoint n e => w.set n fun _ => e
  | .start n os => w.update n (start n os)
  | .stop n => w.update n (stop n)
  | .destroy n =>
    match w.srv n with
    | none => w
    | some v => { w with srv := fun i => if i = n then none else w.srv i, log := w.log ++ destroy n w.proc v }

/-- Any calls in a process without servers. -/
def run (p : Proc) (ops : List Op) : World := ops.foldl World.step { proc := p }

/-- `get_endpoint`, `get_port` (/repo/include/pion/tcp/server.hpp:64, 70, 76). -/
def World.endpoint (w : World) (n : Nat) : Option Endpoint := (w.srv n).map (·.ep)

/-- `is_listening` (/repo/include/pion/tcp/server.hpp:91). -/
def World.isListening (w : World) (n : Nat) : Bool := ((w.srv n).map (·.listening)).getD false

end Verif.Listen
