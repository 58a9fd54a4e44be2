import Verif.Base
/-
Model of `tcp::connection` (/repo/include/pion/tcp/connection.hpp), of the functions of `tcp::stream` that open one
(/repo/include/pion/tcp/stream.hpp:384-422), and of how `tcp::server` handles SSL (/repo/src/tcp_server.cpp:160-246).

Endpoints are numbers. What the network does is a parameter: which endpoints answer, whether a handshake succeeds, what is
read. Not modelled: the SSL protocol itself (what goes through the SSL stream is not in the clear, whatever the stream
does with it), asynchronous forms of the same functions, errors of reading and writing.
-/
namespace Verif.Connection

/-- `PION_HAVE_SSL`. -/
structure Build where
  ssl : Bool
  deriving Repr, DecidableEq

/-- The socket: closed; open but not connected, as after a failed `connect`; connected to an endpoint. -/
inductive Sock where
  | closed | opened | connected (peer : Nat)
  deriving Repr, DecidableEq

/-- `m_ssl_flag`, the socket, whether a handshake has succeeded on this socket, the endpoints that were asked to
    connect, and all data that went through the SSL stream and past it. -/
structure Conn where
  flag : Bool
  sock : Sock := .closed
  secured : Bool := false
  tried : List Nat := []
  tls : List Bytes := []
  clear : List Bytes := []
  deriving Repr, DecidableEq

/-- The constructors (/repo/include/pion/tcp/connection.hpp:109-143, 689-706): the flag asked for counts only in a build
    with SSL. -/
def create (b : Build) (flag : Bool) : Conn := { flag := b.ssl && flag }

/-- `is_open` (/repo/include/pion/tcp/connection.hpp:146-148). -/
def Conn.isOpen (c : Conn) : Bool := c.sock != .closed

/-- `close` (/repo/include/pion/tcp/connection.hpp:151-168); the destructor (line 184) does the same. -/
def Conn.close (c : Conn) : Conn := { c with sock := .closed, secured := false }

/-- What `connect` and a handshake can return. -/
inductive Err where
  | refused (peer : Nat) | alreadyConnected | hostNotFound | resolver | handshake
  deriving Repr, DecidableEq

/-- `connect(endpoint)` (/repo/include/pion/tcp/connection.hpp:257-262): opens the socket if need be; if the connection
    fails the socket stays open. A connected socket is not connected again. -/
def Conn.connect (up : Nat → Bool) (c : Conn) (ep : Nat) : Option Err × Conn :=
  match c.sock with
  | .connected _ => (some .alreadyConnected, c)
  | _ =>
    if up ep then (none, { c with sock := .connected ep, tried := c.tried ++ [ep] })
    else (some (.refused ep), { c with sock := .opened, tried := c.tried ++ [ep] })

/-- The loop of `connect(name, port)` (/repo/include/pion/tcp/connection.hpp:303-311): the error so far, and the endpoints
    still to try. -/
def Conn.tryEach (up : Nat → Bool) (c : Conn) (ec : Option Err) : List Nat → Option Err × Conn
  | [] => (ec, c)
  | ep :: eps =>
    match ec with
    | none => (none, c)
    | some _ =>
      match c.connect up ep with
      | (none, c') => c'.tryEach up none eps
      | (some e, c') => c'.close.tryEach up (some e) eps

/-- `connect(name, port)` (/repo/include/pion/tcp/connection.hpp:289-314). `resolved` is what the resolver returns, `none` for
    an error. -/
def Conn.connectName (up : Nat → Bool) (c : Conn) (resolved : Option (List Nat)) : Option Err × Conn :=
  match resolved with
  | none => (some .resolver, c)
  | some eps => c.tryEach up (some .hostNotFound) eps

/-- The port in `connect(address, port)` (/repo/include/pion/tcp/connection.hpp:273-278): `unsigned int` is given where an
    endpoint has `unsigned short`. -/
def endpointPort (port : UInt32) : UInt16 := port.toUInt16

/-- `handshake_client`, `handshake_server` (/repo/include/pion/tcp/connection.hpp:323-376): without SSL nothing is done and no
    error returned. -/
def Conn.handshake (b : Build) (succeeds : Bool) (c : Conn) : Option Err × Conn :=
  if b.ssl then
    if succeeds then (none, { c with flag := true, secured := true }) else (some .handshake, { c with flag := true })
  else (none, c)

/-- `read`, `read_some`, `write` and their asynchronous forms (/repo/include/pion/tcp/connection.hpp:385-591) with the data
    that is read or written: through the SSL stream if the flag is set, past it otherwise. -/
def Conn.transfer (b : Build) (c : Conn) (data : Bytes) : Conn :=
  if b.ssl && c.flag then { c with tls := c.tls ++ [data] } else { c with clear := c.clear ++ [data] }

/-- What a program does with a connection. -/
inductive Op where
  | connect (ep : Nat)
  | connectName (resolved : Option (List Nat))
  | handshake (succeeds : Bool)
  | transfer (data : Bytes)
  | close
  deriving Repr, DecidableEq

def Conn.step (b : Build) (up : Nat → Bool) (c : Conn) : Op → Conn
  | .connect ep => (c.connect up ep).2
  | .connectName r => (c.connectName up r).2
  | .handshake s => (c.handshake b s).2
  | .transfer d => c.transfer b d
  | .close => c.close

def Conn.run (b : Build) (up : Nat → Bool) (c : Conn) (ops : List Op) : Conn := ops.foldl (Conn.step b up) c

/-- `stream::connect`, and `stream::accept` for a client that is there (/repo/include/pion/tcp/stream.hpp:384-422). -/
def Conn.streamConnect (b : Build) (up : Nat → Bool) (succeeds : Bool) (c : Conn) (ep : Nat) : Option Err × Conn :=
  match c.connect up ep with
  | (some e, c') => (some e, c')
  | (none, c') => if c'.flag then c'.handshake b succeeds else (none, c')

/- The server -/

/-- Where the server is with a connection of its pool. -/
inductive Phase where
  /-- waiting for a client -/
  | accepting
  /-- `async_handshake_server` is under way -/
  | shaking
  /-- given to `handle_connection` -/
  | handled
  /-- `finish_connection` has taken it out of the pool -/
  | gone
  deriving Repr, DecidableEq

/-- A server: its flag, whether it listens, its connections in the order they were made, and for each call of
    `handle_connection` the connection as it was then. -/
structure Server where
  flag : Bool := false
  listening : Bool := false
  conns : List (Conn × Phase) := []
  given : List Conn := []
  deriving Repr, DecidableEq

/-- `listen` (/repo/src/tcp_server.cpp:173-196): a connection with the flag the server has now. -/
def Server.listen (b : Build) (s : Server) : Server :=
  if s.listening then { s with conns := s.conns ++ [(create b s.flag, .accepting)] } else s

/-- What happens to a server. `accepted i` and `shaken i` are for the connection with that number; `finished i keep`: the
    handler of connection `i` calls `finish`, and wants to keep it alive or not. -/
inductive Ev where
  | setFlag (f : Bool)
  | start | stop
  | accepted (i : Nat)
  | shaken (i : Nat) (ok : Bool)
  | finished (i : Nat) (keep : Bool)
  deriving Repr, DecidableEq

/-- One event; events that cannot happen change nothing. `set_ssl_key_file`, `set_ssl_flag`
    (/repo/src/tcp_server.cpp:160-171, /repo/include/pion/tcp/server.hpp:85), `start`, `stop`, `handle_accept` and
    `handle_ssl_handshake` (/repo/src/tcp_server.cpp:198-246), `finish_connection` (lines 248-270). The client of connection
    `i` is endpoint `i`. -/
def Server.step (b : Build) (s : Server) : Ev → Server
  | .setFlag f => { s with flag := f }
  | .start => if s.listening then s else { s with listening := true }.listen b
  | .stop => { s with listening := false }
  | .accepted i =>
    match s.conns[i]? with
    | some (c, .accepting) =>
      let s := s.listen b
      let c := { c with sock := .connected i }
      if b.ssl && c.flag then { s with conns := s.conns.set i (c, .shaking) }
      else { s with conns := s.conns.set i (c, .handled), given := s.given ++ [c] }
    | _ => s
  | .shaken i ok =>
    match s.conns[i]? with
    | some (c, .shaking) =>
      match c.handshake b ok with
      | (some _, c) => { s with conns := s.conns.set i (c.close, .gone) }
      | (none, c) => { s with conns := s.conns.set i (c, .handled), given := s.given ++ [c] }
    | _ => s
  | .finished i keep =>
    match s.conns[i]? with
    | some (c, .handled) =>
      if s.listening && keep then { s with given := s.given ++ [c] } else { s with conns := s.conns.set i (c.close, .gone) }
    | _ => s

def Server.run (b : Build) (s : Server) (es : List Ev) : Server := es.foldl (Server.step b) s

end Verif.Connection
