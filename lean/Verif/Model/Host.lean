import Verif.Model.Exchange
/-
Model of an HTTP server with all its connections: each is a connection of `Model/Exchange`, and they share `m_is_listening`, the
mutex and the connection pool of the server (/repo/include/pion/tcp/server.hpp, /repo/src/tcp_server.cpp).
-/
namespace Verif.Host
open Verif.Exchange (St World)

/-- The server: `m_is_listening`; the connection for which a call of `finish_connection` has locked `m_mutex` while it handles a
    pipelined request; and all connections there have been, in the order in which they were accepted. In a connection `pooled`
    says whether it is in `m_conn_pool`; its own `listening` and `held` are not used. -/
structure Host where
  listening : Bool := true
  held : Option Nat := none
  conns : List St := []
  deriving Repr, DecidableEq

inductive Act where
  /-- a step on a connection -/
  | conn (i : Nat) (a : Exchange.Act)
  /-- a client connects, and another connection is waited for -/
  | accept
  /-- `server::stop` begins -/
  | stop (now : Bool)
  | start
  /-- `stop` looks for orphaned connections -/
  | prune
  /-- other uses of the mutex -/
  | other
  deriving Repr, DecidableEq

/-- The steps that are of one connection. -/
def single : Exchange.Act → Bool
  | .stop _ | .start | .prune | .other => false
  | _ => true

/-- `prune_connections` for one connection (/repo/src/tcp_server.cpp:269-288). -/
def pruned (c : St) : St :=
  if c.pooled ∧ c.readers = 0 ∧ c.writes = [] ∧ c.calls = [] then { c with isOpen := false, pooled := false } else c

/-- One step; `none` if it cannot happen. -/
def Host.step (w : Nat → World) (h : Host) : Act → Option Host
  | .conn i a =>
    if single a then
      match h.conns[i]? with
      | none => none
      | some c => match ({ c with listening := h.listening, held := h.held.isSome } : St).step (w i) a with
        | none => none
        | some c' =>
          some { h with
            held := if c'.held = h.held.isSome then h.held else if c'.held then some i else none
            conns := h.conns.set i c' }
    else none
  -- /repo/src/tcp_server.cpp:173-230: the new connection was put into the pool when it was waited for. If `stop` comes between the
  -- system accepting the connection and `handle_accept`, the connection is handled all the same: here it was accepted before.
  -- The connection that is waited for is not in the list; `stop` ends the wait.
  | .accept =>
    if h.held.isSome ∨ h.listening = false then none else some { h with conns := h.conns.map pruned ++ [{}] }
  -- /repo/src/tcp_server.cpp:113-130
  | .stop now =>
    if h.held.isSome then none
    else some { h with
      listening := false
      conns := h.conns.map fun c => { c with isOpen := c.isOpen && !(now && c.pooled) } }
  | .start => if h.held.isSome then none else some { h with listening := true }
  -- /repo/src/tcp_server.cpp:133-140
  | .prune => if h.held.isSome then none else some { h with conns := h.conns.map pruned }
  | .other => if h.held.isSome then none else some h

/-- A sequence of steps. -/
def Host.run (w : Nat → World) (h : Host) : List Act → Option Host
  | [] => some h
  | a :: as => match h.step w a with
    | none => none
    | some h' => h'.run w as

/-- A server that has been started. -/
def run (w : Nat → World) (as : List Act) : Option Host := ({} : Host).run w as

end Verif.Host
