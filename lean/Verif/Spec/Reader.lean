import Verif.Model.Reader
/-
What receiving messages from a connection must do, independently of how the reader does it.
-/
namespace Verif.Reader
open Verif.Http

/-- HTTP/1.1 or later. -/
def Msg11 (m : Msg) : Prop := 1 < m.verMajor ∨ (m.verMajor = 1 ∧ 1 ≤ m.verMinor)

/-- The message lets the connection stay open: HTTP/1.1 or later, and the value of its `Connection` header (as
    `get_header` returns it) is not `close`. -/
def StaysOpen (ord : Dict.Order) (m : Msg) : Prop :=
  Msg11 m ∧ m.headers.get ord (b! "Connection") ≠ b! "close"

/-- The bytes a connection still has for the next reader. -/
def pending (c : Conn) : List Bytes := if c.lifecycle = .pipelined then [c.saved] else []

/-- A connection marked pipelined has bytes to parse. -/
def Ok (c : Conn) : Prop := c.lifecycle = .pipelined → c.saved ≠ []

/-- What a server must make of the bytes of a connection, as one stream: message after message, each starting where
    the one before ended, until one is incomplete, is faulty, or closes the connection. At most `n` messages. -/
def serveStream (cfg : Cfg) (m : Msg) : Nat → Bytes → Option (List Got)
  | 0, _ => some []
  | _ + 1, [] => some []
  | n + 1, b :: bs =>
    match parse cfg (fresh cfg m) (b :: bs) with
    | none => none
    | some (.more, _, _) => some []
    | some (.no, s, _) => some [⟨s.ec.isSome, { s.msg with isValid := false }⟩]
    | some (.yes, s, rest) =>
      if s.msg.checkKeepAlive cfg.ord then (serveStream cfg m n rest).map (⟨s.ec.isSome, s.msg⟩ :: ·)
      else some [⟨s.ec.isSome, s.msg⟩]

end Verif.Reader
