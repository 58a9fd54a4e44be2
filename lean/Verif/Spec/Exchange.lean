import Verif.Model.Exchange
/-
What handlers have to do so that the answers on a connection do not mix, and what a client then gets.
-/
namespace Verif.Spec.Exchange
open Verif.Exchange

/-- A function that ends the answer: it finishes the connection and does nothing else with it, or it sends something, does
    nothing else with the connection until that has been sent, and leaves the rest to functions that end the answer. -/
def Ends : Prog → Prop
  | .finish next => next = .done
  | .send _ ok failed next => next = .done ∧ Ends ok ∧ Ends failed
  | _ => False

/-- An orderly handler: it sends something and leaves the rest to functions that end the answer; or it throws an exception, of
    a kind `handle_request` recovers from, before it has sent anything. It does not finish the connection itself. -/
def Orderly : Prog → Prop
  | .send _ ok failed next => next = .done ∧ Ends ok ∧ Ends failed
  | .throw r => r = true
  | _ => False

/-- All the bytes a function sends, itself and by the functions called when they have been sent. -/
def output : Prog → Bytes
  | .send b ok _ _ => b ++ output ok
  | _ => []

/-- The answer to a request: what its handler sends, or the page of the error handler if it throws. -/
def answer (w : World) (n : Nat) : Bytes :=
  match w.prog n with
  | .throw _ => w.page n
  | p => output p

/-- The answers to the first `n` requests, one after another. -/
def answers (w : World) (n : Nat) : Bytes := (List.range n).flatMap (answer w)

/-- `n` requests were handled, one after another: each was finished once, before the next one began. -/
def turns (n : Nat) : List Ev := (List.range n).flatMap fun i => [.request i, .finish i]

/-- What is going on on a connection: reads, writes, and calls that have still something to do. -/
def activities (s : St) : Nat :=
  s.readers + s.writes.length + (s.calls.filter fun c => c.prog ≠ .done).length

/-- What the server and the operating system do by themselves. -/
def own : Act → Bool
  | .call _ _ | .write _ _ | .writeEnds _ | .writeFails _ => true
  | _ => false

/-- Nobody closes the connection, and the server is not started again while it still has the connection. -/
def gentle : Act → Bool
  | .close | .start => false
  | _ => true

end Verif.Spec.Exchange
