import Verif.Base
/-
Model of `tcp::stream_buffer` (/repo/include/pion/tcp/stream.hpp): the buffer behind `tcp::stream`, with the parts of
`std::streambuf` that decide when its virtual functions are called. Each operation waits for its asynchronous read or
write to finish; what the network does is given by a list of outcomes, one for each operation. Waking up without
having been notified is an outcome too: `m_async_done.wait` is not in a loop
(/repo/include/pion/tcp/stream.hpp:125, 163, 231).
-/
namespace Verif.Stream

def writeSize : Nat := 8192
def putBackMax : Nat := 10
def readSize : Nat := 8192

/- Writing -/

/-- How a wait for `async_write` ends. asio writes all bytes unless there is an error. -/
inductive Write where
  /-- all bytes were sent -/
  | done
  /-- an error after `k` bytes (all of them, if there are less) -/
  | failed (k : Nat)
  /-- the wait returned early; the bytes are sent all the same -/
  | spurious
  deriving Repr, DecidableEq

/-- The write buffer from `pbase()` to `pptr()`, the last error code, the bytes sent, and the writes to come. -/
structure Out where
  buf : Bytes := []
  error : Bool := false
  sent : Bytes := []
  env : List Write := []
  deriving Repr, DecidableEq

/-- `async_write` of some bytes and the wait for it (/repo/include/pion/tcp/stream.hpp:119-126, 224-232,
    287-294); the second component is `m_bytes_transferred`. When `env` has run out writes succeed. -/
def Out.write (o : Out) (data : Bytes) : Out × Nat :=
  match o.env.headD .done with
  | .done => ({ o with sent := o.sent ++ data, error := false, env := o.env.tail }, data.length)
  | .failed k =>
    ({ o with sent := o.sent ++ data.take k, error := true, env := o.env.tail }, min k data.length)
  | .spurious => ({ o with sent := o.sent ++ data, env := o.env.tail }, 0)

/-- `flush_output` (/repo/include/pion/tcp/stream.hpp:115-132); the result says whether there was no error.
    `pbump(-bytes_sent)` moves the end of the buffer, so what is left is its beginning. -/
def Out.flush (o : Out) : Out × Bool :=
  if o.buf.length > 0 then
    let (o, n) := o.write o.buf
    ({ o with buf := o.buf.take (o.buf.length - n) }, !o.error)
  else (o, true)

/-- `sync` (/repo/include/pion/tcp/stream.hpp:279-281). -/
def Out.sync (o : Out) : Out × Bool := o.flush

/-- `sputc`: puts the character into the buffer if there is room (one place less than there is,
    /repo/include/pion/tcp/stream.hpp:107), otherwise calls `overflow`
    (/repo/include/pion/tcp/stream.hpp:182-193). `none`: `overflow` writes behind the end of the array. -/
def Out.putc (o : Out) (c : UInt8) : Option (Out × Bool) :=
  if o.buf.length < writeSize - 1 then some ({ o with buf := o.buf ++ [c] }, true)
  else if o.buf.length < writeSize then some ({ o with buf := o.buf ++ [c] } : Out).flush
  else none

/-- `sputn`, that is `xsputn` (/repo/include/pion/tcp/stream.hpp:203-242), with the number of characters it returns.
    `none`: reads before the start of the given characters (`bytes_available` negative); or, when the buffer was not
    emptied by `flush_output`, puts the characters at its beginning but moves its end past the bytes it has. -/
def Out.putn (o : Out) (s : Bytes) : Option (Out × Nat) :=
  if o.buf.length + s.length ≤ writeSize - 1 then some ({ o with buf := o.buf ++ s }, s.length)
  else
    let avail := writeSize - 1 - o.buf.length
    let (o1, ok) := ({ o with buf := o.buf ++ s.take avail } : Out).flush
    if !ok then some (o1, 0)
    else if o.buf.length > writeSize - 1 then none
    else if s.length - avail ≥ writeSize - 1 then
      let (o2, n) := o1.write (s.drop avail)
      some (o2, avail + n)
    else if o1.buf = [] then some ({ o1 with buf := s.drop avail }, s.length)
    else none

/-- Calls that write. `ok` in the results: `sputc` and `pubsync` did not report an error, `sputn` returned the number
    of characters it was given. -/
inductive WOp where
  | putc (c : UInt8)
  | putn (s : Bytes)
  | sync

def Out.op (o : Out) : WOp → Option (Out × Bool)
  | .putc c => o.putc c
  | .putn s => (o.putn s).map fun r => (r.1, r.2 == s.length)
  | .sync => some o.sync

/-- Calls one after the other, with their results; `none` if one of them is undefined. -/
def Out.run (o : Out) : List WOp → Option (Out × List Bool)
  | [] => some (o, [])
  | w :: ws => match o.op w with
    | none => none
    | some (o', b) => (o'.run ws).map fun r => (r.1, b :: r.2)

/- Reading -/

/-- The read buffer from `eback()` to `gptr()` and from there to `egptr()`; the number of bytes kept in front of the
    last ones received; the bytes received so far; and the reads to come, `none` being an error. -/
structure In where
  back : Bytes := []
  avail : Bytes := []
  kept : Nat := 0
  received : Bytes := []
  env : List (Option Bytes) := []
  deriving Repr, DecidableEq

/-- The last `n` bytes. -/
def lastBytes (n : Nat) (l : Bytes) : Bytes := l.drop (l.length - n)

/-- `underflow` (/repo/include/pion/tcp/stream.hpp:139-174). The last bytes read are copied in front of the place for
    new ones before the read; if that fails the pointers stay, and the bytes that were kept there are overwritten. When
    `env` has run out reads fail. A read that returns nothing without error is left out (asio). -/
def In.underflow (i : In) : In × Option UInt8 :=
  match i.avail with
  | c :: _ => (i, some c)
  | [] =>
    let n := min i.back.length putBackMax
    match i.env.headD none with
    | some (c :: chunk) =>
      ({ back := lastBytes n i.back, avail := c :: chunk, kept := n, received := i.received ++ c :: chunk,
         env := i.env.tail }, some c)
    | _ => ({ i with back := lastBytes i.kept i.back ++ i.back.drop i.kept, env := i.env.tail }, none)

/-- `sgetc`. -/
def In.peek (i : In) : In × Option UInt8 := i.underflow

/-- Moves one character behind the read pointer. -/
def In.bump (i : In) : In := { i with back := i.back ++ i.avail.take 1, avail := i.avail.drop 1 }

/-- `sbumpc`: `uflow` calls `underflow` and moves on. -/
def In.getc (i : In) : In × Option UInt8 :=
  match i.underflow with
  | (i, none) => (i, none)
  | (i, some c) => (i.bump, some c)

/-- The loop of `xsgetn` (/repo/include/pion/tcp/stream.hpp:252-273). Each round but the last uses up the characters
    in the buffer; `fuel` bounds the number of rounds (the reads to come and one more are enough). -/
def In.getLoop : Nat → In → Nat → In × Bytes
  | 0, i, _ => (i, [])
  | fuel + 1, i, n =>
    if n = 0 then (i, [])
    else
      let part := i.avail.take n
      let i1 : In := { i with back := i.back ++ part, avail := i.avail.drop n }
      if n - part.length > 0 then
        match i1.underflow with
        | (i2, none) => (i2, part)
        | (i2, some _) =>
          let (i3, rest) := getLoop fuel i2 (n - part.length)
          (i3, part ++ rest)
      else (i1, part)

/-- `sgetn`. -/
def In.getn (i : In) (n : Nat) : In × Bytes := In.getLoop (i.env.length + 2) i n

/-- `sungetc`: `pbackfail` is not overridden and fails. -/
def In.unget (i : In) : In × Option UInt8 :=
  match i.back.getLast? with
  | none => (i, none)
  | some c => ({ i with back := i.back.dropLast, avail := c :: i.avail }, some c)

/-- `sputbackc`. -/
def In.putback (i : In) (c : UInt8) : In × Option UInt8 :=
  if i.back.getLast? = some c then i.unget else (i, none)

/-- Calls that read, and what they return. -/
inductive ROp where
  | peek | getc | getn (n : Nat) | unget | putback (c : UInt8)

inductive Res where
  | char (c : Option UInt8)
  | chars (s : Bytes)
  deriving Repr, DecidableEq

def In.op (i : In) : ROp → In × Res
  | .peek => let (i, r) := i.peek; (i, .char r)
  | .getc => let (i, r) := i.getc; (i, .char r)
  | .getn n => let (i, r) := i.getn n; (i, .chars r)
  | .unget => let (i, r) := i.unget; (i, .char r)
  | .putback c => let (i, r) := i.putback c; (i, .char r)

/-- Calls one after the other, with their results. -/
def In.run (i : In) : List ROp → In × List Res
  | [] => (i, [])
  | o :: os =>
    let (i1, r) := i.op o
    let (i2, rs) := i1.run os
    (i2, r :: rs)

end Verif.Stream
