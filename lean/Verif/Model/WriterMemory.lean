import Verif.Model.Writer
/-
`http::writer` (/repo/include/pion/http/writer.hpp, /repo/src/http_writer.cpp) with its memory: what is given to
`async_write` are addresses, and the bytes are read from memory while the writing goes on, after `send` has returned.
`Verif.Writer` has the same functions with the bytes themselves.
-/
namespace Verif.WriterMemory
open Verif.Writer (W Lifecycle)

/-- A place in memory: a block of the user, a block that the writer or its message owns, or the constant `STRING_CRLF`. -/
inductive Addr where
  | user (n : Nat)
  | own (n : Nat)
  | crlf
  deriving Repr, DecidableEq

/-- `boost::asio::const_buffer`: `len` bytes from position `off` of a block. -/
structure Buf where
  addr : Addr
  off : Nat := 0
  len : Nat
  deriving Repr, DecidableEq

/-- The function given to `send`: the writer's own (`bind_to_write_handler`, which keeps the writer with
    `shared_from_this`, response_writer.hpp:135-139, request_writer.hpp:131-135), or one of the user, which keeps the writer or does not. -/
inductive Handler where
  | own
  | user (keeps : Bool)
  deriving Repr, DecidableEq

def Handler.keeps : Handler → Bool
  | .own => true
  | .user k => k

/-- Which function was called back: the user's handler, or the finished handler of the writer; and whether without error. -/
inductive Called where
  | handler (ok : Bool)
  | finished (ok : Bool)
  deriving Repr, DecidableEq

/-- A writing that goes on: what is left, how much of the first buffer is taken, and what to call. -/
structure Pending where
  bufs : List Buf
  off : Nat := 0
  handler : Handler
  deriving Repr, DecidableEq

/-- `none`: memory that was given back. -/
abbrev Heap := List (Option Bytes)

def Heap.get (h : Heap) (n : Nat) : Option Bytes := h[n]?.join

/-- The writer as `Verif.Writer.W` (whose `buffers` and `wire` are not used here), with its memory: `text` are the blocks in
    `m_text_cache`, a list whose strings do not move; `binary` those in `m_binary_cache`; `content` the content of the message;
    `head` the strings of the message that make up its first line and headers, taken as one block. `fault`: memory was used
    after it was given back, or beyond its end, or given back twice, or a second writing was begun before the end of the first. -/
structure St where
  w : W
  own : Heap := []
  user : Heap := []
  bufs : List Buf := []
  text : List Nat := []
  binary : List Nat := []
  content : List Nat := []
  head : List Nat := []
  pending : Option Pending := none
  wire : Bytes := []
  called : List Called := []
  /-- somebody other than a handler has a pointer to the writer -/
  held : Bool := true
  dead : Bool := false
  fault : Bool := false

def St.cell (s : St) : Addr → Option Bytes
  | .user n => s.user.get n
  | .own n => s.own.get n
  | .crlf => some (b! "\r\n")

/-- Memory for `d`, at the end of the list. -/
def St.alloc (s : St) (d : Bytes) : St := { s with own := s.own ++ [some d] }

/-- Blocks are given back. -/
def St.free (s : St) (l : List Nat) : St :=
  l.foldl (fun s n => { s with own := s.own.set n none, fault := s.fault || (s.own.get n).isNone }) s

/-- A string at the back of `m_text_cache`, with its buffer. -/
def St.addText (s : St) (d : Bytes) : St × Buf :=
  ({ s.alloc d with text := s.text ++ [s.own.length] }, ⟨.own s.own.length, 0, d.length⟩)

/-- `flush_content_stream` (/repo/include/pion/http/writer.hpp:293-304). -/
def St.flush (s : St) : St :=
  if s.w.streamEmpty then s
  else if s.w.stream.isEmpty then { s with w := { s.w with streamEmpty := true } }
  else
    let r := s.addText s.w.stream
    let w : W := { s.w with stream := [], contentLength := s.w.contentLength + s.w.stream.length, streamEmpty := true }
    { r.1 with w := w, bufs := s.bufs ++ [r.2] }

/-- `write(const T& data)` (/repo/include/pion/http/writer.hpp:106-114). -/
def St.writeText (s : St) (d : Bytes) : St :=
  { s with w := { s.w with stream := s.w.stream ++ d, streamEmpty := false } }

/-- `write(const void*, size_t)` with `binary_cache_t::add` (/repo/include/pion/http/writer.hpp:122-128, 315-320). -/
def St.writeBinary (s : St) (d : Bytes) : St :=
  if d.isEmpty then s
  else
    let s := s.flush
    let s' := s.alloc d
    { s' with
      binary := s.binary ++ [s.own.length], bufs := s.bufs ++ [⟨.own s.own.length, 0, d.length⟩]
      w := { s.w with contentLength := s.w.contentLength + d.length } }

/-- `write_no_copy` (/repo/include/pion/http/writer.hpp:137-143, 152-158). -/
def St.writeNoCopy (s : St) (b : Buf) : St :=
  if b.len = 0 then s
  else
    let s := s.flush
    { s with bufs := s.bufs ++ [b], w := { s.w with contentLength := s.w.contentLength + b.len } }

/-- `clear` (/repo/include/pion/http/writer.hpp:91-98): `m_text_cache.clear()` gives the strings back; `m_binary_cache.clear()`
    forgets the copies, which only the destructor would give back (308-314). -/
def St.clear (s : St) : St :=
  let s := s.free s.text
  { s with bufs := [], text := [], binary := [], w := Writer.clear s.w }

/-- The headers (/repo/src/http_writer.cpp:25-31, response_writer.hpp:126-132, request_writer.hpp:122-128): the strings are in
    the message. -/
def St.headPart (t : TableOrder) (s : St) : St × List Buf :=
  if s.w.sentHeaders then (s, [])
  else
    let r := Writer.prepareBuffers t s.w
    let s' := s.alloc r.2
    ({ s' with w := { r.1 with sentHeaders := true }, head := s.head ++ [s.own.length] },
     [⟨.own s.own.length, 0, r.2.length⟩])

/-- The payload (/repo/src/http_writer.cpp:38-62). -/
def St.payloadPart (s : St) : St × List Buf :=
  if 0 < s.w.contentLength then
    if s.w.supportsChunks && s.w.sendingChunks then
      let r := s.addText (toHex s.w.contentLength)
      (r.1, [r.2, ⟨.crlf, 0, 2⟩] ++ s.bufs ++ [⟨.crlf, 0, 2⟩])
    else (s, s.bufs)
  else (s, [])

/-- The final chunk (/repo/src/http_writer.cpp:65-73). -/
def St.finalPart (s : St) (final : Bool) : St × List Buf :=
  if final && s.w.supportsChunks && s.w.sendingChunks then
    let r := s.addText (b! "0")
    (r.1, [r.2, ⟨.crlf, 0, 2⟩, ⟨.crlf, 0, 2⟩])
  else (s, [])

/-- `send_more_data` (/repo/include/pion/http/writer.hpp:267-281) with `prepare_write_buffers`
    (/repo/src/http_writer.cpp:21-74). If the connection is closed, the finished handler is called, not the one given. -/
def St.sendMore (t : TableOrder) (s : St) (final : Bool) (h : Handler) : St :=
  if s.w.isOpen then
    let s := s.flush
    let a := s.headPart t
    let b := a.1.payloadPart
    let c := b.1.finalPart final
    let s := c.1
    { s with pending := some ⟨a.2 ++ b.2 ++ c.2, 0, h⟩, fault := s.fault || s.pending.isSome }
  else { s with called := s.called ++ [.finished false] }

/-- The functions that send. -/
inductive Kind where
  | send
  | chunk
  | final
  deriving Repr, DecidableEq

/-- `send`, `send_chunk`, `send_final_chunk` (/repo/include/pion/http/writer.hpp:166-233). -/
def St.send (t : TableOrder) (s : St) (k : Kind) (h : Handler) : St :=
  match k with
  | .send => s.sendMore t false h
  | .chunk =>
    let w := { s.w with sendingChunks := true }
    let w := if w.supportsChunks then w else { w with lifecycle := .close }
    St.sendMore t { s with w := w } false h
  | .final => St.sendMore t { s with w := { s.w with sendingChunks := true } } true h

/-- The destructors of the writer and its message: the strings and copies that are known are given back
    (/repo/include/pion/http/writer.hpp:81, 308-314). -/
def St.destroy (s : St) : St :=
  let s := s.free (s.text ++ s.binary ++ s.content ++ s.head)
  { s with bufs := [], text := [], binary := [], content := [], head := [], dead := true }

/-- If nobody has a pointer to the writer, it is destroyed. -/
def St.unused (s : St) : St :=
  if s.dead || s.held || (s.pending.map (·.handler.keeps)).getD false then s else s.destroy

/-- What is called at the end of a writing (response_writer.hpp:147-166, request_writer.hpp:143-158): the request writer clears
    itself after a chunk, which happens only with its own handler. -/
def St.callBack (s : St) (h : Handler) (ok : Bool) : St :=
  match h with
  | .own =>
    let s := if ok && s.w.isRequest && s.w.sendingChunks then s.clear else s
    { s with called := s.called ++ [.finished ok] }
  | .user _ => { s with called := s.called ++ [.handler ok] }

/-- Buffers whose bytes are all taken are skipped. -/
def skip : List Buf → Nat → List Buf × Nat
  | b :: r, n => if n < b.len then (b :: r, n) else skip r 0
  | [], _ => ([], 0)

/-- The connection takes the next byte. -/
def St.put (s : St) : St :=
  match s.pending with
  | none => s
  | some p =>
    match skip p.bufs p.off with
    | ([], _) => s
    | (b :: r, n) =>
      match (s.cell b.addr).bind (·[b.off + n]?) with
      | none => { s with fault := true }
      | some x => { s with wire := s.wire ++ [x], pending := some ⟨b :: r, n + 1, p.handler⟩ }

/-- What can happen. -/
inductive Act where
  /-- the user writes text -/
  | text (d : Bytes)
  /-- `write` of bytes, which are copied -/
  | binary (d : Bytes)
  /-- `write_no_copy` of `n` bytes of block `a` of the user, from `off` on -/
  | noCopy (a off n : Nat)
  | clear
  /-- the message is changed through `get_response` or `get_request`, other than its content; taken as if all the strings of
      its first line and headers were given back -/
  | change (f : Msg → Msg)
  | send (k : Kind) (h : Handler)
  /-- the connection takes a byte -/
  | put
  /-- the writing is over, if all is taken: the handler is called -/
  | finish
  /-- the writing fails: the handler is called -/
  | fail
  /-- the connection is closed -/
  | close
  /-- the last pointer of the user to the writer is released -/
  | release
  /-- the user makes a block, changes a byte in it, gives it back -/
  | new (d : Bytes)
  | set (a i : Nat) (x : UInt8)
  | free (a : Nat)

/-- Something is called on the writer. -/
def St.use (s : St) : St := { s with fault := s.fault || s.dead }

def step (t : TableOrder) (s : St) : Act → St
  | .text d => s.use.writeText d
  | .binary d => s.use.writeBinary d
  | .noCopy a off n => s.use.writeNoCopy ⟨.user a, off, n⟩
  | .clear => s.use.clear
  | .change f =>
    let s := s.use.free s.head
    { s with head := [], w := { s.w with msg := f s.w.msg } }
  | .send k h => s.use.send t k h
  | .put => s.put
  | .finish => match s.pending with
    | none => s
    | some p => match skip p.bufs p.off with
      | ([], _) => (St.callBack { s with pending := none } p.handler true).unused
      | _ => s
  | .fail => match s.pending with
    | none => s
    | some p => (St.callBack { s with pending := none } p.handler false).unused
  | .close => { s with w := { s.w with isOpen := false } }
  | .release => St.unused { s with held := false }
  | .new d => { s with user := s.user ++ [some d] }
  | .set a i x => { s with user := s.user.set a ((s.user.get a).map (·.set i x)) }
  | .free a => { s with user := s.user.set a none }

/-- A new writer. With a message that has content, its constructor calls `write_no_copy` with it (response_writer.hpp:95-101,
    request_writer.hpp:103-109). -/
def fresh (w : W) : St :=
  match w.msg.contentBytes with
  | some (c :: r) =>
    if c = 0 then { w := w }
    else
      let b : Buf := ⟨.own 0, 0, (c :: r).length⟩
      St.writeNoCopy { w := w, own := [some (c :: r)], content := [0] } b
  | _ => { w := w }

/-- A new response writer for a request (`with content` is not possible), for a response, or a request writer; the settings are
    those of `Verif.Writer`. -/
def run (t : TableOrder) (s : St) (tr : List Act) : St := tr.foldl (step t) s

end Verif.WriterMemory
