import Verif.Model.SpdyDecompressor
import Verif.Spec.Spdy
/-
A SPDY session, independent of how it is parsed: the frames that client and server send, each side with its own
compressor for headers, packed into packets in any way; and what a program that looks at the packets sees.
-/
namespace Verif.Spec.SpdySession
open Verif.Spdy Verif.Spec.Spdy

/-- What zlib promises of a compressor that was given the dictionary and is flushed after every block, and of the stream
    that decompresses what it wrote. `InStep c z`: the stream has read all that the compressor has written. -/
structure Coder (Z C : Type) (zl : Inflate Z) where
  /-- the compressed block, with the state of the compressor after it -/
  deflate : C → Bytes → C × Bytes
  start : C
  zstart : Z
  InStep : C → Z → Prop
  /-- the first block asks for the dictionary, and goes on with it -/
  first : ∀ (plain : Bytes) (room : Nat), plain.length < room → ∃ n z1 z2 z3,
    zl.run zstart (deflate start plain).2 room = ⟨z1, n, [], .needDict, adler32 dictionary⟩ ∧
    n ≤ (deflate start plain).2.length ∧
    zl.setDictionary z1 dictionary = (z2, .ok) ∧
    (∃ a, zl.run z2 ((deflate start plain).2.drop n) room = ⟨z3, (deflate start plain).2.length - n, plain, .ok, a⟩) ∧
    InStep (deflate start plain).1 z3
  /-- another block -/
  next : ∀ (c : C) (z : Z) (plain : Bytes) (room : Nat), InStep c z → plain.length < room → ∃ z1 a,
    zl.run z (deflate c plain).2 room = ⟨z1, (deflate c plain).2.length, plain, .ok, a⟩ ∧ InStep (deflate c plain).1 z1
  /-- compression does not make a block of up to 16 KiB a thousand times as large -/
  size : ∀ (c : C) (plain : Bytes), plain.length < 16384 → (deflate c plain).2.length < 16000000

/-- zlib takes the whole block without error, with 16 KiB for the output, and is given the dictionary of SPDY if it asks for it:
    what it writes, and its state. -/
inductive Takes {Z : Type} (zl : Inflate Z) (z : Z) (block : Bytes) : Bytes → Z → Prop where
  | plain {r : Inflated Z} : zl.run z block 16384 = r → r.code = .ok → r.used = block.length → Takes zl z block r.out r.state
  | dictionary {r q : Inflated Z} {z2 : Z} : zl.run z block 16384 = r → r.code = .needDict → r.adler = adler32 dictionary →
      zl.setDictionary r.state dictionary = (z2, .ok) → zl.run z2 (block.drop r.used) (16384 - r.out.length) = q → q.code = .ok →
      r.used + q.used = block.length → Takes zl z block (r.out ++ q.out) q.state

/-- A frame that is sent. -/
inductive Sent where
  | data (id : Nat) (flags : UInt8) (payload : Bytes)
  /-- a frame with headers, sent by the client or by the server; `between` is what lies between the number of the stream
      and the headers -/
  | headers (client : Bool) (version : UInt8) (type : Nat) (flags : UInt8) (id : Nat) (between : Bytes)
      (hs : List (Bytes × Bytes))
  | other (version : UInt8) (type : Nat) (flags : UInt8) (payload : Bytes)

/-- The frames that are understood. -/
def Sent.Ok : Sent → Prop
  | .data id _ p => 0 < id ∧ id < 2 ^ 24 ∧ p.length < 2 ^ 24
  | .headers client v t _ id between hs =>
    v.toNat ≤ 3 ∧ (t = 1 ∧ between.length = 6 ∨ (t = 2 ∨ t = 8) ∧ between.length = 2) ∧ 0 < id ∧ id < 2 ^ 31 ∧
    hs.length < 65536 ∧ (∀ e ∈ hs, e.1.length < 65536 ∧ e.2.length < 65536) ∧ (headerBlock hs).length < 16384 ∧
    -- the client sends headers only in SYN_STREAM frames, with odd numbers; those of the server have even numbers
    (client = true ↔ t = 1 ∧ id % 2 = 1)
  | .other v t _ p =>
    v.toNat ≤ 3 ∧ (t = 3 ∨ t = 4 ∨ t = 5 ∨ t = 6 ∨ t = 9 ∨ t = 10) ∧ 4 ≤ p.length ∧ p.length < 2 ^ 24 ∧
    stored p 0 4 % 2 ^ 31 ≠ 0

/-- The bytes of a frame, and the compressors of client and server after it. -/
def Sent.bytes {Z C : Type} {zl : Inflate Z} (k : Coder Z C zl) (c : C × C) : Sent → (C × C) × Bytes
  | .data id fl p => (c, dataFrame id fl p)
  | .other v t fl p => (c, controlFrame v t fl p)
  | .headers true v t fl id between hs =>
    (((k.deflate c.1 (headerBlock hs)).1, c.2),
      controlFrame v t fl (be32 id ++ between ++ (k.deflate c.1 (headerBlock hs)).2))
  | .headers false v t fl id between hs =>
    ((c.1, (k.deflate c.2 (headerBlock hs)).1),
      controlFrame v t fl (be32 id ++ between ++ (k.deflate c.2 (headerBlock hs)).2))

/-- The frames of a packet. -/
def packet {Z C : Type} {zl : Inflate Z} (k : Coder Z C zl) (c : C × C) : List Sent → (C × C) × Bytes
  | [] => (c, [])
  | f :: fs =>
    let r := packet k (f.bytes k c).1 fs
    (r.1, (f.bytes k c).2 ++ r.2)

/-- The packets of a session. -/
def packets {Z C : Type} {zl : Inflate Z} (k : Coder Z C zl) (c : C × C) : List (List Sent) → List Bytes
  | [] => []
  | p :: ps => (packet k c p).2 :: packets k (packet k c p).1 ps

/-- What is seen of a frame. -/
structure Seen where
  kind : Nat
  id : Nat
  headers : List (Bytes × Bytes) := []
  content : Bytes := []
  last : Bool := false
  deriving Repr, DecidableEq

/-- What should be seen: the kinds are those of `http_info.http_type` (types.hpp:31-36), 0 for HEADERS frames. Of
    several headers with the same name the first is seen. -/
def Sent.seen : Sent → Seen
  | .data id fl p => { kind := 3, id := id, content := p, last := decide (fl &&& 1 ≠ 0) }
  | .headers _ _ t _ id _ hs => { kind := if t = 8 then 0 else t, id := id, headers := firsts hs }
  | .other _ t _ _ => { kind := if t = 5 then 0 else 4, id := 0 }

/-- What a call of `parse` has reported; the content of a data frame is found at `get_spdy_data_content`. -/
def reported {Z : Type} (mem : Bytes) (o : Out Z) : Seen where
  kind := o.info.httpType
  id := o.info.streamId
  headers := o.info.headers
  content := if o.info.httpType = 3 then (mem.drop (o.data.getD mem.length)).take o.info.dataSize else []
  last := o.info.lastChunk

/-- A program that looks at a packet as `parse` is meant to be used: with fresh information for every frame, from where the
    frame before it ended, as long as the result is indeterminate. `none`: a frame was refused, or the parser did
    something that it must not do. -/
def look {Z : Type} (z : Zlib Z) : Nat → Bytes → Nat → Dec Z → Option (List Seen) × Dec Z
  | 0, _, _, dec => (none, dec)
  | fuel + 1, mem, length, dec =>
    match parse z mem length {} dec none with
    | .error _ => (none, dec)
    | .ok o =>
      match o.result with
      | some false => (none, o.dec)
      | some true => (some [reported mem o], o.dec)
      | none =>
        let r := look z fuel (mem.drop o.read) o.length o.dec
        (r.1.map (reported mem o :: ·), r.2)

/-- All packets, with one decompressor, also those after a packet with a frame that was refused. -/
def lookAll {Z : Type} (z : Zlib Z) (dec : Dec Z) : List Bytes → List (Option (List Seen))
  | [] => []
  | p :: ps => (look z p.length p p.length dec).1 :: lookAll z (look z p.length p p.length dec).2 ps

end Verif.Spec.SpdySession
