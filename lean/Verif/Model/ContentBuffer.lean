import Verif.Base
/-
Model of the memory behind the content of messages: `content_buffer_t` (/repo/include/pion/http/message.hpp:500-563)
inside any number of message objects.
-/
namespace Verif.ContentBuffer

/-- A byte of memory; `none` is one that was not written since it was allocated. -/
abbrev Cell := Option UInt8

/-- What `m_ptr` points to: the member `m_empty` of object `i`, or an allocated block. -/
inductive Ptr where
  | empty (i : Nat)
  | block (a : Nat)
  deriving Repr, DecidableEq

/-- `content_buffer_t` (/repo/include/pion/http/message.hpp:558-562). -/
structure Obj where
  buf : Option Nat
  len : Nat
  ptr : Ptr
  deriving Repr, DecidableEq

/-- The objects that exist and the allocated blocks. Addresses of blocks are not used again. -/
structure St where
  objs : Nat → Option Obj := fun _ => none
  heap : Nat → Option (List Cell) := fun _ => none
  next : Nat := 0

def upd {α : Type} (f : Nat → α) (k : Nat) (x : α) : Nat → α := fun n => if n = k then x else f n

/-- The destructor of `m_buf`, or the second half of `m_buf.reset`. -/
def free (heap : Nat → Option (List Cell)) : Option Nat → Nat → Option (List Cell)
  | none => heap
  | some a => upd heap a none

/-- `resize` (/repo/include/pion/http/message.hpp:543-553). -/
def St.resize (s : St) (i : Nat) (o : Obj) (n : Nat) : St :=
  if n = 0 then { s with objs := upd s.objs i (some ⟨none, 0, .empty i⟩), heap := free s.heap o.buf }
  else
    { objs := upd s.objs i (some ⟨some s.next, n, .block s.next⟩)
      heap := upd (free s.heap o.buf) s.next (some (List.replicate n none ++ [some 0]))
      next := s.next + 1 }

/-- Reading `n` bytes at `get()`; `none` outside allocated memory. -/
def St.load (s : St) (o : Obj) (n : Nat) : Option (List Cell) :=
  match o.ptr with
  | .empty i => if (s.objs i).isSome ∧ n ≤ 1 then some ([some 0].take n) else none
  | .block a =>
    match s.heap a with
    | none => none
    | some b => if n ≤ b.length then some (b.take n) else none

/-- Writing bytes at `get() + k`; `none` outside allocated memory. (Writing to `m_empty` is never done.) -/
def St.store (s : St) (o : Obj) (k : Nat) (cs : List Cell) : Option St :=
  match o.ptr with
  | .empty _ => none
  | .block a =>
    match s.heap a with
    | none => none
    | some b =>
      if k + cs.length ≤ b.length then
        some { s with heap := upd s.heap a (some (b.take k ++ cs ++ b.drop (k + cs.length))) }
      else none

/-- `memcpy(get(), buf.get(), buf.size())` from object `j` to object `i`. The bytes are read before they are written. -/
def St.memcpy (s : St) (i j : Nat) : Option St :=
  match s.objs i, s.objs j with
  | some o, some p =>
    match s.load p p.len with
    | none => none
    | some cs => s.store o 0 cs
  | _, _ => none

/-- The operations: the default constructor (/repo/include/pion/http/message.hpp:507), the copy constructor (510-517),
    the assignment (520-528), `create_content_buffer` (message.hpp:341-344), writing one byte of the content through
    `get_content`, the destructor. -/
inductive Op where
  | new (i : Nat)
  | copy (i j : Nat)
  | assign (i j : Nat)
  | create (i n : Nat)
  | write (i k : Nat) (c : UInt8)
  | destroy (i : Nat)
  deriving Repr, DecidableEq

/-- `none`: undefined (an object that does not exist or exists already, or memory that is not allocated). -/
def St.step (s : St) : Op → Option St
  | .new i =>
    match s.objs i with
    | some _ => none
    | none => some { s with objs := upd s.objs i (some ⟨none, 0, .empty i⟩) }
  | .copy i j =>
    match s.objs i, s.objs j with
    | none, some p =>
      let s := { s with objs := upd s.objs i (some ⟨none, 0, .empty i⟩) }
      if p.len ≠ 0 then (s.resize i ⟨none, 0, .empty i⟩ p.len).memcpy i j else some s
    | _, _ => none
  | .assign i j =>
    match s.objs i, s.objs j with
    | some o, some p => if p.len ≠ 0 then (s.resize i o p.len).memcpy i j else some (s.resize i o 0)
    | _, _ => none
  | .create i n =>
    match s.objs i with
    | none => none
    | some o => some (s.resize i o n)
  | .write i k c =>
    match s.objs i with
    | none => none
    | some o => if k < o.len then s.store o k [some c] else none
  | .destroy i =>
    match s.objs i with
    | none => none
    | some o => some { s with objs := upd s.objs i none, heap := free s.heap o.buf }

def St.run (s : St) : List Op → Option St
  | [] => some s
  | op :: ops =>
    match s.step op with
    | none => none
    | some s => s.run ops

/-- The content of object `i`: the `get_content_buffer_size()` bytes at `get_content()`. -/
def St.content (s : St) (i : Nat) : Option (List Cell) :=
  match s.objs i with
  | none => none
  | some o => s.load o o.len

/-- The same with the byte that follows. -/
def St.contentZ (s : St) (i : Nat) : Option (List Cell) :=
  match s.objs i with
  | none => none
  | some o => s.load o (o.len + 1)

end Verif.ContentBuffer
