import Verif.Spec.HttpFraming
import Verif.Spec.HttpRefusal
/-
Why a chunked body is refused: at which byte, and what is wrong with it. Given in terms of the grammar of bodies (C68) and of
the causes for which heads are refused (C99), without reference to the states of the parser.
-/
namespace Verif.Http.Text

/-- A text with which some chunked body begins, or a body and what follows it. -/
def BodyViable (handler old : Bool) (t : Bytes) : Prop :=
  ∃ ds tr w rest, Chunked handler old ds tr w rest ∧ t <+: w ++ rest

/-- The chunks in a text have more than `max` bytes of data; the last chunk need not be complete. -/
def Overfull (max : Nat) (t : Bytes) : Prop :=
  ∃ ds p line d n, Chunks ds p ∧ SizeLine n line ∧ d.length ≤ n ∧ p ++ line ++ d <+: t ∧ max < ds.flatten.length + d.length

/-- Blanks and line ends before a size are ignored. -/
def Skip (t : Bytes) : Prop := ∀ c ∈ t, isBlank c = true ∨ c = CR ∨ c = LF

/-- The digits of a size. -/
def HexDigits (z : Bytes) : Prop := z ≠ [] ∧ ∀ c ∈ z, isHexDigit c = true

/-- What is wrong with the frame of the chunks: after `t` the byte `c` is wrong. -/
inductive ChunkCause : Bytes → UInt8 → Prop
  /-- something else than a number for the size -/
  | sizeFirst {ds : List Bytes} {p pad : Bytes} {c : UInt8} : Chunks ds p → Skip pad → isHexDigit c = false →
      isBlank c = false → c ≠ CR → c ≠ LF → ChunkCause (p ++ pad) c
  | size {ds : List Bytes} {p pad z : Bytes} {c : UInt8} : Chunks ds p → Skip pad → HexDigits z → isHexDigit c = false →
      isBlank c = false → c ≠ CR → c ≠ c! ";" → ChunkCause (p ++ pad ++ z) c
  /-- something else than the end of the line after a size and blanks -/
  | afterSize {ds : List Bytes} {p pad z x : Bytes} {c : UInt8} : Chunks ds p → Skip pad → HexDigits z → x ≠ [] →
      (∀ c ∈ x, isBlank c = true) → isBlank c = false → c ≠ CR → ChunkCause (p ++ pad ++ z ++ x) c
  /-- a CR without LF at the end of the line with a size -/
  | sizeEnd {ds : List Bytes} {p pad z x : Bytes} {c : UInt8} : Chunks ds p → Skip pad → HexDigits z → SizeTail x → c ≠ LF →
      ChunkCause (p ++ pad ++ z ++ x ++ [CR]) c
  /-- something else than a line end after the data of a chunk: a chunk is longer than its size says -/
  | data {ds : List Bytes} {p line d : Bytes} {c : UInt8} : Chunks ds p → SizeLine d.length line → d ≠ [] → c ≠ CR →
      ChunkCause (p ++ line ++ d) c
  | dataEnd {ds : List Bytes} {p line d : Bytes} {c : UInt8} : Chunks ds p → SizeLine d.length line → d ≠ [] → c ≠ LF →
      ChunkCause (p ++ line ++ d ++ [CR]) c
  /-- a CR without LF after the last chunk -/
  | last {ds : List Bytes} {p line : Bytes} {c : UInt8} : Chunks ds p → SizeLine 0 line → c ≠ LF → ChunkCause (p ++ line ++ [CR]) c

/-- What is wrong, according to the error, with a chunked body after a head with the first line `h`. -/
inductive BodyCause (handler : Bool) (h : Head) : Err → Bytes → UInt8 → Prop
  /-- the frame of the chunks -/
  | chunks {t : Bytes} {c : UInt8} : ChunkCause t c → BodyCause handler h .chunkChar t c
  /-- the trailers, which are refused as if they came after the first line and a line end; with a payload handler the body is
      over before them -/
  | trailers {ds : List Bytes} {p line f u : Bytes} {c : UInt8} {e : Err} : handler = false → Chunks ds p → SizeLine 0 line →
      (∀ a ∈ u.head?, a ≠ CR) → (u = [] → c ≠ CR) → FirstLine h f → Cause h.isRequest e (f ++ [LF, CR] ++ u) c →
      BodyCause handler h e (p ++ line ++ u) c

end Verif.Http.Text
