import Verif.Model.Base64
import Verif.Model.Chars
/-
Model of `parser::binary_2base64` and `parser::base64_2binary` (/repo/src/http_parser.cpp:988-1062): binary fields of a form
as text, and back.

Both are built from the iterators of Boost.Serialization (boost/archive/iterators): `transform_width` regroups the bits of a
sequence, `base64_from_binary` and `binary_from_base64` map six bits to characters and back. They are modelled here after
Boost 1.50 and later; they are not part of /repo. `binary_from_base64` of an '=' is 0 in these versions (parameter `pad`: `true`),
in earlier ones an error (`pad`: `false`). Bytes are unsigned in the model; the iterators mask the sign away.
-/
namespace Verif.DataUrl

/-- Why reading a sequence ends early: an exception (`dataflow_exception`), or an address outside the memory of the sequence. -/
inductive Stop where
  | throws
  | oob
  deriving DecidableEq, Repr

/-- The state of a `transform_width`: the position in the sequence, the bits of the last element that are not used yet, the
    last element, and whether the end of the sequence has been reached. -/
structure Tw where
  pos : Nat
  rem : Nat := 0
  buf : UInt8 := 0
  eos : Bool := false
  deriving DecidableEq, Repr

/-- `transform_width::fill`: the next element, `missing` bits are still to be taken. `bitsIn`: the bits of one element of the
    sequence. -/
def fill (read : Nat → Except Stop UInt8) (bitsIn : Nat) : Nat → Tw → Nat → UInt8 → Except Stop (UInt8 × Tw)
  | 0, t, _, out => .ok (out, t)
  | fuel + 1, t, missing, out =>
    if missing = 0 then .ok (out, t)
    else
      match (if t.rem = 0 then
          if t.eos then .ok { t with buf := 0, rem := missing }
          else match read t.pos with
            | .ok b => .ok { t with buf := b, rem := bitsIn, pos := t.pos + 1 }
            | .error e => .error e
        else .ok t : Except Stop Tw) with
      | .error e => .error e
      | .ok t =>
        let i := min missing t.rem
        let j := (t.buf >>> UInt8.ofNat (t.rem - i)) &&& UInt8.ofNat (2 ^ i - 1)
        fill read bitsIn fuel { t with rem := t.rem - i } (missing - i) ((out <<< UInt8.ofNat i) ||| j)

/-- `transform_width::equal` with the iterator at the end of the sequence. -/
def atEnd (bitsIn bitsOut last : Nat) (t : Tw) : Bool × Tw :=
  if bitsIn < bitsOut then (t.pos = last, t)
  else if t.pos = last then (t.rem = 0, { t with eos := true })
  else (false, t)

/-- What `std::copy` has written, and how it ended. -/
inductive Copied where
  | done (out : Bytes)
  | stopped (why : Stop) (out : Bytes)
  | diverged
  deriving DecidableEq, Repr

/-- `std::copy` from a `transform_width` at `t` to the end of the sequence at `last`. -/
def copy (read : Nat → Except Stop UInt8) (bitsIn bitsOut last : Nat) : Nat → Tw → Bytes → Copied
  | 0, _, _ => .diverged
  | fuel + 1, t, out =>
    match atEnd bitsIn bitsOut last t with
    | (true, _) => .done out
    | (false, t) =>
      match fill read bitsIn bitsOut t bitsOut 0 with
      | .error e => .stopped e out
      | .ok (x, t) => copy read bitsIn bitsOut last fuel t (out ++ [x])

/-- Reading the bytes of a buffer. -/
def readBuf (data : Bytes) (i : Nat) : Except Stop UInt8 :=
  match data[i]? with
  | some b => .ok b
  | none => .error .oob

/-- `binary_2base64` (/repo/src/http_parser.cpp:988-1017); `data` are the bytes at `buf`, which is not null. `none`: the buffer is
    left, or the loop does not end. -/
def binary2base64 (data streamType : Bytes) : Option Bytes :=
  match copy (readBuf data) 8 6 data.length (2 * data.length + 2) { pos := 0 } [] with
  | .done out =>
    let padding := match data.length % 3 with
      | 0 => []
      | 1 => b! "=="
      | _ => b! "="
    some (b! "data:" ++ streamType ++ b! "; base64, " ++ (out.map Base64.enc ++ padding))
  | _ => none

/-- `binary_from_base64`: the six bits of a character. -/
def fromBase64 (pad : Bool) (c : UInt8) : Option UInt8 :=
  if c! "A" ≤ c ∧ c ≤ c! "Z" then some (c - c! "A")
  else if c! "a" ≤ c ∧ c ≤ c! "z" then some (c - c! "a" + 26)
  else if c! "0" ≤ c ∧ c ≤ c! "9" then some (c - c! "0" + 52)
  else if c = c! "+" then some 62
  else if c = c! "/" then some 63
  else if c = c! "=" ∧ pad then some 0
  else none

/-- Reading the characters of a string at `data()`; a NUL follows the last one. -/
def readText (pad : Bool) (text : Bytes) (i : Nat) : Except Stop UInt8 :=
  if i ≤ text.length then
    match fromBase64 pad (text.getD i 0) with
    | some v => .ok v
    | none => .error .throws
  else .error .oob

/-- What `base64_2binary` does: it returns a value, with the size, the type and the bytes it has put into the buffer; or it
    throws, or leaves the string or the buffer. -/
inductive Res where
  | ret (ok : Bool) (outSize : Nat) (streamType : Option Bytes) (written : Bytes)
  | throws
  | oobRead
  | oobWrite
  | diverged
  deriving DecidableEq, Repr

/-- The size of a text without the one or two '=' at its end (/repo/src/http_parser.cpp:1042-1046). -/
def trimmed (text : Bytes) : Nat :=
  if text.getLast? = some (c! "=") then
    if text.dropLast.getLast? = some (c! "=") then text.length - 2 else text.length - 1
  else text.length

/-- `base64_2binary` (/repo/src/http_parser.cpp:1019-1062); `bufSize` is the size of the buffer, `null`: the address of the buffer is
    null. Sizes are below 2^61, so that `(size - prefix_end_pos)*6` is exact. -/
def base642binary (pad : Bool) (bufSize : Nat) (null : Bool) (text : Bytes) : Res :=
  if text.take 5 ≠ b! "data:" then .ret false 0 none []
  else match findSub (b! "; base64, ") text with
    | none => .ret false 0 none []
    | some pos =>
      let type := (text.drop 5).take (pos - 5)
      let prefixEnd := pos + 10
      let size := trimmed text
      let outSize := (size - prefixEnd) * 6 / 8 + 1
      if size = 0 then .ret true outSize type []
      else if bufSize < size ∨ null then .ret false outSize type []
      else
        match copy (readText pad text) 6 8 size (text.length + 2) { pos := prefixEnd } [] with
        | .diverged => .diverged
        | .stopped why out => if bufSize < out.length then .oobWrite else if why = .oob then .oobRead else .throws
        | .done out => if bufSize < out.length + 1 then .oobWrite else .ret true outSize type (out ++ [0])

end Verif.DataUrl
