import Verif.Model.IntBytes
/-
Model of `spdy::parser` (/repo/src/spdy_parser.cpp, /repo/include/pion/spdy/parser.hpp, types.hpp) and of
`spdy::decompressor` (/repo/src/spdy_decompressor.cpp). Positions are offsets from the start of the packet. zlib is a
parameter. Not modelled: logging.
-/
namespace Verif.Spdy
open Verif.IntBytes

/-- Things that must not happen: a read outside the packet, a read outside the buffer of the decompressor, a byte of that
    buffer used that was never written, a failed assertion. -/
inductive Bad where
  | outside | outsideHeader | uninitialised | assertion
  deriving Repr, DecidableEq

/-- `error_value_t` (parser.hpp:47-54). -/
inductive Err where
  | invalidFrame | invalidVersion | decompression | protocol | internal
  deriving Repr, DecidableEq

/-- `spdy_control_frame_info` (types.hpp:47-53). -/
structure Frame where
  control : Bool
  version : Nat
  type : Nat
  flags : UInt8
  length : Nat
  deriving Repr, DecidableEq

/-- `http_protocol_info` (types.hpp:67-83). The map of headers is a list of pairs with different names. -/
structure Info where
  headers : List (Bytes × Bytes) := []
  httpType : Nat := 0
  streamId : Nat := 0
  dataOffset : Nat := 0
  dataSize : Nat := 0
  lastChunk : Bool := false
  deriving Repr, DecidableEq

/-- `map::insert`: a name that is present keeps its value. -/
def insertHeader (hs : List (Bytes × Bytes)) (name value : Bytes) : List (Bytes × Bytes) :=
  if hs.any (fun e => e.1 == name) then hs else hs ++ [(name, value)]

def byteAt (mem : Bytes) (i : Nat) : Except Bad UInt8 :=
  match mem[i]? with
  | some b => .ok b
  | none => .error .outside

/-- `algorithm::to_uint16(const char*)` (/repo/include/pion/algorithm.hpp:123-125). -/
def u16At (mem : Bytes) (i : Nat) : Except Bad Nat := do
  let a ← byteAt mem i
  let b ← byteAt mem (i + 1)
  return (toUint16 a.toBitVec b.toBitVec).toNat

/-- `algorithm::to_uint32(const char*)` (/repo/include/pion/algorithm.hpp:143-145). -/
def u32At (mem : Bytes) (i : Nat) : Except Bad Nat := do
  let a ← byteAt mem i
  let b ← byteAt mem (i + 1)
  let c ← byteAt mem (i + 2)
  let d ← byteAt mem (i + 3)
  return (toUint32 a.toBitVec b.toBitVec c.toBitVec d.toBitVec).toNat

/-- Subtraction of `uint32_t`. -/
@[irreducible] def sub32 (a b : Nat) : Nat := (a + 2 ^ 32 - b) % 2 ^ 32

/-- `inflate` for a stream's state and input: the new state, what is written to the output (of which there is room for
    16384 bytes), and whether `spdy_decompress_header` goes on to return true, that is, the code is `Z_OK` and all
    input is used (/repo/src/spdy_decompressor.cpp:133-174). -/
abbrev Zlib (Z : Type) := Z → Bytes → Z × Bytes × Bool

/-- `MAX_UNCOMPRESSED_DATA_BUF_SIZE` (/repo/include/pion/spdy/decompressor.hpp:37). -/
def maxHeader : Nat := 16384

/-- The decompressor: `none` in its buffer is a byte never written. -/
structure Dec (Z : Type) where
  request : Z
  response : Z
  buf : List (Option UInt8) := List.replicate maxHeader none

/-- `decompress` (/repo/src/spdy_decompressor.cpp:89-174), with the input as a list; the result tells whether a pointer
    is returned. Which of the two streams is used depends on the stream's number and the type of the frame. -/
def decompress {Z : Type} (z : Zlib Z) (dec : Dec Z) (input : Bytes) (stream type : Nat) : Dec Z × Bool :=
  let useRequest := stream % 2 ≠ 0 ∧ type = 1
  let (s, out, ok) := z (if useRequest then dec.request else dec.response) input
  let out := out.take maxHeader
  let buf := out.map some ++ dec.buf.drop out.length
  if useRequest then ({ dec with request := s, buf := buf }, ok) else ({ dec with response := s, buf := buf }, ok)

/-- A byte of the decompressor's buffer. -/
def hbyte (buf : List (Option UInt8)) (i : Nat) : Except Bad UInt8 :=
  match buf[i]? with
  | some (some b) => .ok b
  | some none => .error .uninitialised
  | none => .error .outsideHeader

def hu16 (buf : List (Option UInt8)) (i : Nat) : Except Bad Nat := do
  let a ← hbyte buf i
  let b ← hbyte buf (i + 1)
  return (toUint16 a.toBitVec b.toBitVec).toNat

/-- The loops that copy a name or a value (/repo/src/spdy_parser.cpp:437-442, 451-456). -/
def hbytes (buf : List (Option UInt8)) (i : Nat) : Nat → Except Bad Bytes
  | 0 => .ok []
  | n + 1 => do
    let b ← hbyte buf i
    let r ← hbytes buf (i + 1) n
    return b :: r

/-- The loop over the pairs (/repo/src/spdy_parser.cpp:428-460). -/
def pairs (buf : List (Option UInt8)) (i : Nat) (hs : List (Bytes × Bytes)) : Nat → Except Bad (List (Bytes × Bytes))
  | 0 => .ok hs
  | n + 1 => do
    let ln ← hu16 buf i
    let name ← hbytes buf (i + 2) ln
    let lv ← hu16 buf (i + 2 + ln)
    let value ← hbytes buf (i + 2 + ln + 2) lv
    pairs buf (i + 2 + ln + 2 + lv) (insertHeader hs name value) n

/-- State while a frame is parsed. -/
structure S (Z : Type) where
  read : Nat
  current : Nat
  length : Nat
  info : Info
  dec : Dec Z
  error : Option Err := none

/-- `populate_frame` (/repo/src/spdy_parser.cpp:264-346): the frame and the stream's number, or `none` if it returns
    false. -/
def populate {Z : Type} (mem : Bytes) (s : S Z) : Except Bad (S Z × Option (Frame × Nat)) := do
  let two ← u16At mem s.read
  let control := two >>> 15 ≠ 0
  if control then
    let version := two &&& 0x7FFF
    let s := { s with read := s.read + 2, length := sub32 s.length 2, info := { s.info with dataOffset := (s.info.dataOffset + 2) % 2 ^ 32 } }
    let type ← u16At mem s.read
    if 11 ≤ type then return ({ s with error := some .invalidFrame }, none)
    let s := { s with read := s.read + 2, length := sub32 s.length 2, info := { s.info with dataOffset := (s.info.dataOffset + 2) % 2 ^ 32 } }
    let flags ← byteAt mem s.read
    let four ← u32At mem s.read
    let length := four &&& 0xFFFFFF
    let s := { s with read := s.read + 4, length := sub32 s.length 4, info := { s.info with dataOffset := (s.info.dataOffset + 4) % 2 ^ 32, dataSize := length } }
    let four ← u32At mem s.read
    return (s, some (⟨true, version, type, flags, length⟩, four &&& 0x7FFFFFFF))
  else
    let four ← u32At mem s.read
    let stream := four &&& 0x7FFFFFFF
    let s := { s with read := s.read + 4, length := sub32 s.length 4, info := { s.info with streamId := stream, dataOffset := (s.info.dataOffset + 4) % 2 ^ 32 } }
    let flags ← byteAt mem s.read
    let four ← u32At mem s.read
    let length := four &&& 0xFFFFFF
    let s := { s with read := s.read + 4, length := sub32 s.length 4, info := { s.info with dataOffset := (s.info.dataOffset + 4) % 2 ^ 32, dataSize := length } }
    return (s, some (⟨false, 0, 0, flags, length⟩, stream))

/-- The part of `parse_header_payload` after the decompression (/repo/src/spdy_parser.cpp:410-461). -/
def readHeaders {Z : Type} (s : S Z) : Dec Z × Bool → Except Bad (S Z)
  | (dec, false) => .ok { s with dec := dec, error := some .decompression }
  | (dec, true) => do
    let count ← hu16 dec.buf 0
    let hs ← pairs dec.buf 2 s.info.headers count
    return { s with dec := dec, info := { s.info with headers := hs } }

/-- `parse_header_payload` (/repo/src/spdy_parser.cpp:348-461), for SYN_STREAM (1), SYN_REPLY (2) and HEADERS (8). zlib
    is given a pointer and a length: it is an error if that reaches beyond the packet. -/
def headerPayload {Z : Type} (z : Zlib Z) (mem : Bytes) (f : Frame) (s : S Z) : Except Bad (S Z) := do
  let four ← u32At mem s.read
  let stream := four &&& 0x7FFFFFFF
  let skip := if f.type = 1 then 10 else 6
  let n := sub32 f.length skip
  if mem.length < s.read + skip + n then .error .outside
  else
    readHeaders { s with read := s.read + skip, info := { s.info with streamId := stream } }
      (decompress z s.dec ((mem.drop (s.read + skip)).take n) stream f.type)

/-- `parse_spdy_rst_stream` (/repo/src/spdy_parser.cpp:472-497, without the names of the codes for the log, 24-42). -/
def rstStream {Z : Type} (mem : Bytes) (f : Frame) (s : S Z) : Except Bad (S Z) := do
  if f.flags ≠ 0 ∨ f.length ≠ 8 then return s
  let _ ← u32At mem (s.read + 4)
  return { s with read := s.read + 4 }

/-- `parse_spdy_ping_frame` (/repo/src/spdy_parser.cpp:502-521). -/
def ping {Z : Type} (mem : Bytes) (f : Frame) (s : S Z) : Except Bad (S Z) := do
  if f.length ≠ 4 then return s
  let _ ← u32At mem s.read
  return { s with read := s.read + 4 }

/-- `parse_spdy_goaway_frame` (/repo/src/spdy_parser.cpp:529-559). -/
def goaway {Z : Type} (mem : Bytes) (f : Frame) (s : S Z) : Except Bad (S Z) := do
  if f.length ≠ 4 then return s
  let status ← u32At mem (s.read + 4)
  let s := { s with read := s.read + 4 }
  if status = 1 then return { s with error := some .protocol }
  else if status = 11 then return { s with error := some .internal }
  else return s

/-- The switch (/repo/src/spdy_parser.cpp:207-246) and the assignments of `http_type` (200-206). -/
def payload {Z : Type} (z : Zlib Z) (mem : Bytes) (f : Frame) (s : S Z) : Except Bad (S Z) :=
  let typed (s : S Z) (t : Nat) : S Z := { s with info := { s.info with httpType := t } }
  match f.type with
  | 0 => .ok (typed s 3)
  | 1 => headerPayload z mem f (typed s 1)
  | 2 => headerPayload z mem f (typed s 2)
  | 8 => headerPayload z mem f s
  | 3 => (rstStream mem f s).map (typed · 4)
  | 4 => .ok (typed s 4)
  | 6 => (ping mem f s).map (typed · 4)
  | 7 => (goaway mem f s).map (typed · 4)
  | 9 => .ok (typed s 4)
  | 10 => .ok (typed s 4)
  | _ => .ok s

/-- What a call of `parse` leaves: the result (`none` is indeterminate), the error, the information, the value of
    `length_packet`, the pointers returned by `get_spdy_read_pointer` and `get_spdy_data_content`. -/
structure Out (Z : Type) where
  result : Option Bool
  error : Option Err
  info : Info
  length : Nat
  read : Nat
  data : Option Nat
  dec : Dec Z

/-- Lines 177-189 of `parse_spdy_frame` (/repo/src/spdy_parser.cpp:142-256): a frame that ends before the packet does is followed by another, and the last
    data frame of a stream is marked (`parse_spdy_data`, /repo/src/spdy_parser.cpp:461-470). -/
def enter {Z : Type} (f : Frame) (s : S Z) : S Z :=
  { s with
    current := if f.length < s.length then s.read + f.length else s.current
    length := if f.length < s.length then sub32 s.length f.length else s.length
    info := { s.info with lastChunk := s.info.lastChunk || (!f.control && decide (f.flags &&& 1 ≠ 0)) } }

/-- The return statements of `parse_spdy_frame` (/repo/src/spdy_parser.cpp:170-173, 193-198, 248-255); `more`: another frame follows. -/
def leave {Z : Type} (data : Option Nat) (more : Bool) (s : S Z) : Out Z :=
  if s.error.isSome then
    { result := some false, error := s.error, info := s.info, length := s.length, read := s.read, data := data, dec := s.dec }
  else
    { result := if more then none else some true, error := none, info := s.info, length := s.length, read := s.current, data := some s.read, dec := s.dec }

/-- `parse` (/repo/src/spdy_parser.cpp:57-69) with `parse_spdy_frame`
    (/repo/src/spdy_parser.cpp:142-256); `data` is the pointer to the last data
    before the call. -/
def parse {Z : Type} (z : Zlib Z) (mem : Bytes) (length : Nat) (info : Info) (dec : Dec Z) (data : Option Nat) :
    Except Bad (Out Z) := do
  let s : S Z := { read := 0, current := 0, length := length, info := info, dec := dec }
  let first ← byteAt mem 0
  if first ≠ 0x80 ∧ first ≠ 0 then return leave data false { s with error := some .invalidFrame }
  let (s, fr) ← populate mem s
  match fr with
  | none => return leave data false s
  | some (f, stream) =>
    if stream = 0 then throw .assertion
    let more := decide (f.length < s.length)
    let s := enter f s
    if 3 < f.version then return leave data more { s with error := some .invalidVersion }
    let s ← payload z mem f s
    return leave data more s

/-- `get_spdy_frame_type` (/repo/src/spdy_parser.cpp:105-129): 1 is a data frame, 2 a control frame, 3 neither. -/
def frameType (mem : Bytes) : Except Bad Nat := do
  let b ← byteAt mem 0
  return if b = 0x80 then 2 else if b = 0 then 1 else 3

/-- `is_spdy_control_frame` (/repo/src/spdy_parser.cpp:71-103). -/
def isControl (mem : Bytes) : Except Bad Bool := do
  let two ← u16At mem 0
  if two >>> 15 = 0 then return false
  let version := two &&& 0x7FFF
  if version < 1 ∨ 3 < version then return false
  let type ← u16At mem 2
  return decide (type < 11)

/-- `get_control_frame_stream_id` (/repo/src/spdy_parser.cpp:131-138). -/
def controlStreamId (mem : Bytes) : Except Bad Nat := do
  let four ← u32At mem 8
  return four &&& 0x7FFFFFFF

end Verif.Spdy
