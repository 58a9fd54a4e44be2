import Verif.Model.Dict
import Verif.Spec.Base64
/-
Model of `parser::parse_multipart_form_data` (/repo/src/http_parser.cpp:1064-1237).
Positions are indices into the body. The base64 text of `binary_2base64` (/repo/src/http_parser.cpp:988-1017,
built from Boost archive iterators) is RFC 4648 base64 here; `Model/DataUrl` models the iterators, and
`Props/DataUrl` proves that they produce this text (`encoded_as_form`).
-/
namespace Verif.Multipart

/-- `MultiPartParseState` (/repo/src/http_parser.cpp:1079-1084). -/
inductive PState where
  | start | headerCr | headerLf | headerName | headerSpace | headerValue | headerLastLf | fieldData
  deriving Repr, DecidableEq

/-- Outcome of the parser. `negativeLength`: `field_end_ptr - ptr` is negative, so that
    `field_value.assign(ptr, size_t(-k))` throws `std::length_error` or, for a binary part, the base64
    conversion runs from `ptr` to an address before it. `outOfBounds`: a byte outside the body is read.
    `diverged`: out of fuel. -/
inductive Res where
  | ret (ok : Bool) (dict : Dict)
  | negativeLength
  | outOfBounds
  | diverged
  deriving Repr, DecidableEq

/-- Local variables (/repo/src/http_parser.cpp:1079-1095). -/
structure St where
  st : PState := .start
  headerName : Bytes := []
  headerValue : Bytes := []
  fieldName : Bytes := []
  contentType : Bytes := []
  found : Bool := false
  mime64 : Bool := false
  dict : Dict
  deriving Repr, DecidableEq

/-- `std::search(ptr, end_ptr, boundary)` (index of the first occurrence at or after `i`, or the end). -/
def search (body boundary : Bytes) (i : Nat) : Nat :=
  match findSub boundary (body.drop i) with
  | some k => i + k
  | none => body.length

/-- `binary_2base64` (/repo/src/http_parser.cpp:988-1017). -/
def binary2base64 (data streamType : Bytes) : Bytes :=
  b! "data:" ++ streamType ++ b! "; base64, " ++ Spec.Base64.encode data

/-- The value of `name="..."` in a Content-Disposition header, appended to `field_name`
    (/repo/src/http_parser.cpp:1171-1177). -/
def dispositionName (value : Bytes) : Bytes :=
  match findSub (b! "name=\"") value with
  | some p => (value.drop (p + 6)).takeWhile (· ≠ c! "\"")
  | none => []

/-- End of a header line (/repo/src/http_parser.cpp:1163-1182), before the state change. -/
def endHeader (s : St) : St :=
  let s :=
    if iequals s.headerName (b! "Content-Type") then
      { s with contentType := s.headerValue, mime64 := !iequals (s.headerValue.take 5) (b! "text/") }
    else if iequals s.headerName (b! "Content-Disposition") then
      { s with fieldName := s.fieldName ++ dispositionName s.headerValue }
    else s
  { s with headerName := [], headerValue := [] }

/-- Result of one loop iteration: new state and position (after the `++ptr` at the end), or a return. -/
inductive Step where
  | next (s : St) (ptr : Nat)
  | ret (ok : Bool)
  | negativeLength
  | outOfBounds
  deriving Repr, DecidableEq

/-- One iteration of the loop (/repo/src/http_parser.cpp:1099-1233); `c` is `*ptr`. -/
def step (body boundary : Bytes) (s : St) (ptr : Nat) (c : UInt8) : Step :=
  match s.st with
  | .start =>
    .next { s with st := .headerCr, headerName := [], headerValue := [], fieldName := [], contentType := [],
                   mime64 := false } (ptr + (boundary.length - 1) + 1)
  | .headerCr =>
    if c = 0x0d then .next { s with st := .headerLf } (ptr + 1)
    else if c = 0x0a then .next { s with st := .headerName } (ptr + 1)
    else if c = c! "-" && body[ptr + 1]? == some (c! "-") then .ret true
    else .ret false
  | .headerLf => if c = 0x0a then .next { s with st := .headerName } (ptr + 1) else .ret false
  | .headerName =>
    if c = 0x0d || c = 0x0a then
      if s.headerName.isEmpty then
        .next { s with st := if c = 0x0d then .headerLastLf else .fieldData } (ptr + 1)
      else .next { s with st := if c = 0x0d then .headerLf else .headerName } (ptr + 1)
    else if c = c! ":" then .next { s with st := .headerSpace } (ptr + 1)
    else .next { s with headerName := s.headerName ++ [c] } (ptr + 1)
  | .headerSpace =>
    if c = 0x0d then .next { s with st := .headerLf } (ptr + 1)
    else if c = 0x0a then .next { s with st := .headerName } (ptr + 1)
    else if c ≠ c! " " then .next { s with headerValue := s.headerValue ++ [c], st := .headerValue } (ptr + 1)
    else .next s (ptr + 1)
  | .headerValue =>
    if c = 0x0d || c = 0x0a then
      .next { endHeader s with st := if c = 0x0d then .headerLf else .headerName } (ptr + 1)
    else .next { s with headerValue := s.headerValue ++ [c] } (ptr + 1)
  | .headerLastLf =>
    if c = 0x0a then
      if s.fieldName.isEmpty then .next { s with st := .start } (search body boundary ptr)
      else .next { s with st := .fieldData } (ptr + 1)
    else .ret false
  | .fieldData =>
    let next := search body boundary ptr
    -- `temp_ptr = next_ptr - 2`
    if next < 2 then .outOfBounds
    else
      let endp := if body[next - 2]? == some 0x0d && body[next - 1]? == some 0x0a then next - 2 else next
      if endp < ptr then .negativeLength
      else
        let data := (body.drop ptr).take (endp - ptr)
        let value := if s.mime64 then binary2base64 data s.contentType else data
        .next { s with dict := s.dict.insert s.fieldName value, found := true, st := .start } next

/-- The loop (/repo/src/http_parser.cpp:1099-1236). -/
def loop (body boundary : Bytes) : Nat → St → Nat → Res
  | 0, _, _ => .diverged
  | fuel + 1, s, ptr =>
    match body[ptr]? with
    | none => .ret s.found s.dict
    | some c =>
      match step body boundary s ptr c with
      | .next s' ptr' => loop body boundary fuel s' ptr'
      | .ret ok => .ret ok s.dict
      | .negativeLength => .negativeLength
      | .outOfBounds => .outOfBounds

/-- `parser::parse_multipart_form_data` (/repo/src/http_parser.cpp:1064-1237). -/
def parseMultipart (dict : Dict) (contentType body : Bytes) : Res :=
  if body.isEmpty then .ret true dict
  else
    match findSub (b! "boundary=") contentType with
    | none => .ret false dict
    | some pos =>
      let boundary := b! "--" ++ contentType.drop (pos + 9)
      loop body boundary (2 * body.length + 2) { dict := dict } (search body boundary 0)

end Verif.Multipart
