import Verif.Model.HttpParser
/-
Everything a program can do with an `http::parser` object, and everything it sees in return.
-/
namespace Verif.Http

/-- What a user of a parser can do with it. -/
inductive Op
  /-- `set_read_buffer` and `parse` -/
  | data (buf : Bytes)
  /-- `parse_missing_data(len)` -/
  | gap (len : Nat)
  /-- `check_premature_eof` -/
  | eof
  /-- `reset()` and a new message to parse into -/
  | reset (m : Msg)

/-- What is seen after one operation: the result, the bytes of the buffer left unread, and everything the object
    exposes: error code, message, raw headers, payload given to the handler, `gcount()`,
    `get_total_bytes_read()`, `get_content_bytes_read()`, whether the program has undefined behaviour. -/
structure Seen where
  result : Tri
  unread : Bytes
  error : Option Err
  message : Msg
  rawHeaders : Bytes
  payload : Bytes
  gcount : Nat
  totalRead : Nat
  contentRead : Nat
  fault : Option Fault
  deriving Repr, DecidableEq

/-- The observation made of a state. -/
def see (rc : Tri) (unread : Bytes) (s : S) : Seen :=
  { result := rc, unread := unread, error := s.ec, message := s.msg, rawHeaders := s.raw, payload := s.payload,
    gcount := s.lastRead, totalRead := s.totalRead, contentRead := s.contentRead, fault := s.fault }

/-- One operation: what is seen and the new state. -/
def stepOp (cfg : Cfg) (s : S) : Op → Option (Seen × S)
  | .data buf => (parse cfg s buf).map fun (rc, s', rest) => (see rc rest s', s')
  | .gap len => let (rc, s') := parseMissing cfg s len; some (see rc [] s', s')
  | .eof => let (b, s') := checkPrematureEof cfg s; some (see (if b then .yes else .no) [] s', s')
  | .reset m => let s' := Http.reset cfg s m; some (see .more [] s', s')

/-- A whole history: everything seen, and the final state. -/
def history (cfg : Cfg) : S → List Op → Option (List Seen × S)
  | s, [] => some ([], s)
  | s, op :: ops =>
    match stepOp cfg s op with
    | none => none
    | some (o, s') => (history cfg s' ops).map fun (os, t) => (o :: os, t)


/-- The states an object can be in: created on one of the messages `M`, used in any way, reset to one of the
    messages `M` any number of times. -/
inductive Reach (cfg : Cfg) (M : Msg → Prop) : S → Prop
  | fresh (m) : M m → Reach cfg M (fresh cfg m)
  | data {s buf rc s' rest} : Reach cfg M s → parse cfg s buf = some (rc, s', rest) → Reach cfg M s'
  | gap {s} (len) : Reach cfg M s → Reach cfg M (parseMissing cfg s len).2
  | eof {s} : Reach cfg M s → Reach cfg M (checkPrematureEof cfg s).2
  | reset {s} (m) : Reach cfg M s → M m → Reach cfg M (Http.reset cfg s m)

end Verif.Http
