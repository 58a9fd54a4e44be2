import Verif.Model.HttpParser
/-
What a caller of `http::parser` can observe.
-/
namespace Verif.Http

/-- Everything a caller can see after a sequence of `parse` calls: the tribool, the error code, the complete
    message, the raw headers, the bytes the payload handler received, the bytes left unread, and, unless parsing
    failed, the two byte counters `get_total_bytes_read()` and `get_content_bytes_read()`. -/
structure Outcome where
  result : Tri
  error : Option Err
  message : Msg
  rawHeaders : Bytes
  payload : Bytes
  unread : Bytes
  fault : Option Fault
  counters : Option (Nat × Nat)
  deriving Repr, DecidableEq

/-- Observation of a parser state. -/
def observe (rc : Tri) (s : S) (unread : Bytes) : Outcome :=
  { result := rc, error := s.ec, message := s.msg, rawHeaders := s.raw, payload := s.payload, unread := unread,
    fault := s.fault, counters := if rc = .no then none else some (s.totalRead, s.contentRead) }

/-- Feed buffers to the parser until it reports something, and observe. `unread` is the rest of the current
    buffer followed by the buffers that were not used. -/
def outcome (cfg : Cfg) (s : S) (bufs : List Bytes) : Option Outcome :=
  (feed cfg s bufs).map fun (rc, s', rest, more) => observe rc s' (rest ++ more.flatten)

/-- Feed buffers; if the parser still wants more, the stream ends: `check_premature_eof`. The first component is
    `true` if the end is premature, i.e. an error for the reader (as in /repo/src/http_reader.cpp:96-135 and
    /repo/src/http_message.cpp:104-125). -/
def outcomeAtEof (cfg : Cfg) (s : S) (bufs : List Bytes) : Option (Bool × Outcome) :=
  (feed cfg s bufs).map fun (rc, s', rest, more) =>
    if rc = .more then ((checkPrematureEof cfg s').1, observe .yes (checkPrematureEof cfg s').2 [])
    else (rc = .no, observe rc s' (rest ++ more.flatten))

/-- Parse messages one after another from one stream, each with a new parser on a new message (as the HTTP
    server does for pipelined requests): at most `n` messages; the outcomes and the rest of the stream. -/
def parsePipeline (cfg : Cfg) (m : Msg) : Nat → Bytes → Option (List Outcome × Bytes)
  | 0, stream => some ([], stream)
  | n + 1, stream =>
    match parse cfg (fresh cfg m) stream with
    | some (.yes, s, rest) => (parsePipeline cfg m n rest).map fun (os, r) => (observe .yes s [] :: os, r)
    | _ => none

end Verif.Http
