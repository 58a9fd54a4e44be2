import Verif.Model.HttpParser
/-
The memory that a message takes while and after it is parsed: the bytes of its strings, one more for every entry of
a dictionary, and the content.
-/
namespace Verif.Http

/-- The bytes of the names and values of a dictionary, and one for every entry. -/
def space (d : Dict) : Nat := (d.map fun e => e.1.length + e.2.length + 1).sum

/-- What a message holds, except for its query and form parameters. The request method of a response is not counted:
    it is set by the caller. -/
def heldByMessage (m : Msg) : Nat :=
  m.method.length + m.resource.length + m.originalResource.length + m.queryString.length + m.statusMessage.length +
    space m.headers + space m.cookies + m.content.length + m.chunkCache.length

/-- What the parser holds itself, except for the raw headers. The bytes given to a payload handler are not counted:
    the parser does not keep them. -/
def heldByParser (s : S) : Nat :=
  s.method.length + s.resource.length + s.query.length + s.statusMessage.length + s.headerName.length +
    s.headerValue.length + s.chunkSizeStr.length

/-- A message without anything in it, as `request` and `response` objects are constructed or cleared. -/
structure Unused (m : Msg) : Prop where
  method : m.method = b! "GET" ∨ m.method = []
  resource : m.resource = []
  original : m.originalResource = []
  queryString : m.queryString = []
  statusMessage : m.statusMessage = b! "OK"
  headers : m.headers = []
  cookies : m.cookies = []
  queries : m.queries = []
  content : m.content = []
  chunkCache : m.chunkCache = []

end Verif.Http
