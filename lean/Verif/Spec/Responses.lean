import Verif.Spec.Xml
import Verif.Spec.HttpWire
/-
What is expected of the responses the library makes up itself.
-/
namespace Verif.Spec.Responses
open Verif.Spec.Xml Verif.Http

/-- The markup characters `<`, `>`, `"` and `'` of a page, in their order. Two pages with the same tags and attributes have
    the same markup; text that contains a tag changes it. -/
def markup (page : Bytes) : Bytes := page.filter (forbidden.contains ·)

/-- The headers other than `Connection` and `Content-Length`, which every response gets when it is sent. -/
def ownHeaders (hs : Dict) : Dict := hs.filter fun e => !iequals e.1 (b! "Connection") && !iequals e.1 (b! "Content-Length")

/-- A client's message holds this response: status, reason, exactly these headers (besides `Connection` and
    `Content-Length`) and exactly this page. -/
structure Holds (m : Msg) (code : Nat) (text : Bytes) (headers : Dict) (page : Bytes) : Prop where
  code : m.statusCode = code
  text : m.statusMessage = text
  headers : (ownHeaders m.headers).Perm (ownHeaders headers)
  content : m.content = page.map some
  length : m.contentLength = page.length

end Verif.Spec.Responses
