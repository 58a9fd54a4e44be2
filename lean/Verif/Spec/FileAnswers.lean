import Verif.Spec.HttpWire
/-
What the client of the file service expects to receive.
-/
namespace Verif.Spec.FileAnswers
open Verif.Http

/-- The values of the headers with this name, in whatever case it is written. -/
def values (hs : Dict) (name : Bytes) : List Bytes := (hs.filter fun e => iequals e.1 name).map (·.2)

/-- A client's message is this file: 200, exactly the content, one type and one time of modification. -/
structure Downloaded (m : Msg) (file ty time : Bytes) : Prop where
  code : m.statusCode = 200
  text : m.statusMessage = b! "OK"
  content : m.content = file.map some
  length : m.contentLength = file.length
  type : values m.headers (b! "Content-Type") = [ty]
  date : values m.headers (b! "Last-Modified") = [time]

/-- A client's message describes a file without its content: this status, one type and one time of modification. -/
structure Described (m : Msg) (code : Nat) (text ty time : Bytes) : Prop where
  code : m.statusCode = code
  text : m.statusMessage = text
  content : m.content = []
  type : values m.headers (b! "Content-Type") = [ty]
  date : values m.headers (b! "Last-Modified") = [time]

/-- The endings a web server knows, and their types. -/
def usualTypes : List (Bytes × Bytes) :=
  [(b! "js", b! "text/javascript"), (b! "txt", b! "text/plain"), (b! "xml", b! "text/xml"), (b! "css", b! "text/css"),
   (b! "htm", b! "text/html"), (b! "html", b! "text/html"), (b! "xhtml", b! "text/html"), (b! "gif", b! "image/gif"),
   (b! "png", b! "image/png"), (b! "jpg", b! "image/jpeg"), (b! "jpeg", b! "image/jpeg"), (b! "svg", b! "image/svg+xml"),
   (b! "eot", b! "application/vnd.ms-fontobject"), (b! "otf", b! "application/x-font-opentype"),
   (b! "ttf", b! "application/x-font-ttf"), (b! "woff", b! "application/font-woff")]

/-- The name has this ending, in whatever case: it is what follows the last dot. -/
def EndsWith (name ending : Bytes) : Prop :=
  ∃ stem e, name = stem ++ c! "." :: e ∧ c! "." ∉ e ∧ iequals e ending = true

end Verif.Spec.FileAnswers
