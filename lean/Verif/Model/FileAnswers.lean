import Verif.Model.FileService
import Verif.Model.FileSender
import Verif.Model.Responses
import Verif.Model.ServiceConfig
/-
The responses of `FileService` (/repo/services/FileService.cpp:117-590, 716-757, 812-840): what the service decides
(`Model/FileService`) as a message on the connection.

Simplified: a request is handled in one step; the file is sent while the file system does not change and every write
succeeds (`Model/FileSender` has the others).
-/
namespace Verif.FileAnswers
open Verif.FileService Verif.FileSender Verif.Responses Verif.Writer

/-! ### The type of a file -/

/-- `createMIMETypes` (/repo/services/FileService.cpp:729-757). -/
def mimeTypes : List (Bytes × Bytes) :=
  [(b! "js", b! "text/javascript"), (b! "txt", b! "text/plain"), (b! "xml", b! "text/xml"), (b! "css", b! "text/css"),
   (b! "htm", b! "text/html"), (b! "html", b! "text/html"), (b! "xhtml", b! "text/html"), (b! "gif", b! "image/gif"),
   (b! "png", b! "image/png"), (b! "jpg", b! "image/jpeg"), (b! "jpeg", b! "image/jpeg"), (b! "svg", b! "image/svg+xml"),
   (b! "eof", b! "application/vnd.ms-fontobject"), (b! "otf", b! "application/x-font-opentype"),
   (b! "ttf", b! "application/x-font-ttf"), (b! "woff", b! "application/font-woff")]

/-- What follows the last `c`; everything if there is none. -/
def afterLast (c : UInt8) (s : Bytes) : Bytes := (s.reverse.takeWhile (· ≠ c)).reverse

/-- `findMIMEType` (/repo/services/FileService.cpp:716-727); `find_last_of` gives `npos` if there is no dot, and
    `npos + 1` is 0. -/
def findMimeType (name : Bytes) : Bytes :=
  match mimeTypes.find? (·.1 = (afterLast (c! ".") name).map Config.toLower) with
  | some e => e.2
  | none => b! "application/octet-stream"

/-- `path::filename` (used in /repo/services/FileService.cpp:345, 670) of a path that does not end with a slash: what
    follows the last slash. -/
def fileName (path : Bytes) : Bytes := afterLast (c! "/") path

/-- The two headers of a file (/repo/services/FileService.cpp:389-393, 831-835). -/
def typeAndTime (path lastModified : Bytes) : Dict :=
  [(b! "Content-Type", findMimeType (fileName path)), (b! "Last-Modified", lastModified)]

/-! ### Sending a file -/

/-- The `DiskFileSender` for a file (/repo/services/FileService.cpp:379-381, 814-819). `byte`: the values of bytes that have
    not been written. -/
def sender (c : Cfg) (fs : Fs) (byte : Option UInt8 → UInt8) (d : DiskFile) : Sender where
  size := d.size
  cached := d.content.map (·.map byte)
  disk := match fs (Spec.Path.resolve c.cwd d.path) with
    | some (.file f) => if f.readable then some f.content else none
    | _ => none
  maxChunk := c.maxChunk

/-- Its writer after the constructor (/repo/services/FileService.cpp:814-840). -/
def fileWriter (req : Msg) (lc : Lifecycle) (d : DiskFile) : W :=
  { newResponseWriterFor req lc with
    msg := { responseTo req with statusCode := 200, statusMessage := b! "OK", headers := typeAndTime d.path d.lastModified } }

/-- The calls on the writer. -/
def callsOf : List Ev → List Op
  | [] => []
  | .call op :: es => op :: callsOf es
  | _ :: es => callsOf es

/-- Sending the file, with `n` writes that succeed; `d.size + 1` are enough for every file. -/
def sendFile (t : TableOrder) (c : Cfg) (fs : Fs) (byte : Option UInt8 → UInt8) (req : Msg) (lc : Lifecycle)
    (d : DiskFile) (n : Nat) : W :=
  run t (fileWriter req lc d) (callsOf (deliver (List.replicate n .ok) (sender c fs byte d)).1)

/-! ### Pages -/

/-- A page with text of the request in it, as all pages of the service are written. -/
def pageWrites (start text finish : Bytes) : List Op := [.buffer start, .text text, .buffer finish]

/-- The two pages for 403 (/repo/services/FileService.cpp:160-179, 187-206). -/
def forbiddenPage (method text : Bytes) (outside : Bool) : Reply where
  code := 403
  text := b! "Forbidden"
  writes := if method = b! "HEAD" then [] else
    pageWrites (b! "<html><head>\n<title>403 Forbidden</title>\n</head><body>\n<h1>Forbidden</h1>\n<p>The requested URL ") text
      (if outside then b! " is not in the configured directory.</p>\n</body></html>\n" else b! " is a directory.</p>\n</body></html>\n")

/-- `sendNotFoundResponse` (/repo/services/FileService.cpp:567-590). -/
def notFoundPage (method text : Bytes) : Reply where
  code := 404
  text := b! "Not Found"
  writes := if method = b! "HEAD" then [] else
    pageWrites (b! "<html><head>\n<title>404 Not Found</title>\n</head><body>\n<h1>Not Found</h1>\n<p>The requested URL ") text
      (b! " was not found on this server.</p>\n</body></html>\n")

/-- The page if the directory is not there (/repo/services/FileService.cpp:453-471). -/
def noDirectoryPage (text : Bytes) : Reply where
  code := 404
  text := b! "Not Found"
  writes := pageWrites (b! "<html><head>\n<title>404 Not Found</title>\n</head><body>\n<h1>Not Found</h1>\n<p>The directory of the requested URL ")
    text (b! " was not found on this server.</p>\n</body></html>\n")

/-- 405 (/repo/services/FileService.cpp:418-440). -/
def notAllowedPage (text : Bytes) : Reply where
  code := 405
  text := b! "Method Not Allowed"
  headers := [(b! "Allow", b! "GET, HEAD")]
  writes := pageWrites (b! "<html><head>\n<title>405 Method Not Allowed</title>\n</head><body>\n<h1>Not Allowed</h1>\n<p>The requested method ")
    text (b! " is not allowed on this server.</p>\n</body></html>\n")

/-- 501 (/repo/services/FileService.cpp:546-565). -/
def notImplementedPage (text : Bytes) : Reply where
  code := 501
  text := b! "Not Implemented"
  writes := pageWrites (b! "<html><head>\n<title>501 Not Implemented</title>\n</head><body>\n<h1>Not Implemented</h1>\n<p>The requested method ")
    text (b! " is not implemented on this server.</p>\n</body></html>\n")

/-- 204 (/repo/services/FileService.cpp:448-451, 521-523). -/
def noContent : Reply where
  code := 204
  text := b! "No Content"

/-- What is written for a new file (/repo/services/FileService.cpp:472-487). -/
def createdWrites (text : Bytes) : List Op :=
  pageWrites (b! "<html><head>\n<title>201 Created</title>\n</head><body>\n<h1>Created</h1>\n<p>") text (b! "</p>\n</body></html>\n")

/-- 201 (/repo/services/FileService.cpp:472-487). -/
def createdPage (resource text : Bytes) : Reply where
  code := 201
  text := b! "Created"
  headers := [(b! "Location", resource)]
  writes := createdWrites text

/-- 500 after a file could not be written (/repo/services/FileService.cpp:472-513). The file is not there afterwards, so it was not
    before, and the response has got the header and the page for a new file already. -/
def putFailedPage (resource text : Bytes) : Reply where
  code := 500
  text := b! "Server Error"
  headers := [(b! "Location", resource)]
  writes := createdWrites text ++
    pageWrites (b! "<html><head>\n<title>500 Server Error</title>\n</head><body>\n<h1>Server Error</h1>\n<p>Error writing to ") text
      (b! ".</p>\n</body></html>\n")

/-- 500 after a file could not be removed (/repo/services/FileService.cpp:524-541); `diagnostic` is
    `boost::diagnostic_information` of the exception. -/
def deleteFailedPage (text diagnostic : Bytes) : Reply where
  code := 500
  text := b! "Server Error"
  writes := [.buffer (b! "<html><head>\n<title>500 Server Error</title>\n</head><body>\n<h1>Server Error</h1>\n<p>Could not delete "),
    .text text, .text (b! ".</p><p>"), .text diagnostic, .buffer (b! ".</p>\n</body></html>\n")]

/-! ### The service -/

/-- The path whose name gives the type for an answer without content: that of the entry if there is one and the cache is in
    use, or that of the request (/repo/services/FileService.cpp:255-262, 288-335, 343-348). -/
def servedPath (c : Cfg) (s : St) (r : Req) : Bytes :=
  let rel := relative c r.resource
  let asked := match target c rel with | .path p => p | _ => []
  if 0 < c.cache ∨ 0 < c.scan then
    match s.cache.find? rel with
    | some e => e.path
    | none => asked
  else asked

/-- The page or header for an outcome of `handle` in the state `s` (/repo/services/FileService.cpp:117-565). Which of two
    pages with the same status it is follows from the request. For an exception `http::server` answers
    (/repo/src/http_server.cpp:120-143), `error` being the text about it. -/
def reply (c : Cfg) (s : St) (r : Req) (diagnostic error : Bytes) : Out → Reply
  | .page status text =>
    let changes := r.method = b! "POST" ∨ r.method = b! "PUT"
    let isPath := match target c (relative c r.resource) with | .path _ => true | _ => false
    if status = 403 then forbiddenPage r.method text (!isPath)
    else if status = 404 then
      if changes ∧ isPath = true ∧ c.writable = true then noDirectoryPage text else notFoundPage r.method text
    else if status = 405 then notAllowedPage text
    else if status = 501 then notImplementedPage text
    else if status = 201 then createdPage r.resource text
    else if status = 204 then noContent
    else if changes then putFailedPage r.resource text
    else deleteFailedPage text diagnostic
  | .headers status lastModified =>
    { code := status, text := if status = 304 then b! "Not Modified" else b! "OK",
      headers := typeAndTime (servedPath c s r) lastModified }
  | .file _ => {}
  | .thrown => serverError error

/-- The request as `operator()` reads it (/repo/services/FileService.cpp:120, 213, 227, 416, 494). -/
def toReq (ord : Dict.Order) (m : Msg) : Req where
  method := m.method
  resource := m.resource
  ifModifiedSince := m.headers.get ord (b! "If-Modified-Since")
  body := m.contentBytes.getD []

/-- `operator()` on a connection: what is sent for a request, and the service afterwards. -/
def respond (t : TableOrder) (ord : Dict.Order) (c : Cfg) (byte : Option UInt8 → UInt8) (diagnostic error : Bytes) (s : St)
    (m : Msg) (lc : Lifecycle) (now : Int) : W × St :=
  let (o, s') := handle c s (toReq ord m) now
  match o with
  | .file d => (sendFile t c s.fs byte m lc d (d.size + 1), s')
  | o => ((reply c s (toReq ord m) diagnostic error o).writer t m lc, s')

end Verif.FileAnswers
