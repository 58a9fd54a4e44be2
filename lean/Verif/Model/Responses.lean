import Verif.Model.Writer
import Verif.Model.XmlEncode
import Verif.Model.Auth
/-
The responses the library and its services make up themselves: the error pages of `http::server`, the answers of the two
authenticators, and the services Hello, AllowNothing, Cookie and Echo.

Each handler creates a writer for the request (`response_writer::create(tcp_conn, request, finish)`), changes the
response, writes data and calls `send` once; so a handler is modelled by what it changes and writes (`Reply`), and
`Reply.writer` is the writer after `send`. Not modelled here: the connection being closed in between.
-/
namespace Verif.Responses
open Verif.Writer

/-- What a handler changes in the response and what it writes. -/
structure Reply where
  code : Nat := 200
  text : Bytes := b! "OK"
  /-- headers added (`add_header`) or set (`change_header`, only ever called for a header that is not there) -/
  headers : Dict := []
  /-- `write_no_copy` is `.buffer`, `<<` is `.text` -/
  writes : List Op := []

/-- `response_writer::create(tcp_conn, *http_request_ptr, …)`, the changes, the writes and `send`. A handler that does
    not set a status leaves the one of the response (`responseTo`: 200 "OK", but 0 "" for an HTTP/0.x request); all of
    the handlers below which rely on that are given by `Reply.plain`. -/
def Reply.writer (t : TableOrder) (req : Msg) (lc : Lifecycle) (r : Reply) : W :=
  run t { newResponseWriterFor req lc with
    msg := { responseTo req with statusCode := r.code, statusMessage := r.text, headers := r.headers } } (r.writes ++ [.send])

/-- A reply whose handler does not set the status. -/
def Reply.plain (req : Msg) (headers : Dict) (writes : List Op) : Reply :=
  { code := (responseTo req).statusCode, text := (responseTo req).statusMessage, headers := headers, writes := writes }

/-- `algorithm::xml_encode` (/repo/src/algorithm.cpp); it never leaves its input (`xml_encode_total`). -/
def escape (s : Bytes) : Bytes := (XmlEncode.xmlEncode? s).getD []

/-! ### http::server -/

/-- `handle_bad_request` (/repo/src/http_server.cpp:187-203). -/
def badRequest : Reply where
  code := 400
  text := b! "Bad Request"
  writes := [.buffer (b! "<html><head>\n<title>400 Bad Request</title>\n</head><body>\n<h1>Bad Request</h1>\n<p>Your browser sent a request that this server could not understand.</p>\n</body></html>\n")]

/-- `handle_not_found_request` (/repo/src/http_server.cpp:205-225). -/
def notFound (req : Msg) : Reply where
  code := 404
  text := b! "Not Found"
  writes := [.buffer (b! "<html><head>\n<title>404 Not Found</title>\n</head><body>\n<h1>Not Found</h1>\n<p>The requested URL "),
    .text (escape req.resource), .buffer (b! " was not found on this server.</p>\n</body></html>\n")]

/-- `handle_server_error` (/repo/src/http_server.cpp:227-248). -/
def serverError (error : Bytes) : Reply where
  code := 500
  text := b! "Server Error"
  writes := [.buffer (b! "<html><head>\n<title>500 Server Error</title>\n</head><body>\n<h1>Internal Server Error</h1>\n<p>The server encountered an internal error: <strong>"),
    .text (escape error), .buffer (b! "</strong></p>\n</body></html>\n")]

/-- `handle_forbidden_request` (/repo/src/http_server.cpp:250-275). -/
def forbidden (req : Msg) (error : Bytes) : Reply where
  code := 403
  text := b! "Forbidden"
  writes := [.buffer (b! "<html><head>\n<title>403 Forbidden</title>\n</head><body>\n<h1>Forbidden</h1>\n<p>User not authorized to access the requested URL "),
    .text (escape req.resource), .buffer (b! "</p><p><strong>\n"), .text error, .buffer (b! "</strong></p>\n</body></html>\n")]

/-- `handle_method_not_allowed` (/repo/src/http_server.cpp:277-300). -/
def methodNotAllowed (req : Msg) (allowed : Bytes) : Reply where
  code := 405
  text := b! "Method Not Allowed"
  headers := if allowed.isEmpty then [] else [(b! "Allow", allowed)]
  writes := [.buffer (b! "<html><head>\n<title>405 Method Not Allowed</title>\n</head><body>\n<h1>Not Allowed</h1>\n<p>The requested method "),
    .text (escape req.method), .buffer (b! " is not allowed on this server.</p>\n</body></html>\n")]

/-! ### Authenticators -/

/-- The page of a 401 response (/repo/src/http_basic_auth.cpp:137-146, /repo/src/http_cookie_auth.cpp:181-190). -/
def UNAUTHORIZED_PAGE : Bytes := b! " <!DOCTYPE HTML PUBLIC \"-//W3C//DTD HTML 4.01 Transitional//EN\"\"http://www.w3.org/TR/1999/REC-html401-19991224/loose.dtd\"><HTML><HEAD><TITLE>Error</TITLE><META HTTP-EQUIV=\"Content-Type\" CONTENT=\"text/html; charset=ISO-8859-1\"></HEAD><BODY><H1>401 Unauthorized.</H1></BODY></HTML> "

/-- The page of a 302 response (/repo/src/http_cookie_auth.cpp:207-216). -/
def FOUND_PAGE : Bytes := b! " <!DOCTYPE HTML PUBLIC \"-//W3C//DTD HTML 4.01 Transitional//EN\"\"http://www.w3.org/TR/1999/REC-html401-19991224/loose.dtd\"><HTML><HEAD><TITLE>Redirect</TITLE><META HTTP-EQUIV=\"Content-Type\" CONTENT=\"text/html; charset=ISO-8859-1\"></HEAD><BODY><H1>302 Found.</H1></BODY></HTML> "

/-- `basic_auth::handle_unauthorized` (/repo/src/http_basic_auth.cpp:133-154). -/
def basicUnauthorized (realm : Bytes) : Reply where
  code := 401
  text := b! "Unauthorized"
  headers := [(b! "WWW-Authenticate", b! "Basic realm=\"" ++ realm ++ b! "\"")]
  writes := [.buffer UNAUTHORIZED_PAGE]

/-- The Set-Cookie header of the authenticator's answers (/repo/src/http_cookie_auth.cpp:225-231, 251-257;
    `response::set_cookie`, `delete_cookie`, /repo/include/pion/http/response.hpp:147-152, 190-193). -/
def sessionHeader (newCookie : Bytes) (delete : Bool) : Dict :=
  if delete then [(b! "Set-Cookie", Msg.setCookieHeader (b! "pion_session_id") [] [] (some 0))]
  else if newCookie.isEmpty then []
  else [(b! "Set-Cookie", Msg.setCookieHeader (b! "pion_session_id") newCookie [] none)]

/-- `cookie_auth::handle_redirection` (/repo/src/http_cookie_auth.cpp:199-235). -/
def redirection (url newCookie : Bytes) (delete : Bool) : Reply where
  code := 302
  text := b! "Found"
  headers := (b! "Location", url) :: sessionHeader newCookie delete
  writes := [.buffer FOUND_PAGE]

/-- `cookie_auth::handle_ok` (/repo/src/http_cookie_auth.cpp:237-259). -/
def cookieOk (newCookie : Bytes) (delete : Bool) : Reply where
  code := 204
  text := b! "No Content"
  headers := sessionHeader newCookie delete

/-- `cookie_auth::handle_unauthorized` without a redirection option (/repo/src/http_cookie_auth.cpp:180-196). -/
def cookieUnauthorized : Reply where
  code := 401
  text := b! "Unauthorized"
  writes := [.buffer UNAUTHORIZED_PAGE]

/-- The answer of `cookie_auth` for what it decided; `none`: the request is passed on. The target of the redirection after
    login and logout is the query parameter `url` (/repo/src/http_cookie_auth.cpp:114, 158-165). -/
def cookieReply (e : Auth.Env) (o : Auth.Opts) (req : Msg) : Auth.Verdict → Option Reply
  | .open_ => none
  | .user _ => none
  | .unauthorized => some cookieUnauthorized
  | .redirectLogin => some (redirection o.redirect [] false)
  | .loggedIn c =>
    let url := req.queries.get e.ord (b! "url")
    some (if url.isEmpty then cookieOk c false else redirection url c false)
  | .loggedOut =>
    let url := req.queries.get e.ord (b! "url")
    some (if url.isEmpty then cookieOk [] true else redirection url [] true)

/-! ### Services -/

/-- `HelloService` (/repo/services/HelloService.cpp:22-31). -/
def hello (req : Msg) : Reply := .plain req []
  [.buffer (b! "<html><body>Hello World!</body></html>"), .buffer (b! "\r\n"), .buffer (b! "\r\n")]

/-- `AllowNothingService` (/repo/services/AllowNothingService.cpp:20-38). -/
def allowNothing : Reply where
  code := 405
  text := b! "Method Not Allowed"
  headers := [(b! "Allow", b! "GET")]
  writes := [.buffer (b! "<html><body>No, you can't.</body></html>"), .buffer (b! "\r\n"), .buffer (b! "\r\n")]

/-- The action `CookieService` performs (/repo/services/CookieService.cpp:35-61): headers added and text written. -/
def cookieAction (ord : Dict.Order) (req : Msg) : Dict × List Op :=
  if req.queries.has (b! "action") then
    let name := req.queries.get ord (b! "cookie_name")
    let value := req.queries.get ord (b! "cookie_value")
    if req.queries.get ord (b! "action") = b! "Add Cookie" then
      if name.isEmpty || value.isEmpty then ([], [.text (b! "\n<p>[Error: You must specify a name and value to add a cookie]</p>\n\n")])
      else ([(b! "Set-Cookie", Msg.setCookieHeader name value (b! "/") none)],
        [.text (b! "\n<p>[Added cookie "), .text name, .text (b! "="), .text value, .text (b! "]</p>\n\n")])
    else if req.queries.get ord (b! "action") = b! "delete" then
      if name.isEmpty then ([], [.text (b! "\n<p>[Error: You must specify a name to delete a cookie]</p>\n\n")])
      else ([(b! "Set-Cookie", Msg.setCookieHeader name [] (b! "/") (some 0))],
        [.text (b! "\n<p>[Deleted cookie "), .text name, .text (b! "]</p>\n\n")])
    else ([], [.text (b! "\n<p>[Error: Unrecognized action]</p>\n\n")])
  else ([], [])

/-- The list of cookie headers (/repo/services/CookieService.cpp:63-77). -/
def cookieHeaders (ord : Dict.Order) (req : Msg) : List Op :=
  if req.headers.has (b! "Cookie") then
    .text (b! "\n<h2>Cookie Headers</h2>\n<ul>\n") ::
      ((ord (req.headers.values (b! "Cookie"))).map fun v => [Op.text (b! "<li>Cookie: "), .text v, .text (b! "\n")]).flatten ++
      [.text (b! "</ul>\n\n")]
  else [.text (b! "\n<h2>No Cookie Headers</h2>\n\n")]

/-- The list of cookies (/repo/services/CookieService.cpp:79-93). -/
def cookieList (t : TableOrder) (req : Msg) : List Op :=
  if req.cookies.isEmpty then [.text (b! "\n<h2>No Cookie Variables</h2>\n\n")]
  else
    .text (b! "\n<h2>Cookie Variables</h2>\n<ul>\n") ::
      ((t.iter req.cookies).map fun c => [Op.text (b! "<li>"), .text c.1, .text (b! ": "), .text c.2,
        .text (b! " <a href=\""), .text req.resource, .text (b! "?action=delete&cookie_name="), .text c.1,
        .text (b! "\">[Delete]</a>\n")]).flatten ++ [.text (b! "</ul>\n\n")]

/-- `CookieService` (/repo/services/CookieService.cpp:23-107). -/
def cookieService (ord : Dict.Order) (t : TableOrder) (req : Msg) : Reply := .plain req
  ((b! "Content-Type", b! "text/html") :: (cookieAction ord req).1)
  (.buffer (b! "<html>\n<head>\n<title>Cookie Service</title>\n</head>\n<body>\n\n<h1>Cookie Service</h1>\n") ::
    (cookieAction ord req).2 ++ cookieHeaders ord req ++ cookieList t req ++
    [.text (b! "\n<h2>Add Cookie</h2>\n<p><form action=\""), .text req.resource,
     .text (b! "\" method=\"POST\">\nName: <input type=\"text\" name=\"cookie_name\"><br />\nValue: <input type=\"text\" name=\"cookie_value\"><br />\n<input type=\"submit\" name=\"action\" value=\"Add Cookie\"></p>\n</form>\n\n"),
     .buffer (b! "\n</body>\n</html>\n")])

/-- `writeDictionaryTerm` for all entries (/repo/services/EchoService.cpp:23-30). -/
def echoTerms (t : TableOrder) (d : Dict) : List Op :=
  ((t.iter d).map fun e => [Op.text e.1, .text (b! ": "), .text e.2, .text (b! "\r\n")]).flatten

/-- A heading (`write_no_copy` of the text and two line ends). -/
def echoHeading (h : Bytes) : List Op := [.buffer h, .buffer (b! "\r\n"), .buffer (b! "\r\n")]

/-- `EchoService` (/repo/services/EchoService.cpp:36-123). `none`: bytes outside the content buffer (or not initialised)
    are read. `user`: name of the authenticated user. -/
def echo (t : TableOrder) (req : Msg) (user : Option Bytes) : Option Reply :=
  (if req.contentLength = 0 then some [] else req.contentBytes.map fun c =>
    [Op.buffer c, .buffer (b! "\r\n"), .buffer (b! "\r\n")]).map fun content =>
  .plain req [(b! "Content-Type", b! "text/plain")]
   (echoHeading (b! "[Request Echo]") ++
    [.text (b! "Request method: "), .text req.method, .text (b! "\r\n"),
     .text (b! "Resource originally requested: "), .text req.originalResource, .text (b! "\r\n"),
     .text (b! "Resource delivered: "), .text req.resource, .text (b! "\r\n"),
     .text (b! "Query string: "), .text req.queryString, .text (b! "\r\n"),
     .text (b! "HTTP version: "), .text (toDec req.verMajor), .text (b! "."), .text (toDec req.verMinor), .text (b! "\r\n"),
     .text (b! "Content length: "), .text (toDec req.contentLength), .text (b! "\r\n"), .text (b! "\r\n")] ++
    echoHeading (b! "[Request Headers]") ++ echoTerms t req.headers ++ [.buffer (b! "\r\n")] ++
    echoHeading (b! "[Query Parameters]") ++ echoTerms t req.queries ++ [.buffer (b! "\r\n")] ++
    echoHeading (b! "[Cookie Parameters]") ++ echoTerms t req.cookies ++ [.buffer (b! "\r\n")] ++
    echoHeading (b! "[POST Content]") ++ content ++
    (match user with
      | none => []
      | some u => echoHeading (b! "[USER Info]") ++ [.text (b! "User authenticated, username: "), .text u, .buffer (b! "\r\n")]))

end Verif.Responses
