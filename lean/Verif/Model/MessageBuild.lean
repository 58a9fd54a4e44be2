import Verif.Model.MessageIo
/-
Model of the functions with which a program puts parameters, form fields, content and cookies into a request or response
before it is sent (/repo/include/pion/http/request.hpp, response.hpp, message.hpp).
-/
namespace Verif.Msg

/-- `request::add_query` (/repo/include/pion/http/request.hpp:108-110). -/
def addQuery (m : Msg) (name value : Bytes) : Msg := { m with queries := m.queries.insert name value }

/-- `request::use_query_params_for_query_string` (/repo/include/pion/http/request.hpp:123-125) with `set_query_string`
    (102-105); the parameters are visited in the order of iteration (http_types.cpp:117). Simplification: the cached first
    line is in Model/FirstLine. -/
def useQueriesForQueryString (t : TableOrder) (m : Msg) : Msg :=
  { m with queryString := Query.makeQueryString (t.iter m.queries) }

/-- `request::set_content` (/repo/include/pion/http/request.hpp:139-144) and `message::set_content` (message.hpp:347-351):
    `set_content_length`, `create_content_buffer` (message.hpp:305, 341-344, 541-551) and `memcpy` of all bytes. Simplification: a string has fewer than 2^64 - 1 bytes. -/
def setContent (m : Msg) (value : Bytes) : Msg :=
  { m with contentLength := value.length, content := value.map some }

/-- `request::set_content` from a buffer (/repo/include/pion/http/request.hpp:148-154): nothing happens if it is empty. -/
def setContentBuffer (m : Msg) (value : Bytes) : Msg := if value.isEmpty then m else m.setContent value

/-- `message::clear_content` (/repo/include/pion/http/message.hpp:354-358). -/
def clearContent (m : Msg) : Msg :=
  { m with contentLength := 0, content := [], headers := m.headers.delete (b! "Content-Type") }

/-- `message::set_content_type` (/repo/include/pion/http/message.hpp:361-363). -/
def setContentType (t : TableOrder) (m : Msg) (ty : Bytes) : Msg := m.changeHeader t (b! "Content-Type") ty

/-- `request::use_query_params_for_post_content` (/repo/include/pion/http/request.hpp:128-136); it stores the content as
    `set_content` does. -/
def useQueriesForContent (t : TableOrder) (m : Msg) : Msg :=
  let m := m.setContent (Query.makeQueryString (t.iter m.queries))
  { m with method := b! "POST" }.setContentType t (b! "application/x-www-form-urlencoded")

/-- `message::add_cookie` (/repo/include/pion/http/message.hpp:249-251). -/
def addCookie (m : Msg) (name value : Bytes) : Msg := { m with cookies := m.cookies.insert name value }

/-- The four forms of `response::set_cookie` (/repo/include/pion/http/response.hpp:134-181): the forms without path use
    `/`, those without age no age. -/
def setCookie (m : Msg) (name value : Bytes) (path : Bytes := b! "/") (maxAge : Option Nat := none) : Msg :=
  { m with headers := m.headers.insert (b! "Set-Cookie") (setCookieHeader name value path maxAge) }

/-- The two forms of `response::delete_cookie` (/repo/include/pion/http/response.hpp:184-193); they hide
    `message::delete_cookie`, which would remove what `add_cookie` has put in. -/
def deleteCookie (m : Msg) (name : Bytes) (path : Bytes := b! "/") : Msg := m.setCookie name [] path (some 0)

end Verif.Msg
