import Verif.Model.HttpParser
import Verif.Model.Spdy
/-
The texts of the errors (`error_code::message`).
-/
namespace Verif.ErrorText

/-- `http::parser::error_category_t::message` (/repo/include/pion/http/parser.hpp:74-119) for the values that the parser
    sets. The text of ERROR_URI_SIZE is that of ERROR_METHOD_SIZE (lines 83-88). The last line, `parser error` for other
    values, is not reached. -/
def http : Http.Err → String
  | .methodChar => "invalid method character"
  | .methodSize => "method exceeds maximum size"
  | .uriChar => "invalid URI character"
  | .uriSize => "method exceeds maximum size"
  | .queryChar => "invalid query string character"
  | .querySize => "query string exceeds maximum size"
  | .versionEmpty => "HTTP version undefined"
  | .versionChar => "invalid version character"
  | .statusEmpty => "HTTP status undefined"
  | .statusChar => "invalid status character"
  | .headerChar => "invalid header character"
  | .headerNameSize => "header name exceeds maximum size"
  | .headerValueSize => "header value exceeds maximum size"
  | .invalidContentLength => "invalid Content-Length header"
  | .chunkChar => "invalid chunk character"
  | .missingHeaderData => "missing header data"
  | .missingChunkData => "missing chunk data"
  | .missingTooMuchContent => "missing too much content"

/-- `spdy::parser::error_category_t::message` (/repo/include/pion/spdy/parser.hpp:57-74) for the values that the parser
    sets: ERROR_PROTOCOL_ERROR and ERROR_INTERNAL_SPDY_ERROR are not in the switch. ERROR_MISSING_HEADER_DATA is, but
    is never set (/repo/src/spdy_parser.cpp). -/
def spdy : Spdy.Err → String
  | .invalidFrame => "invalid spdy frame"
  | .invalidVersion => "invalid spdy version"
  | .decompression => "error in decompression"
  | .protocol => "SPDYParser error"
  | .internal => "SPDYParser error"

end Verif.ErrorText
