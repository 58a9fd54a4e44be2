import Verif.Model.HttpParser
/-
A message read in two steps: its head first, with the parser told to read headers only, and its body later.
-/
namespace Verif.Http

/-- `parser::parse_headers_only` with `true` (/repo/include/pion/http/parser.hpp:223). -/
def headOnly (cfg : Cfg) : Cfg := { cfg with headersOnly := true }

/-- `parser::skip_header_parsing` (/repo/include/pion/http/parser.hpp:226-233): `finish_header_parsing` on the given
    message; its result is dropped, and so is the error, which goes to a local variable. -/
def skipHeaders (cfg : Cfg) (s : S) : S := { (finishHeaders cfg s).2 with ec := s.ec }

/-- The same call on another parser, that has been created with these options and has read nothing
    (/repo/include/pion/http/parser.hpp:129-139, 230-233). -/
def skipWithNew (cfg : Cfg) (m : Msg) : S := skipHeaders cfg (fresh cfg m)

end Verif.Http
