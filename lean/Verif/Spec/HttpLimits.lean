import Verif.Model.HttpMessage
/-
The documented maximum sizes of the parts of a message head (/repo/include/pion/http/parser.hpp:560-580 declares
them, /repo/src/http_parser.cpp:38-43 gives the values, repeated here as numbers).
-/
namespace Verif.Http

/-- Every part of the head of a message is within its limit. -/
structure Within (m : Msg) : Prop where
  method : m.method.length ≤ 1024
  resource : m.resource.length ≤ 262144
  original : m.originalResource.length ≤ 262144
  query : m.queryString.length ≤ 1048576
  statusMessage : m.statusMessage.length ≤ 1024
  headerNames : ∀ e ∈ m.headers, e.1.length ≤ 1024
  headerValues : ∀ e ∈ m.headers, e.2.length ≤ 1048576

end Verif.Http
