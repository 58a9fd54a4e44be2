import Verif.Model.Dict
import Verif.Model.UrlCodec
/-
Model of `types::make_query_string` (/repo/src/http_types.cpp:114-125) and `parser::parse_url_encoded`
(/repo/src/http_parser.cpp:907-986).
-/
namespace Verif.Query
open Verif.UrlCodec

/-- `QUERY_NAME_MAX` (/repo/src/http_parser.cpp:44). -/
def NAME_MAX : Nat := 1024
/-- `QUERY_VALUE_MAX` (/repo/src/http_parser.cpp:45). -/
def VALUE_MAX : Nat := 1024 * 1024

/-- `types::make_query_string` (/repo/src/http_types.cpp:114-125); the list is the iteration order. -/
def makeQueryString : Dict → Bytes
  | [] => []
  | [(n, v)] => urlEncode n ++ [c! "="] ++ urlEncode v
  | (n, v) :: r => urlEncode n ++ [c! "="] ++ urlEncode v ++ [c! "&"] ++ makeQueryString r

/-- Local variables of `parse_url_encoded` (/repo/src/http_parser.cpp:915-924). -/
structure St where
  /-- `parse_state == QUERY_PARSE_VALUE` -/
  inValue : Bool := false
  name : Bytes := []
  value : Bytes := []
  dict : Dict
  deriving Repr, DecidableEq

/-- `dict.insert(make_pair(url_decode(name), url_decode(value)))` (e.g. line 940). -/
def put (s : St) : Dict := s.dict.insert (urlDecode s.name) (urlDecode s.value)

/-- One iteration of the loop (/repo/src/http_parser.cpp:927-978); `none` is `return false`. -/
def step (s : St) (c : UInt8) : Option St :=
  if s.inValue = false then
    if c = c! "=" then some { s with inValue := true }
    else if c = c! "&" then
      if s.name.isEmpty then some s
      else some { s with dict := put s, name := [] }
    else if c = 0x0d || c = 0x0a || c = 0x09 then some s
    else if isControl c || NAME_MAX ≤ s.name.length then none
    else some { s with name := s.name ++ [c] }
  else
    if c = c! "&" then
      if s.name.isEmpty then some { s with value := [], inValue := false }
      else some { s with dict := put s, name := [], value := [], inValue := false }
    else if c = c! "," then
      if s.name.isEmpty then some { s with value := [] }
      else some { s with dict := put s, value := [] }
    else if c = 0x0d || c = 0x0a || c = 0x09 then some s
    else if isControl c || VALUE_MAX ≤ s.value.length then none
    else some { s with value := s.value ++ [c] }

/-- The loop: on failure the pairs inserted so far stay in the dictionary (`Sum.inl`). -/
def loop (s : St) : Bytes → Dict ⊕ St
  | [] => .inr s
  | c :: r => match step s c with
    | none => .inl s.dict
    | some s' => loop s' r

/-- `parser::parse_url_encoded` (/repo/src/http_parser.cpp:907-986): result flag and dictionary. -/
def parseUrlEncoded (dict : Dict) (text : Bytes) : Bool × Dict :=
  match loop { dict := dict } text with
  | .inl d => (false, d)
  | .inr s => (true, if s.name.isEmpty then s.dict else put s)

end Verif.Query
