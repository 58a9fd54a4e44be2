import Verif.Model.Dict
/-
Model of `parser::parse_cookie_header` (/repo/src/http_parser.cpp:1239-1351) and
`parser::is_cookie_attribute` (/repo/include/pion/http/parser.hpp:745-765).
-/
namespace Verif.Cookie

/-- `COOKIE_NAME_MAX` (/repo/src/http_parser.cpp:46). -/
def NAME_MAX : Nat := 1024
/-- `COOKIE_VALUE_MAX` (/repo/src/http_parser.cpp:47). -/
def VALUE_MAX : Nat := 1024 * 1024

/-- The names compared in /repo/include/pion/http/parser.hpp:755-762. -/
def attributeNames : List Bytes :=
  [b! "Comment", b! "Domain", b! "Max-Age", b! "Path", b! "Secure", b! "Version", b! "Expires", b! "HttpOnly"]

/-- `parser::is_cookie_attribute` (/repo/include/pion/http/parser.hpp:745-765). -/
def isAttribute (name : Bytes) (setCookie : Bool) : Bool :=
  name.isEmpty || name.head? == some (c! "$") || (setCookie && attributeNames.any (iequals name))

/-- `CookieParseState` (/repo/src/http_parser.cpp:1250-1252). -/
inductive PState where
  | name | value | ignore
  deriving Repr, DecidableEq

/-- Local variables of `parse_cookie_header` (/repo/src/http_parser.cpp:1250-1258). -/
structure St where
  st : PState := .name
  name : Bytes := []
  value : Bytes := []
  /-- `value_quote_character`, 0 for none -/
  quote : UInt8 := 0
  dict : Dict
  deriving Repr, DecidableEq

/-- `if (! is_cookie_attribute(name)) dict.insert(name, value)`. -/
def put (setCookie : Bool) (s : St) : Dict :=
  if isAttribute s.name setCookie then s.dict else s.dict.insert s.name s.value

/-- One iteration of the loop (/repo/src/http_parser.cpp:1261-1343); `none` is `return false`. -/
def step (setCookie : Bool) (s : St) (c : UInt8) : Option St :=
  match s.st with
  | .name =>
    if c = c! "=" then some { s with quote := 0, st := .value }
    else if c = c! ";" || c = c! "," then
      if s.name.isEmpty then some s
      else some { s with dict := put setCookie s, name := [] }
    else if c = c! " " then some s
    else if isControl c || NAME_MAX ≤ s.name.length then none
    else some { s with name := s.name ++ [c] }
  | .value =>
    if s.quote = 0 then
      if c = c! ";" || c = c! "," then
        some { s with dict := put setCookie s, name := [], value := [], st := .name }
      else if c = c! "'" || c = c! "\"" then
        if s.value.isEmpty then some { s with quote := c }
        else if VALUE_MAX ≤ s.value.length then none
        else some { s with value := s.value ++ [c] }
      else if c ≠ c! " " || !s.value.isEmpty then
        if isControl c || VALUE_MAX ≤ s.value.length then none
        else some { s with value := s.value ++ [c] }
      else some s
    else if c = s.quote then
      some { s with dict := put setCookie s, name := [], value := [], st := .ignore }
    else if VALUE_MAX ≤ s.value.length then none
    else some { s with value := s.value ++ [c] }
  | .ignore => if c = c! ";" || c = c! "," then some { s with st := .name } else some s

/-- The loop: on failure the cookies inserted so far stay in the dictionary (`Sum.inl`). -/
def loop (setCookie : Bool) (s : St) : Bytes → Dict ⊕ St
  | [] => .inr s
  | c :: r => match step setCookie s c with
    | none => .inl s.dict
    | some s' => loop setCookie s' r

/-- `parser::parse_cookie_header` (/repo/src/http_parser.cpp:1239-1351): result flag and dictionary. -/
def parseCookieHeader (dict : Dict) (text : Bytes) (setCookie : Bool) : Bool × Dict :=
  match loop setCookie { dict := dict } text with
  | .inl d => (false, d)
  | .inr s => (true, put setCookie s)

end Verif.Cookie
