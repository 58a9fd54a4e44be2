import Verif.Model.MessageBuild
import Verif.Spec.Cookie
import Verif.Spec.HttpWire
/-
Which cookies can be sent.
-/
namespace Verif.Spec.MessageBuild
open Verif.Http Verif.Spec.Cookie

/-- A cookie that can be sent in a request, where it is written `name=value`. -/
structure RequestCookie (c : Bytes × Bytes) : Prop where
  name : NameOk c.1
  /-- no separators or control characters, no space or quote at the beginning -/
  value : (Written.plain c.2).Ok
  notAttribute : isAttr false c.1 = false
  size : c.1.length + 1 + c.2.length ≤ 1048576

/-- The arguments of `set_cookie`. -/
structure SetCookie where
  name : Bytes
  value : Bytes
  path : Bytes := b! "/"
  maxAge : Option Nat := none

/-- A cookie that can be sent in a response, where it is written `name="value"`. -/
structure SetCookie.Ok (c : SetCookie) : Prop where
  name : NameOk c.name
  /-- no double quotes; control characters other than the tabulator cannot be in a header -/
  value : c! "\"" ∉ c.value ∧ ∀ x ∈ c.value, valueChar x
  path : (Written.plain c.path).Ok
  notAttribute : isAttr true c.name = false
  age : ∀ n, c.maxAge = some n → n < 2 ^ 64
  size : c.name.length + c.value.length + c.path.length + 60 ≤ 1048576

/-- Set all these cookies. -/
def setAll (m : Msg) (cs : List SetCookie) : Msg := cs.foldl (fun m c => m.setCookie c.name c.value c.path c.maxAge) m

/-- The content type is not that of a form. -/
def NotForm (hs : Dict) : Prop := ∀ v ∈ hs.values (b! "Content-Type"),
  ¬ b! "application/x-www-form-urlencoded" <+: v ∧ ¬ b! "multipart/form-data" <+: v

end Verif.Spec.MessageBuild
