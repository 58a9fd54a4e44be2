import Verif.Spec.Auth
import Verif.Spec.Base64
import Verif.Model.BasicSite
/-
Basic authentication as RFC 7617 has it, seen from a client.
-/
namespace Verif.Spec.BasicSession

/-- The credentials of a user (RFC 7617, section 2): name, colon and password, in base64. -/
def credentials (user password : Bytes) : Bytes := Verif.Spec.Base64.encode (user ++ b! ":" ++ password)

/-- The value of the header `Authorization`. -/
def authorization (user password : Bytes) : Bytes := b! "Basic " ++ credentials user password

/-- The value of the header `WWW-Authenticate`. -/
def challenge (realm : Bytes) : Bytes := b! "Basic realm=\"" ++ realm ++ b! "\""

/-- The request is for a page that has a handler of its own and is not redirected. -/
def PageOf {H : Type} (ops : List (Verif.Server.Op H)) (resource : Bytes) (h : H) : Prop :=
  Verif.Spec.Dispatch.redirects ops (Verif.Spec.Dispatch.noSlash resource) = none ∧
  Verif.Spec.Paths.Longest (Verif.Spec.Dispatch.handlers ops) (Verif.Spec.Dispatch.noSlash resource) h

end Verif.Spec.BasicSession
