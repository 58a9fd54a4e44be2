import Verif.Model.MessageIo
/-
Model of the cached first line of a message: `m_first_line` (/repo/include/pion/http/message.hpp:266-270,671-681)
and the setters that invalidate it.
-/
namespace Verif.FirstLine

/-- A message with the cache `m_first_line`; empty means: not computed. -/
structure F where
  msg : Msg := {}
  cache : Bytes := []
  deriving Repr, DecidableEq

/-- The member functions that change what the first line is made of, or read it. -/
inductive Op where
  | setMethod (x : Bytes)
  | setResource (x : Bytes)
  | changeResource (x : Bytes)
  | setQueryString (x : Bytes)
  | setVersionMajor (n : Nat)
  | setVersionMinor (n : Nat)
  | setStatusCode (n : Nat)
  | setStatusMessage (x : Bytes)
  | clear
  | getFirstLine
  deriving Repr, DecidableEq

/-- One call. `set_method`, `set_resource`, `change_resource`, `set_query_string`
    (/repo/include/pion/http/request.hpp:87-105; `change_resource`, line 99, does not clear the cache),
    `set_version_major`, `set_version_minor` (message.hpp:293-302), `set_status_code`, `set_status_message`
    (response.hpp:109-118), `clear` (message.hpp:149-166, request.hpp:54-62, response.hpp:73-78) and
    `get_first_line` (message.hpp:266-270). Version numbers are truncated to 16 bits. -/
def step (isRequest : Bool) (f : F) : Op → F
  | .setMethod x => ⟨{ f.msg with method := x }, []⟩
  | .setResource x => ⟨{ f.msg with resource := x, originalResource := x }, []⟩
  | .changeResource x => ⟨{ f.msg with resource := x }, f.cache⟩
  | .setQueryString x => ⟨{ f.msg with queryString := x }, []⟩
  | .setVersionMajor n => ⟨{ f.msg with verMajor := n % 65536 }, []⟩
  | .setVersionMinor n => ⟨{ f.msg with verMinor := n % 65536 }, []⟩
  | .setStatusCode n => ⟨{ f.msg with statusCode := n }, []⟩
  | .setStatusMessage x => ⟨{ f.msg with statusMessage := x }, []⟩
  | .clear => ⟨f.msg.clear isRequest, []⟩
  | .getFirstLine => ⟨f.msg, if f.cache.isEmpty then f.msg.firstLine isRequest else f.cache⟩

/-- What `get_first_line()` returns now. -/
def get (isRequest : Bool) (f : F) : Bytes := (step isRequest f .getFirstLine).cache

def run (isRequest : Bool) (f : F) (ops : List Op) : F := ops.foldl (step isRequest) f

end Verif.FirstLine
