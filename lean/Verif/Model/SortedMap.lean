import Verif.Base
/-
Model of `std::map<std::string, V>` (and of `std::set<std::string>`, with `V = Unit`): the list of its
entries in iteration order. Used for `m_resources`, `m_redirects` (/repo/include/pion/http/server.hpp:300-312),
`m_restrict_list`, `m_white_list` (/repo/include/pion/http/auth.hpp:124,159-162), `m_users`
(/repo/include/pion/user.hpp:307), `m_user_cache` (auth.hpp:127) and `m_plugin_map`
(/repo/include/pion/plugin_manager.hpp:168-178).
-/
namespace Verif

/-- `operator<` of `std::string`, the order of the keys: lexicographic on unsigned bytes. -/
def bytesLt : Bytes → Bytes → Bool
  | [], [] => false
  | [], _ :: _ => true
  | _ :: _, [] => false
  | a :: s, b :: t => decide (a < b) || (a == b && bytesLt s t)

/-- `std::map<std::string, V>`: entries in ascending order of the keys. -/
abbrev SMap (V : Type) := List (Bytes × V)

namespace SMap

variable {V : Type}

/-- `map.find(key)`. -/
def lookup (k : Bytes) : SMap V → Option V
  | [] => none
  | (k', v) :: r => if k' = k then some v else lookup k r

/-- `map.insert(std::make_pair(key, value))`: without effect when the key is present. -/
def insert (k : Bytes) (v : V) : SMap V → SMap V
  | [] => [(k, v)]
  | (k', v') :: r =>
    if bytesLt k k' then (k, v) :: (k', v') :: r
    else if k' = k then (k', v') :: r
    else (k', v') :: insert k v r

/-- `map.erase(key)`. -/
def erase (k : Bytes) (m : SMap V) : SMap V := m.filter fun e => !(e.1 == k)

/-- `it->second = value` for `it = map.find(key)`. -/
def assign (k : Bytes) (v : V) (m : SMap V) : SMap V := m.map fun e => if e.1 = k then (e.1, v) else e

/-- The entries before `map.upper_bound(key)`, in iteration order. -/
def upTo (k : Bytes) (m : SMap V) : SMap V := m.takeWhile fun e => !bytesLt k e.1

end SMap
end Verif
