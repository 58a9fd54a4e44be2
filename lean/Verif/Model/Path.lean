import Verif.Base
/-
Model of the parts of `boost::filesystem::path` (version 3, POSIX) that /repo/services/FileService.cpp uses. Boost is
not part of /repo: this follows its documentation and source. A path that begins with exactly two slashes is a network
name for Boost; here it is like one with a single slash.
-/
namespace Verif.Path

def slash : UInt8 := c! "/"
def dotName : Bytes := b! "."
def dotDotName : Bytes := b! ".."
def rootName : Bytes := b! "/"

/-- The names between slashes; `cur` is the name read so far. -/
def namesFrom (cur : Bytes) : Bytes → List Bytes
  | [] => if cur = [] then [] else [cur]
  | c :: rest =>
    if c = slash then (if cur = [] then namesFrom [] rest else cur :: namesFrom [] rest)
    else namesFrom (cur ++ [c]) rest

def names (p : Bytes) : List Bytes := namesFrom [] p

/-- The elements a path iterator goes through (used in /repo/services/FileService.cpp:58 and 151 by `normalize`): the
    root directory, the names, and "." for a slash at the end. -/
def elements (p : Bytes) : List Bytes :=
  (if p.head? = some slash then [rootName] else []) ++ names p ++
    (if p.getLast? = some slash ∧ names p ≠ [] then [dotName] else [])

/-- `operator/` (used in /repo/services/FileService.cpp:146). -/
def append (p q : Bytes) : Bytes :=
  if q = [] then p
  else if q.head? = some slash then p ++ q
  else if p = [] ∨ p.getLast? = some slash then p ++ q
  else p ++ slash :: q

/-- The test of `normalize` whether ".." after this name removes it. Note that no name of two characters with a dot is
    removed, although only ".." is meant. -/
def removable : Bytes → Bool
  | [] => false
  | [a] => a ≠ c! "." && a ≠ slash
  | [a, b] => a ≠ c! "." && b ≠ c! "."
  | _ => true

/-- The loop of `normalize`; the path built so far is given by its elements. -/
def normLoop (first : Bool) (temp : List Bytes) : List Bytes → List Bytes
  | [] => temp
  | c :: rest =>
    if c = dotName ∧ first = false ∧ rest ≠ [] then normLoop false temp rest
    else if c = dotDotName ∧ removable (temp.getLast?.getD []) = true then
      normLoop false (if temp.dropLast = [] ∧ rest = [dotName] then [dotName] else temp.dropLast) rest
    else normLoop false (temp ++ [c]) rest

/-- The path with the given elements. -/
def join (es : List Bytes) : Bytes := es.foldl append []

/-- `path::normalize` (used in /repo/services/FileService.cpp:58, 151). -/
def normalize (p : Bytes) : Bytes :=
  if p = [] then []
  else
    let es := normLoop true [] (elements p)
    join (if es = [] then [dotName] else es)

example : normalize (b! "/a/./b/../c//d") = b! "/a/c/d" := by decide
example : normalize (b! "/a/../../b/") = b! "/../b/." := by decide
example : normalize (b! "a/..") = b! "." := by decide
example : normalize (b! "/a/.b/../c") = b! "/a/.b/../c" := by decide

end Verif.Path
