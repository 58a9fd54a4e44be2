import Verif.Model.FileService
/-
How an operating system finds a file by its path (POSIX, "pathname resolution"), without symbolic links.
-/
namespace Verif.Spec.FileLookup
open Verif.FileService Verif.Spec.Path

/-- From a place along names. Everything that is followed by another name must be a directory, "." and ".." included. -/
def follow (fs : Fs) (place : Place) : List Bytes → Option Place
  | [] => some place
  | n :: ns =>
    match fs place with
    | some (.dir _) =>
      if n = b! "." then follow fs place ns
      else if n = b! ".." then follow fs place.dropLast ns
      else follow fs (place ++ [n]) ns
    | _ => none

/-- What a path leads to. A slash at the end is a "." after it; there is nothing at the empty path. -/
def lookup (fs : Fs) (cwd : Place) (p : Bytes) : Option Node :=
  if p = [] then none
  else
    (follow fs (if p.head? = some (c! "/") then [] else cwd)
      ((p.splitOn (c! "/")).filter (· ≠ []) ++ if p.getLast? = some (c! "/") then [b! "."] else [])).bind fs

/-- The file system is a tree: what contains something is a directory. -/
def Tree (fs : Fs) : Prop := ∀ place n, fs (place ++ [n]) ≠ none → ∃ w, fs place = some (.dir w)

end Verif.Spec.FileLookup
