import Verif.Base
/-
Where a path leads, in a file system without symbolic links.
-/
namespace Verif.Spec.Path

/-- A place in the file system: the names on the way from the root directory. -/
abbrev Place := List Bytes

/-- From a place along names; "." stays and ".." goes to the parent (that of the root directory is itself). -/
def walk (place : Place) : List Bytes → Place
  | [] => place
  | n :: ns =>
    if n = b! "." then walk place ns
    else if n = b! ".." then walk place.dropLast ns
    else walk (place ++ [n]) ns

/-- The place of a path for a process with the current directory `cwd`. -/
def resolve (cwd : Place) (p : Bytes) : Place :=
  walk (if p.head? = some (c! "/") then [] else cwd) ((p.splitOn (c! "/")).filter (· ≠ []))

/-- The place is the directory or in it, however deep. -/
def Inside (dir place : Place) : Prop := dir <+: place

instance (dir place : Place) : Decidable (Inside dir place) := inferInstanceAs (Decidable (_ <+: _))

/-- A name as an absolute path without dots has it. -/
def Plain (n : Bytes) : Prop := n ≠ [] ∧ c! "/" ∉ n ∧ n ≠ b! "." ∧ n ≠ b! ".."

instance (n : Bytes) : Decidable (Plain n) := inferInstanceAs (Decidable (_ ∧ _ ∧ _ ∧ _))

/-- A name of two characters with a dot in it that is not "..", like ".a". -/
def Dotted (n : Bytes) : Prop := n.length = 2 ∧ c! "." ∈ n ∧ n ≠ b! ".."

instance (n : Bytes) : Decidable (Dotted n) := inferInstanceAs (Decidable (_ ∧ _ ∧ _))

/-- The absolute path "/a/b/c" of a place. -/
def absolute (place : Place) : Bytes := place.flatMap (c! "/" :: ·)

end Verif.Spec.Path
