import Verif.Base
/-
What it means that a registered path covers a resource, independent of how the tables are searched.
-/
namespace Verif.Spec.Paths

/-- The path equals the resource or is a prefix of it that is followed by a slash. -/
def Covers (path resource : Bytes) : Prop := resource = path ∨ ∃ rest, resource = path ++ c! "/" :: rest

/-- A finite map from paths to `V`, as a function. -/
abbrev Table (V : Type) := Bytes → Option V

/-- `h` is stored under the longest path of the table that covers the resource. -/
def Longest {V : Type} (t : Table V) (resource : Bytes) (h : V) : Prop :=
  ∃ path, t path = some h ∧ Covers path resource ∧
    ∀ path', t path' ≠ none → Covers path' resource → path'.length ≤ path.length

/-- No path of the table covers the resource. -/
def Uncovered {V : Type} (t : Table V) (resource : Bytes) : Prop :=
  ∀ path, t path ≠ none → ¬Covers path resource

/-- `s` is `r` without its final slash, if it has one. -/
def Trimmed (r s : Bytes) : Prop := r = s ++ [c! "/"] ∨ (r = s ∧ ∀ p, r ≠ p ++ [c! "/"])

/-- `target` is reached from `resource` by following exactly `n` entries of the redirect table. -/
inductive Follows (redirects : Table Bytes) : Nat → Bytes → Bytes → Prop
  | stay (r) : Follows redirects 0 r r
  | next {n r r' target} : redirects r = some r' → Follows redirects n r' target →
      Follows redirects (n + 1) r target

end Verif.Spec.Paths
