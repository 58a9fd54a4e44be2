import Verif.Model.FileThreads
/-
What it means that an answer is the file, while the file may change.
-/
namespace Verif.Spec.FileThreads
open Verif.FileThreads

/-- The new version, if the action changes the file. -/
def changed : Act → Option (Option Version)
  | .change v => some v
  | _ => none

/-- The versions of the file, the first and then one for each change. -/
def history (v : Option Version) (tr : List Act) : List (Option Version) :=
  v :: tr.filterMap changed

/-- The number of the version at the end of a trace. -/
def present (tr : List Act) : Nat := (tr.filterMap changed).length

/-- The file was `v` at moment `k`. -/
def At (h : List (Option Version)) (k : Nat) (v : Version) : Prop := h[k]? = some (some v)

/-- No two versions have the same time. -/
def DistinctTimes (h : List (Option Version)) : Prop :=
  ∀ j k v w, At h j v → At h k w → v.time = w.time → j = k

/-- `time` is a time that the file had between `a` and `b`. -/
def TimeWithin (h : List (Option Version)) (a b time : Nat) : Prop :=
  ∃ k v, a ≤ k ∧ k ≤ b ∧ At h k v ∧ v.time = time

/-- An answer that is put together from what the file was between `a` and `b`: its length, its time, and each of its bytes
    are those that the file had at some moment then. -/
structure Composed (h : List (Option Version)) (a b size time : Nat) (body : List (Option UInt8)) : Prop where
  sizeWithin : ∃ k v, a ≤ k ∧ k ≤ b ∧ At h k v ∧ v.content.length = size
  timeWithin : TimeWithin h a b time
  length : body.length = size
  bytes : ∀ (p : Nat) x, body[p]? = some x → ∃ k v, a ≤ k ∧ k ≤ b ∧ At h k v ∧ ∃ y, x = some y ∧ v.content[p]? = some y

/-- Nothing fails apart from the file being too short or not there. -/
def Steady (tr : List Act) : Prop := ∀ i, Act.fail i ∉ tr

/-- There was no file at a moment between `a` and `b`. -/
def GoneWithin (h : List (Option Version)) (a b : Nat) : Prop := ∃ k, a ≤ k ∧ k ≤ b ∧ h[k]? = some none

/-- The file had two lengths between `a` and `b`. -/
def ResizedWithin (h : List (Option Version)) (a b : Nat) : Prop :=
  ∃ j k v w, a ≤ j ∧ j ≤ b ∧ a ≤ k ∧ k ≤ b ∧ At h j v ∧ At h k w ∧ w.content.length < v.content.length

/-- The file as it is after a trace. -/
def current (v : Option Version) (tr : List Act) : Option Version := (history v tr).getLast?.join

/-- Call `i` has been answered with `a`. -/
def Answered (s : St) (i : Nat) (a : Answer) : Prop := ∃ c, s.calls i = some c ∧ c.pc = .done a

/-- No version has the time 0, which `DiskFile` takes for "not yet known". -/
def Dated (h : List (Option Version)) : Prop := ∀ k v, At h k v → v.time ≠ 0

end Verif.Spec.FileThreads
