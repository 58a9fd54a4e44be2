import Verif.Model.FirstLine
import Mathlib.Tactic.Common
/-
C55: the first line that is sent is made of the current data of the message.
-/
namespace Verif.Props.FirstLine
open Verif Verif.FirstLine

/-- The redirect setter, which does not invalidate the cache. -/
def IsChangeResource : Op → Prop
  | .changeResource _ => True
  | _ => False

/-- The cache, if there is one, is the line of the current data. -/
def Fresh (isRequest : Bool) (f : F) : Prop := f.cache = [] ∨ f.cache = f.msg.firstLine isRequest

theorem fresh_step (isRequest : Bool) (f : F) (op : Op) (h : Fresh isRequest f) (hop : ¬ IsChangeResource op) :
    Fresh isRequest (step isRequest f op) := by
  cases op with
  | changeResource x => exact absurd trivial hop
  | getFirstLine =>
    right
    rcases h with h | h
    · simp [step, h]
    · simp only [step]
      split
      · rfl
      · exact h
  | _ => exact .inl rfl

theorem fresh_run (isRequest : Bool) (ops : List Op) : ∀ f, Fresh isRequest f → (∀ op ∈ ops, ¬ IsChangeResource op) →
    Fresh isRequest (run isRequest f ops) := by
  induction ops with
  | nil => intro f h _; exact h
  | cons op ops ih =>
    intro f h hops
    exact ih _ (fresh_step isRequest f op h (hops op (by simp))) fun o ho => hops o (List.mem_cons_of_mem _ ho)

/-- **C55, partial.** A new message; then any calls, in any order, of the setters and of `get_first_line` - except
    `change_resource`: the first line is that of the current method, resource, query string and version, or version,
    status code and status message. Missing: `change_resource`, see `stale_after_change_resource`. -/
theorem first_line_current_partial (isRequest : Bool) (m : Msg) (ops : List Op)
    (h : ∀ op ∈ ops, ¬ IsChangeResource op) :
    get isRequest (run isRequest ⟨m, []⟩ ops) = (run isRequest ⟨m, []⟩ ops).msg.firstLine isRequest := by
  have := fresh_run isRequest ops ⟨m, []⟩ (.inl rfl) h
  generalize run isRequest ⟨m, []⟩ ops = f at this
  unfold FirstLine.get step
  rcases this with h | h
  · simp [h]
  · simp only
    split
    · rfl
    · exact h

/-- Reading the line in between never changes what is read later. -/
theorem reading_has_no_effect_partial (isRequest : Bool) (m : Msg) (ops ops' : List Op)
    (h : ∀ op ∈ ops ++ ops', ¬ IsChangeResource op) :
    get isRequest (run isRequest ⟨m, []⟩ (ops ++ .getFirstLine :: ops')) =
      get isRequest (run isRequest ⟨m, []⟩ (ops ++ ops')) := by
  have hm : ∀ (l : List Op) (f g : F), f.msg = g.msg → (run isRequest f l).msg = (run isRequest g l).msg := by
    intro l
    induction l with
    | nil => intro f g e; exact e
    | cons op l ih => intro f g e; exact ih _ _ (by cases op <;> simp [step, e])
  rw [first_line_current_partial, first_line_current_partial isRequest m _ h]
  · congr 1
    unfold run
    rw [List.foldl_append, List.foldl_append, List.foldl_cons]
    exact hm ops' _ _ rfl
  · intro op hop
    simp only [List.mem_append, List.mem_cons] at hop h
    rcases hop with ho | rfl | ho
    · exact h op (.inl ho)
    · exact id
    · exact h op (.inr ho)

example : get true (run true {} [.setMethod (b! "PUT"), .getFirstLine, .setResource (b! "/x"), .setQueryString (b! "a=b")]) =
    b! "PUT /x?a=b HTTP/1.1" := by decide +kernel
example : get false (run false {} [.getFirstLine, .setStatusCode 404, .setStatusMessage (b! "Not Found")]) =
    b! "HTTP/1.1 404 Not Found" := by decide +kernel

/-- The full property fails: after `change_resource` - the setter used for redirects - a first line that was read
    before is sent again, although the resource of the message is another one. -/
theorem stale_after_change_resource :
    get true (run true {} [.setResource (b! "/old"), .getFirstLine, .changeResource (b! "/new")]) = b! "GET /old HTTP/1.1" ∧
    (run true {} [.setResource (b! "/old"), .getFirstLine, .changeResource (b! "/new")]).msg.firstLine true =
      b! "GET /new HTTP/1.1" := by
  constructor <;> decide +kernel

end Verif.Props.FirstLine
