import Verif.Model.HttpParser
/-
Parsing cookies only adds to the cookies that are there.
-/
namespace Verif.Cookie

/-- More cookies in front. -/
def St.under (d : Dict) (s : St) : St := { s with dict := d ++ s.dict }

theorem put_under (b : Bool) (d : Dict) (s : St) : put b (s.under d) = d ++ put b s := by
  unfold put St.under Dict.insert
  dsimp only
  split <;> simp

theorem step_under (b : Bool) (d : Dict) (s : St) (c : UInt8) : step b (s.under d) c = (step b s c).map (St.under d) := by
  have hp := put_under b d s
  obtain ⟨st, name, value, quote, dict⟩ := s
  unfold St.under at *
  unfold step
  dsimp only at *
  cases st <;> dsimp only
  all_goals (repeat' split)
  all_goals first
    | rfl
    | (simp only [Option.map_some, hp]; done)
    | contradiction

theorem loop_under (b : Bool) (d : Dict) (v : Bytes) : ∀ s, loop b (s.under d) v =
    (match loop b s v with | .inl x => .inl (d ++ x) | .inr s' => .inr (s'.under d)) := by
  induction v with
  | nil => intro s; rfl
  | cons c r ih =>
    intro s
    rw [loop, loop, step_under]
    cases step b s c with
    | none => rfl
    | some s' => exact ih s'

theorem parse_append (d : Dict) (v : Bytes) (b : Bool) :
    (parseCookieHeader d v b).2 = d ++ (parseCookieHeader [] v b).2 := by
  have h := loop_under b d v { dict := [] }
  unfold parseCookieHeader
  rw [show ({ dict := d } : St) = St.under d { dict := [] } by simp [St.under], h]
  cases loop b { dict := [] } v with
  | inl x => rfl
  | inr s => exact put_under b d s

end Verif.Cookie

namespace Verif.Http

theorem addCookies_eq (b : Bool) (vs : List Bytes) : ∀ d, addCookies b d vs =
    d ++ vs.flatMap fun v => (Cookie.parseCookieHeader [] v b).2 := by
  induction vs with
  | nil => intro d; simp [addCookies]
  | cons v r ih =>
    intro d
    have : addCookies b d (v :: r) = addCookies b (Cookie.parseCookieHeader d v b).2 r := rfl
    rw [this, ih, Cookie.parse_append, List.flatMap_cons, List.append_assoc]

end Verif.Http
