import Verif.Lemmas.Users
/-
C36: `user_manager` is a finite map from names to credentials.
-/
namespace Verif.Props.Users
open Verif.Users
open Verif.Spec.Users hiding run step

/-- C36: after any history of calls, `get_user(name, password)` succeeds iff the map holds a credential for the
    name that the password fits. (`HexOk`: texts of 40 or 64 characters given to the `_hash` calls are
    hexadecimal; see `bad_hash_damages` for what happens otherwise.) -/
theorem get_user_password_partial {b : Build} (hb : Digests b) (ops : List Op) (hx : ∀ op ∈ ops, HexOk op)
    (ha : ∀ op ∈ ops, Available b op) (name pw : Bytes) :
    (getUserPw b (run b ops) name pw).isSome = true ↔ ∃ c, Spec.Users.run b ops name = some c ∧ Fits b c pw := by
  have h := RepMap.run hb ops hx ha
  have hn := h.2 name
  unfold getUserPw
  cases h1 : (run b ops).lookup name with
  | none =>
    cases h2 : Spec.Users.run b ops name with
    | none => simp
    | some c => rw [h1, h2] at hn; exact hn.elim
  | some u =>
    cases h2 : Spec.Users.run b ops name with
    | none => rw [h1, h2] at hn; exact hn.elim
    | some c =>
      rw [h1, h2] at hn
      have := rep_match hb hn pw
      simp only [Option.some.injEq, exists_eq_left']
      rw [← this]
      cases matchPassword b u pw <;> simp

/-- C36, build without SSL: `get_user(name, password)` succeeds iff the map holds exactly this password for the
    name; no restriction on the history. -/
theorem get_user_password_plain {b : Build} (hp : b.ssl = false) (hb : Digests b) (ops : List Op)
    (ha : ∀ op ∈ ops, Available b op) (name pw : Bytes) :
    (getUserPw b (run b ops) name pw).isSome = true ↔ Spec.Users.run b ops name = some (.plain pw) := by
  have hx : ∀ op ∈ ops, HexOk op := by
    intro op ho
    have := ha op ho
    cases op <;> simp_all [HexOk, Available]
  rw [get_user_password_partial hb ops hx ha]
  have h := RepMap.run hb ops hx ha
  have hn := h.2 name
  constructor
  · rintro ⟨c, hc, hf⟩
    rw [hc] at hn
    cases h1 : (run b ops).lookup name with
    | none => rw [h1] at hn; exact hn.elim
    | some u =>
      rw [h1] at hn
      cases c with
      | plain p => simp only [Fits] at hf; rw [hc, hf]
      | digest256 d => have := hn.1; simp [hp] at this
      | digest1 d => have := hn.1; simp [hp] at this
  · intro hc; exact ⟨_, hc, rfl⟩

/-- C36: `get_user(name)` finds the user iff the map has the name. -/
theorem get_user_iff_partial {b : Build} (hb : Digests b) (ops : List Op) (hx : ∀ op ∈ ops, HexOk op)
    (ha : ∀ op ∈ ops, Available b op) (name : Bytes) :
    (getUser (run b ops) name).isSome = true ↔ Spec.Users.run b ops name ≠ none := by
  have := (RepMap.run hb ops hx ha).none name
  unfold getUser
  rw [ne_eq, ← this, Option.isSome_iff_ne_none]

/-- C36: the manager is empty iff the map is. -/
theorem empty_iff_partial {b : Build} (hb : Digests b) (ops : List Op) (hx : ∀ op ∈ ops, HexOk op)
    (ha : ∀ op ∈ ops, Available b op) :
    isEmpty (run b ops) = true ↔ ∀ name, Spec.Users.run b ops name = none := by
  have h := (RepMap.run hb ops hx ha).none
  unfold isEmpty
  rw [List.isEmpty_iff]
  constructor
  · intro h0 name; rw [← h, h0]; rfl
  · intro h0
    cases hm : run b ops with
    | nil => rfl
    | cons e r =>
      have := (h e.1).2 (h0 _)
      rw [hm] at this
      simp [SMap.lookup] at this

/-- C36: what each call answers: adding succeeds iff the name is new, updating and removing iff it is known;
    a hash text is rejected with an exception iff it is not well-formed. -/
theorem answers_partial {b : Build} (hb : Digests b) (ops : List Op) (hx : ∀ op ∈ ops, HexOk op)
    (ha : ∀ op ∈ ops, Available b op) (op : Op) (hx' : HexOk op) (ha' : Available b op) :
    (step b (run b ops) op).2 = match op with
      | .add n _ => .returned (Spec.Users.run b ops n).isNone
      | .update n _ => .returned (Spec.Users.run b ops n).isSome
      | .remove n => .returned (Spec.Users.run b ops n).isSome
      | .addHash n t =>
        if (Spec.Users.run b ops n).isSome then .returned false
        else if (ofText t).isSome then .returned true else .threw
      | .updateHash n t =>
        if (Spec.Users.run b ops n).isNone then .returned false
        else if (ofText t).isSome then .returned true else .threw := by
  have h := (RepMap.run hb ops hx ha).none
  have hi : ∀ n, ((run b ops).lookup n).isSome = (Spec.Users.run b ops n).isSome := by
    intro n
    have := h n
    cases h1 : (run b ops).lookup n <;> cases h2 : Spec.Users.run b ops n <;> simp_all
  cases op with
  | add n pw =>
    simp only [step, hi]
    cases Spec.Users.run b ops n <;> rfl
  | update n pw =>
    have := hi n
    simp only [step]
    cases h1 : (run b ops).lookup n <;> rw [h1] at this <;> simp [← this]
  | remove n =>
    simp only [step, hi]
    cases Spec.Users.run b ops n <;> rfl
  | addHash n t =>
    simp only [step, hi]
    cases Spec.Users.run b ops n with
    | some c => rfl
    | none =>
      cases ht : ofText t with
      | none => rw [setPasswordHash_bad {} hx' ht]; rfl
      | some c => rw [(setPasswordHash_ok (b := b) ha' {} ht).1]; rfl
  | updateHash n t =>
    have := hi n
    simp only [step]
    cases h1 : (run b ops).lookup n with
    | none => rw [h1] at this; simp [← Option.not_isSome, ← this]
    | some u =>
      rw [h1] at this
      simp only [← Option.not_isSome, ← this]
      cases ht : ofText t with
      | none => rw [setPasswordHash_bad u hx' ht]; rfl
      | some c => rw [(setPasswordHash_ok (b := b) ha' u ht).1]; rfl

/-- Digest functions of the right sizes for the examples. -/
def toy (ssl : Bool) : Build where
  ssl := ssl
  sha256 x := (x ++ List.replicate 32 0).take 32
  sha1 x := (x ++ List.replicate 20 0).take 20

theorem toy_digests (ssl : Bool) : Digests (toy ssl) := ⟨by simp [toy], by simp [toy]⟩

/-- A history with all kinds of calls. -/
def history : List Op :=
  [.add (b! "ann") (b! "x"), .add (b! "ann") (b! "y"), .update (b! "ann") (b! "z"), .add (b! "bob") (b! "q"),
   .remove (b! "bob"),
   .addHash (b! "cat") (b! "6100000000000000000000000000000000000000"), .updateHash (b! "ann") (b! "tooshort")]

example : ∀ op ∈ history, HexOk op := by
  intro op h
  simp only [history, List.mem_cons, List.not_mem_nil, or_false] at h
  rcases h with rfl | rfl | rfl | rfl | rfl | rfl | rfl <;> simp only [HexOk] <;> decide +kernel
example : (getUserPw (toy true) (run (toy true) history) (b! "ann") (b! "z")).isSome = true ∧
    (getUserPw (toy true) (run (toy true) history) (b! "ann") (b! "x")).isSome = false ∧
    (getUserPw (toy true) (run (toy true) history) (b! "bob") (b! "q")).isSome = false ∧
    (getUserPw (toy true) (run (toy true) history) (b! "cat") (b! "a")).isSome = true := by decide +kernel

/-- C36 fails for texts that are not hexadecimal: `update_user_hash` throws in the middle of the conversion and
    leaves the user with a new kind of digest and half of the old bytes, so that neither the old password nor
    any other intended one is what is stored. -/
theorem bad_hash_damages :
    let ops := [.add (b! "ann") (b! "x")]
    let bad := b! "-100000000000000000000000000000000000000"
    (step (toy true) (run (toy true) ops) (.updateHash (b! "ann") bad)).2 = .threw ∧
    (getUserPw (toy true) (run (toy true) ops) (b! "ann") (b! "x")).isSome = true ∧
    ((step (toy true) (run (toy true) ops) (.updateHash (b! "ann") bad)).1.lookup (b! "ann")).map (·.hashType)
      = some .sha1 := by decide +kernel

/-- A text with characters that are no hexadecimal digits is accepted; they count as zero. -/
theorem non_hex_accepted :
    (step (toy true) [] (.addHash (b! "ann") (b! "zzzzzzzzzzzzzzzzzzzzzzzzzzzzzzzzzzzzzzzz"))).2 = .returned true := by
  decide +kernel

end Verif.Props.Users
