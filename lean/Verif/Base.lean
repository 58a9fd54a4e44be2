/-
Shared vocabulary of the model: bytes, byte strings, byte-string literals.
A `std::string` or a `char` buffer of /repo is a `List UInt8` here.
-/

namespace Verif

/-- A C++ `std::string` / `char[]` buffer: the list of its bytes. -/
abbrev Bytes := List UInt8

/-- `b! "abc"` is the byte string with the (ASCII) codes of the characters; expanded at
    elaboration time to a plain list of numerals so that the kernel can compute with it. -/
macro "b!" s:str : term => do
  let elems ← s.getString.toList.toArray.mapM fun c => do
    let n := Lean.Syntax.mkNumLit (toString c.toNat)
    `(term| ($n : UInt8))
  `(term| ([$elems,*] : List UInt8))

/-- `c! "a"` is the byte of a single ASCII character. -/
macro "c!" s:str : term => do
  let n := Lean.Syntax.mkNumLit (toString (s.getString.toList.headD ' ').toNat)
  `(term| ($n : UInt8))

example : b! "Az" = [65, 122] := rfl
example : c! "=" = 61 := rfl

/-- Quantification over all bytes reduces to quantification over `Fin 256`. -/
theorem forall_uint8_iff (p : UInt8 → Prop) :
    (∀ x : UInt8, p x) ↔ ∀ n : Fin 256, p (UInt8.ofFin n) := by
  constructor
  · intro h n; exact h _
  · intro h x
    have := h x.toFin
    simpa using this

/-- Decidability of statements over all 256 byte values (a complete finite domain). -/
instance decForallUInt8 (p : UInt8 → Prop) [DecidablePred p] : Decidable (∀ x : UInt8, p x) :=
  decidable_of_iff _ (forall_uint8_iff p).symm

end Verif
