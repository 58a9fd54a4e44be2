import Verif.Lemmas.FloatApi
/-
C10, for the functions of `algorithm` that programs call. The specification is `Spec/Ieee`.
-/
namespace Verif.Props.FloatApi
open Verif Verif.FloatBytes Verif.FloatApi Verif.Spec.Ieee Verif.Props.FloatBytes

/-- The fields of a number that is read right: a normal number, a zero or an infinity. -/
def Readable (E F e k : Nat) : Prop := k < 2 ^ F ∧ e < 2 ^ E ∧ (e = 0 ∨ e = 2 ^ E - 1 → k = 0)

theorem readable {E F : Nat} (hf : Format E F) (s : Bool) {e k : Nat} (h : Readable E F e k) :
    (decode E F (bytes E F s e k)).map (narrow E F) = some (value E F s e k) := by
  obtain ⟨h1, h2, h3⟩ := h
  by_cases h0 : e = 0
  · subst h0
    have hk := h3 (.inl rfl)
    subst hk
    exact narrow_subnormal hf s 0 h1
  · by_cases hm : e = 2 ^ E - 1
    · have hk := h3 (.inr hm)
      subst hm hk
      rw [narrow_special hf s 0 h1]
      unfold value
      rw [if_neg h0, if_pos rfl, if_pos rfl]
    · have hn : Normal E F e k := ⟨by omega, by omega, h1⟩
      rw [decode_normal_partial E F hf s e k hn, Option.map_some, narrow_normal hf s e k hn]

/-- **C10 (`to_float`), partial.** Four bytes that stand for a normal number, a zero or an infinity are read as this number.
    Missing: subnormal numbers and NaN, see below. -/
theorem to_float_partial (s : Bool) (e k : Nat) (h : Readable 8 23 e k) :
    toFloat (bytes 8 23 s e k) = some (value 8 23 s e k) := readable float_format s h

/-- **C10 (`to_double`), partial.** The same for eight bytes. -/
theorem to_double_partial (s : Bool) (e k : Nat) (h : Readable 11 52 e k) :
    toDouble (bytes 11 52 s e k) = some (value 11 52 s e k) := readable double_format s h

/-- **C10 (`from_float`, `to_float`), partial.** A normal number is written as its bytes and read again. -/
theorem float_roundtrip_partial (s : Bool) (e k : Nat) (h : Normal 8 23 e k) :
    ∃ N, ∀ fuel, N ≤ fuel → fromFloat fuel (value 8 23 s e k) = some (bytes 8 23 s e k) ∧
      toFloat (bytes 8 23 s e k) = some (value 8 23 s e k) := by
  obtain ⟨N, hN⟩ := encode_normal_partial 8 23 float_format s e k h
  have h1 := h.low
  have h2 := h.high
  exact ⟨N, fun fuel hf => ⟨hN fuel hf, to_float_partial s e k ⟨h.frac, by omega, by omega⟩⟩⟩

/-- **C10 (`from_double`, `to_double`), partial.** -/
theorem double_roundtrip_partial (s : Bool) (e k : Nat) (h : Normal 11 52 e k) :
    ∃ N, ∀ fuel, N ≤ fuel → fromDouble fuel (value 11 52 s e k) = some (bytes 11 52 s e k) ∧
      toDouble (bytes 11 52 s e k) = some (value 11 52 s e k) := by
  obtain ⟨N, hN⟩ := encode_normal_partial 11 52 double_format s e k h
  have h1 := h.low
  have h2 := h.high
  exact ⟨N, fun fuel hf => ⟨hN fuel hf, to_double_partial s e k ⟨h.frac, by omega, by omega⟩⟩⟩

/-- **C10 (`from_long_double`, `to_long_double`), partial.** -/
theorem long_double_roundtrip_partial (s : Bool) (e k : Nat) (h : Normal 15 112 e k) :
    ∃ N, ∀ fuel, N ≤ fuel → fromLongDouble fuel (value 15 112 s e k) = some (bytes 15 112 s e k) ∧
      toLongDouble (bytes 15 112 s e k) = some (value 15 112 s e k) := by
  obtain ⟨N, hN⟩ := encode_normal_partial 15 112 long_double_format s e k h
  exact ⟨N, fun fuel hf => ⟨hN fuel hf, decode_normal_partial 15 112 long_double_format s e k h⟩⟩

/-- **C10 (any four bytes).** What `to_float` makes of the bytes that it should not read so: NaN become infinities, and
    subnormal numbers are halved, to the even neighbour if half of them is no number. -/
theorem to_float_wrong (s : Bool) (k : Nat) (hk : k < 2 ^ 23) :
    toFloat (bytes 8 23 s 255 k) = some (.inf s) ∧ toFloat (bytes 8 23 s 0 k) = some (value 8 23 s 0 (halfEven k)) :=
  ⟨narrow_special float_format s k hk, narrow_subnormal float_format s k hk⟩

/-- **C10 (any eight bytes).** The same for `to_double`. -/
theorem to_double_wrong (s : Bool) (k : Nat) (hk : k < 2 ^ 52) :
    toDouble (bytes 11 52 s 2047 k) = some (.inf s) ∧ toDouble (bytes 11 52 s 0 k) = some (value 11 52 s 0 (halfEven k)) :=
  ⟨narrow_special double_format s k hk, narrow_subnormal double_format s k hk⟩

/-- **C10 fails for `to_float`**: a NaN is read as an infinity, and the smallest positive number as zero. -/
theorem to_float_violated :
    value 8 23 false 255 1 = .nan ∧ toFloat [0x7f, 0x80, 0, 1] = some (.inf false) ∧
    value 8 23 false 0 1 ≠ .fin false 0 ∧ toFloat [0, 0, 0, 1] = some (.fin false 0) := by
  have b1 : bytes 8 23 false 255 1 = [0x7f, 0x80, 0, 1] := by decide +kernel
  have b2 : bytes 8 23 false 0 1 = [0, 0, 0, 1] := by decide +kernel
  have h := to_float_wrong false 1 (by decide)
  rw [b1, b2] at h
  refine ⟨rfl, h.1, ?_, ?_⟩
  · unfold value subnormal
    simp only [if_pos, ne_eq, LD.fin.injEq, true_and]
    exact mul_ne_zero (by norm_num) (zpow_ne_zero _ (by norm_num))
  · rw [h.2]
    simp [value, halfEven, subnormal]

/-- 2.5, and an infinity. -/
example : Readable 8 23 128 0x200000 ∧ Readable 8 23 255 0 ∧ Readable 8 23 0 0 := by
  unfold Readable
  decide +kernel
example : toFloat [0xc0, 0x20, 0, 0] = some (.fin true (5 / 2)) ∧ toFloat [0xff, 0x80, 0, 0] = some (.inf true) := by
  decide +kernel
example : toDouble [0x40, 0x09, 0, 0, 0, 0, 0, 0] = some (.fin false (25 / 8)) := by decide +kernel

end Verif.Props.FloatApi
