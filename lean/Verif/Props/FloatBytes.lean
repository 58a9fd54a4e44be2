import Verif.Lemmas.FloatBytes
/-
C10: the floating point codecs.

The formats used by `algorithm` are `E = 8, F = 23` (`from_float`/`to_float`), `E = 11, F = 52`
(`from_double`/`to_double`) and `E = 15, F = 112` (`from_long_double`/`to_long_double`); the theorems hold for every
format whose size is a whole number of bytes.
-/
namespace Verif.Props.FloatBytes
open Verif Verif.FloatBytes Verif.Spec.Ieee

/-- A format: at least one exponent and one fraction bit, a whole number of bytes. -/
structure Format (E F : Nat) : Prop where
  exp : 0 < E
  frac : 0 < F
  size : (E + F + 1) % 8 = 0

theorem float_format : Format 8 23 := ⟨by decide, by decide, by decide⟩
theorem double_format : Format 11 52 := ⟨by decide, by decide, by decide⟩
theorem long_double_format : Format 15 112 := ⟨by decide, by decide, by decide⟩

/-- The fields of a normal number. -/
structure Normal (E F e k : Nat) : Prop where
  low : 0 < e
  high : e < 2 ^ E - 1
  frac : k < 2 ^ F

/-- `encode` returns `buf`: it finishes, writes only inside the buffer, and this is the result. -/
def Encodes (E F : Nat) (x : LD) (buf : Bytes) : Prop := ∃ N, ∀ fuel, N ≤ fuel → encode E F fuel x = some buf

/-- `encode` never finishes, however long it runs. -/
def Diverges (E F : Nat) (x : LD) : Prop := ∀ fuel, encode E F fuel x = none

theorem value_normal {E F e k : Nat} (s : Bool) (h : Normal E F e k) : value E F s e k = .fin s (normal E F e k) := by
  unfold value
  rw [if_neg (by have := h.low; omega), if_neg (by have := h.high; omega)]

theorem frac_lt {F k : Nat} (h : k < 2 ^ F) : (k : ℚ) / 2 ^ F < 1 := by
  rw [div_lt_one (by positivity)]
  exact_mod_cast h

/-- **C10 (encoding), partial.** Every normal number is encoded as its IEEE 754 bytes, most significant first.
    Missing: subnormal numbers, infinities and NaN, and the sign of zero; see below. -/
theorem encode_normal_partial (E F : Nat) (hf : Format E F) (s : Bool) (e k : Nat) (h : Normal E F e k) :
    Encodes E F (value E F s e k) (bytes E F s e k) := by
  rw [value_normal s h]
  have hk := frac_lt h.frac
  have hk0 : 0 ≤ (k : ℚ) / 2 ^ F := by positivity
  refine encode_spec E F hf.exp hf.frac hf.size s (1 + (k : ℚ) / 2 ^ F) ((e : Int) - bias E) e k (by linarith)
    (by linarith) (by ring) (by have := h.high; omega) ?_ ?_
  · rw [add_sub_cancel_left, div_mul_cancel₀]; positivity
  · rw [add_sub_cancel_left, div_mul_cancel₀]
    · linarith
    · positivity

/-- **C10 (decoding), partial.** The bytes of every normal number are decoded to exactly that number. -/
theorem decode_normal_partial (E F : Nat) (hf : Format E F) (s : Bool) (e k : Nat) (h : Normal E F e k) :
    decode E F (bytes E F s e k) = some (value E F s e k) := by
  rw [value_normal s h, decode_bytes E F s e k hf.size (by have := h.high; omega) h.frac]
  rw [if_pos (by have := h.low; omega)]
  rfl

/-- **C10 (round trip), partial.** A normal number decodes back to itself. -/
theorem roundtrip_partial (E F : Nat) (hf : Format E F) (s : Bool) (e k : Nat) (h : Normal E F e k) :
    ∃ buf, Encodes E F (value E F s e k) buf ∧ decode E F buf = some (value E F s e k) :=
  ⟨_, encode_normal_partial E F hf s e k h, decode_normal_partial E F hf s e k h⟩

/-- **C10 (zero), partial.** Zero is encoded as zero bytes and decodes back; so does negative zero, which loses its
    sign. -/
theorem encode_zero_partial (E F : Nat) (hf : Format E F) (s : Bool) :
    Encodes E F (.fin s 0) (bytes E F false 0 0) := by
  refine ⟨1, fun fuel hfuel => ?_⟩
  obtain ⟨g, rfl⟩ : ∃ g, fuel = g + 1 := ⟨fuel - 1, by omega⟩
  have hE' : 2 ^ (E - 1) = 2 ^ E / 2 := by
    obtain ⟨E', rfl⟩ : ∃ E', E = E' + 1 := ⟨E - 1, by have := hf.exp; omega⟩
    rw [Nat.pow_succ, Nat.add_sub_cancel]; omega
  have h8 := hf.size
  obtain ⟨buf', hw, hwl, hwb⟩ := writeExp_bits E 0 0 (List.replicate ((E + F + 1 + 7) / 8) 0) (by simp; omega)
    (by positivity)
  have hs : scaleDown (g + 1) (.fin s 0) 0 = some (.fin s 0, 0) := by
    rw [scaleDown, show (LD.fin s 0).ge1 = false by cases s <;> rfl]; rfl
  unfold encode
  simp only [show (LD.fin s 0).lt0 = false by cases s <;> rfl, Bool.false_eq_true, if_false]
  rw [hs]
  simp only
  rw [fracLoop, show (LD.fin s 0).nonzero = false by rfl, Bool.false_and]
  simp only [Bool.false_eq_true, if_false]
  rw [hE', show (⟨0, 0x80⟩ : Cur) = at_ 0 by decide]
  refine hw.trans (congrArg some ?_)
  refine bit_ext _ _ (by rw [hwl, length_bytes]; simp; omega) fun i hi => ?_
  rw [hwl, List.length_replicate] at hi
  rw [hwb, bit_zero, bit_bytes E F false 0 0 h8 (by positivity) (by positivity) i (by omega)]
  simp

theorem decode_zero (E F : Nat) (hf : Format E F) (s : Bool) : decode E F (bytes E F s 0 0) = some (value E F s 0 0) := by
  rw [decode_bytes E F s 0 0 hf.size (by positivity) (by positivity)]
  simp [value, subnormal]

/-- **C10 (other finite values).** A finite value between the smallest normal number and the end of the exponent
    range, not necessarily representable: the encoder finishes and gives the nearest number of the format towards
    zero: the decoded value `d` and the value `x` have the same sign and `|d| ≤ |x| < |d| + 2^(e - bias - F)`. -/
theorem encode_truncates (E F : Nat) (hf : Format E F) (s : Bool) (m : ℚ) (z : Int) (h1 : 1 ≤ m) (h2 : m < 2)
    (e k : Nat) (he : (e : Int) = z + bias E) (he0 : 0 < e) (he2 : e < 2 ^ E) (hk1 : (k : ℚ) ≤ (m - 1) * 2 ^ F)
    (hk2 : (m - 1) * 2 ^ F < k + 1) :
    ∃ buf d, Encodes E F (.fin s (m * (2 : ℚ) ^ z)) buf ∧ decode E F buf = some (.fin s d) ∧
      d ≤ m * (2 : ℚ) ^ z ∧ m * (2 : ℚ) ^ z < d + (2 : ℚ) ^ (z - F) := by
  have hp : (0 : ℚ) < 2 ^ F := by positivity
  have hk : k < 2 ^ F := by
    have : (k : ℚ) < ((2 ^ F : Nat) : ℚ) := by push_cast; nlinarith
    exact_mod_cast this
  refine ⟨_, _, encode_spec E F hf.exp hf.frac hf.size s m z e k h1 h2 he he2 hk1 hk2,
    decode_bytes E F s e k hf.size he2 hk, ?_, ?_⟩
  · rw [if_pos (by omega), show (e : Int) - bias E = z by omega]
    have hz : (0 : ℚ) < 2 ^ z := zpow_pos (by norm_num) z
    refine mul_le_mul_of_nonneg_right ?_ hz.le
    have : (k : ℚ) / 2 ^ F ≤ m - 1 := by rw [div_le_iff₀ hp]; exact hk1
    linarith
  · rw [if_pos (by omega), show (e : Int) - bias E = z by omega]
    have hz : (0 : ℚ) < 2 ^ z := zpow_pos (by norm_num) z
    have hzF : (2 : ℚ) ^ (z - F) = 1 / 2 ^ F * 2 ^ z := by
      rw [zpow_sub₀ (by norm_num), zpow_natCast]; field_simp
    rw [hzF, ← add_mul]
    refine mul_lt_mul_of_pos_right ?_ hz
    have : m - 1 < (k + 1) / 2 ^ F := by rw [lt_div_iff₀ hp]; exact hk2
    rw [add_div] at this
    linarith

/-! ### Every buffer -/

/-- Every buffer of the right size is the encoding of some fields. -/
theorem every_buffer (E F : Nat) (_hf : Format E F) (buf : Bytes) (hl : 8 * buf.length = E + F + 1) :
    ∃ s e k, e < 2 ^ E ∧ k < 2 ^ F ∧ buf = bytes E F s e k := by
  have key : ∀ buf : Bytes, ∃ N < 256 ^ buf.length, buf = beBytes buf.length N := by
    intro buf
    induction buf with
    | nil => exact ⟨0, by simp, rfl⟩
    | cons b t ih =>
      obtain ⟨N, hN, ht⟩ := ih
      have hb : b.toNat < 256 := b.toNat_lt
      refine ⟨b.toNat * 256 ^ t.length + N, ?_, ?_⟩
      · rw [List.length_cons, pow_succ]; nlinarith
      · rw [List.length_cons, beBytes]
        congr 1
        · rw [Nat.mul_comm, Nat.mul_add_div (by positivity), Nat.div_eq_of_lt hN, Nat.add_zero]
          simp
        · have aux : ∀ (n N M : Nat), beBytes n (M * 256 ^ n + N) = beBytes n N := by
            intro n N M
            refine bit_ext _ _ (by rw [length_beBytes, length_beBytes]) fun i hi => ?_
            rw [length_beBytes] at hi
            rw [bit_beBytes _ _ i hi, bit_beBytes _ _ i hi, Nat.mul_comm M,
              show (256 : Nat) ^ n = 2 ^ (8 * n) by rw [Nat.pow_mul]]
            have hr := Nat.testBit_mod_two_pow (2 ^ (8 * n) * M + N) (8 * n) (8 * n - 1 - i)
            have hr' := Nat.testBit_mod_two_pow N (8 * n) (8 * n - 1 - i)
            rw [decide_eq_true (by omega), Bool.true_and] at hr hr'
            rw [← hr, ← hr', Nat.mul_add_mod]
          rw [aux, ← ht]
  obtain ⟨N, hN, hb⟩ := key buf
  have hsz : (256 : Nat) ^ buf.length = 2 ^ (E + F + 1) := by
    rw [show (256 : Nat) = 2 ^ 8 by rfl, ← Nat.pow_mul, hl]
  rw [hsz, show E + F + 1 = F + E + 1 by omega, pow_succ, pow_add] at hN
  refine ⟨decide (1 ≤ N / 2 ^ F / 2 ^ E), N / 2 ^ F % 2 ^ E, N % 2 ^ F, Nat.mod_lt _ (by positivity),
    Nat.mod_lt _ (by positivity), ?_⟩
  unfold bytes
  rw [show (E + F + 1) / 8 = buf.length by omega]
  have hq : N / 2 ^ F / 2 ^ E < 2 := by
    rw [Nat.div_div_eq_div_mul]; exact Nat.div_lt_of_lt_mul hN
  have e1 : (if decide (1 ≤ N / 2 ^ F / 2 ^ E) = true then 1 else 0) = N / 2 ^ F / 2 ^ E := by
    generalize N / 2 ^ F / 2 ^ E = q at hq
    rcases Nat.lt_or_ge q 1 with h | h
    · rw [decide_eq_false (by omega)]; simp; omega
    · rw [decide_eq_true h]; simp; omega
  rw [e1, Nat.div_add_mod' (N / 2 ^ F) (2 ^ E), Nat.div_add_mod' N (2 ^ F)]
  exact hb

/-- **C10 (memory safety of decoding).** The decoder reads inside every buffer of the right size and returns. -/
theorem decode_total (E F : Nat) (hf : Format E F) (buf : Bytes) (hl : 8 * buf.length = E + F + 1) :
    ∃ x, decode E F buf = some x := by
  obtain ⟨s, e, k, he, hk, rfl⟩ := every_buffer E F hf buf hl
  exact ⟨_, decode_bytes E F s e k hf.size he hk⟩

/-! ### Where the property fails -/

/-- Subnormal numbers are decoded to half their value. -/
theorem subnormal_halved (E F : Nat) (hf : Format E F) (s : Bool) (k : Nat) (hk : k < 2 ^ F) :
    value E F s 0 k = .fin s (subnormal E F k) ∧
    decode E F (bytes E F s 0 k) = some (.fin s (subnormal E F k / 2)) := by
  refine ⟨rfl, ?_⟩
  rw [decode_bytes E F s 0 k hf.size (by positivity) hk]
  unfold subnormal
  congr 2
  simp only [ne_eq, not_true_eq_false, if_false, zero_add, Nat.cast_zero, zero_sub]
  rw [show (1 - bias E : Int) = -bias E + 1 by ring, zpow_add₀ (by norm_num), zpow_one]
  ring

/-- Infinities and NaN are decoded to finite numbers. -/
theorem special_decoded_finite (E F : Nat) (hf : Format E F) (s : Bool) (k : Nat) (hk : k < 2 ^ F) :
    (value E F s (2 ^ E - 1) k = .inf s ∨ value E F s (2 ^ E - 1) k = .nan) ∧
    ∃ q, decode E F (bytes E F s (2 ^ E - 1) k) = some (.fin s q) := by
  have hp : 1 < 2 ^ E := Nat.one_lt_two_pow (by have := hf.exp; omega)
  refine ⟨?_, _, decode_bytes E F s (2 ^ E - 1) k hf.size (by omega) hk⟩
  unfold value
  rw [if_neg (by omega), if_pos rfl]
  split
  · exact .inl rfl
  · exact .inr rfl

theorem scaleDown_inf (fuel : Nat) : ∀ e, scaleDown fuel (.inf false) e = none := by
  induction fuel with
  | zero => intro e; rfl
  | succ n ih => intro e; exact ih (e + 1)

/-- Encoding an infinity does not terminate. -/
theorem encode_inf_diverges (E F : Nat) (s : Bool) : Diverges E F (.inf s) := by
  intro fuel
  unfold encode
  have : (if (LD.inf s).lt0 then (LD.inf s).negate else LD.inf s) = .inf false := by cases s <;> rfl
  simp only [this, scaleDown_inf]

theorem fracLoop_nan (F : Nat) (hF : 0 < F) (fuel : Nat) : ∀ s : St, s.value = .nan → s.got = false → s.bits = 0 →
    fracLoop F fuel s = none := by
  induction fuel with
  | zero => intro s _ _ _; rfl
  | succ n ih =>
    intro s hv hg hb
    rw [fracLoop, hv, hg, hb, show LD.nan.nonzero = true from rfl, decide_eq_true hF]
    simp only [Bool.and_self, if_true, Bool.false_eq_true, if_false]
    exact ih _ rfl rfl rfl

/-- Encoding NaN does not terminate. -/
theorem encode_nan_diverges (E F : Nat) (hf : Format E F) : Diverges E F .nan := by
  intro fuel
  unfold encode
  simp only [show LD.nan.lt0 = false from rfl, Bool.false_eq_true, if_false]
  cases fuel with
  | zero => rfl
  | succ n =>
    have : scaleDown (n + 1) .nan 0 = some (.nan, 0) := rfl
    rw [this]
    simp only
    rw [fracLoop_nan F hf.frac _ _ rfl rfl rfl]

/-- Subnormal numbers are encoded wrongly: the `float` 3 * 2^-149, fields 0 and 3, becomes the bytes with fraction
    field 0x400000. -/
theorem subnormal_encoded_wrong :
    value 8 23 false 0 3 = .fin false (3 / 2 ^ 149) ∧
    bytes 8 23 false 0 3 = [0, 0, 0, 3] ∧ encode 8 23 200 (.fin false (3 / 2 ^ 149)) = some [0, 0x40, 0, 0] := by
  refine ⟨?_, by decide +kernel, by decide +kernel⟩
  unfold value subnormal bias
  norm_num

/-- Negative zero is encoded as zero: the sign is lost although the decoder would keep it. -/
theorem negative_zero_lost : encode 8 23 10 (.fin true 0) = some [0, 0, 0, 0] ∧
    bytes 8 23 true 0 0 = [0x80, 0, 0, 0] := by
  constructor <;> decide +kernel

/-! ### Concrete cases -/

example : Normal 8 23 128 0x200000 := ⟨by decide, by decide, by decide⟩
example : encode 8 23 50 (.fin true (5 / 2)) = some [0xc0, 0x20, 0, 0] ∧ bytes 8 23 true 128 0x200000 = [0xc0, 0x20, 0, 0] := by
  constructor <;> decide +kernel
example : decode 11 52 [0x40, 0x09, 0, 0, 0, 0, 0, 0] = some (.fin false (25 / 8)) := by decide +kernel

end Verif.Props.FloatBytes
