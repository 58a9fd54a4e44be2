import Verif.Model.FloatApi
import Verif.Props.FloatBytes
import Mathlib.Data.Rat.Floor
/-
Lemmas for `Props/FloatApi`: the conversion of what `float_from_bytes` gives.
-/
namespace Verif.FloatApi
open Verif Verif.FloatBytes Verif.Spec.Ieee Verif.Props.FloatBytes

theorem floor_half (k : Nat) : ((k : ℚ) / 2).floor = ((k / 2 : Nat) : Int) := by
  have h := Rat.floor_natCast_div_natCast k 2
  rw [Nat.cast_ofNat] at h
  exact h

theorem roundEven_half (k : Nat) : roundEven ((k : ℚ) / 2) = halfEven k := by
  unfold roundEven halfEven
  rw [floor_half]
  have hk : (k : ℚ) = 2 * ((k / 2 : Nat) : ℚ) + ((k % 2 : Nat) : ℚ) := by
    exact_mod_cast (Nat.div_add_mod k 2).symm
  have e : (k : ℚ) / 2 - (((k / 2 : Nat) : Int) : ℚ) = ((k % 2 : Nat) : ℚ) / 2 := by
    rw [Int.cast_natCast]
    linarith
  rw [e]
  rcases Nat.mod_two_eq_zero_or_one k with h | h
  · rw [h, if_pos (by norm_num), if_neg (by omega)]
  · rw [h, if_neg (by norm_num), if_neg (by norm_num)]
    split_ifs <;> omega

theorem bias_eq (E : Nat) : bias E = ((2 ^ (E - 1) : Nat) : Int) - 1 := by
  unfold bias
  push_cast
  rfl

theorem two_pow_pred {E : Nat} (h : 0 < E) : 2 ^ E = 2 * 2 ^ (E - 1) := by
  rw [← pow_succ', Nat.sub_add_cancel h]

theorem narrow_normal {E F : Nat} (hf : Format E F) (s : Bool) (e k : Nat) (h : Normal E F e k) :
    narrow E F (value E F s e k) = value E F s e k := by
  have hfr := frac_lt h.frac
  have hk0 : 0 ≤ (k : ℚ) / 2 ^ F := by positivity
  have hb := bias_eq E
  have hE := two_pow_pred hf.exp
  have h1 := h.low
  have h2 := h.high
  rw [value_normal s h]
  unfold narrow
  have hpos : (0 : ℚ) < (2 : ℚ) ^ ((e : Int) - bias E) := zpow_pos (by norm_num) _
  dsimp only
  rw [pow2_eq, pow2_eq, if_neg, if_neg]
  · have : (2 : ℚ) ^ ((2 : Int) - (2 ^ (E - 1) : Nat)) ≤ (2 : ℚ) ^ ((e : Int) - bias E) :=
      zpow_le_zpow_right₀ (by norm_num) (by omega)
    unfold normal
    nlinarith
  · have : (2 : ℚ) ^ ((e : Int) - bias E + 1) ≤ (2 : ℚ) ^ (((2 ^ (E - 1) : Nat) : Int)) :=
      zpow_le_zpow_right₀ (by norm_num) (by omega)
    rw [zpow_add₀ (by norm_num), zpow_one] at this
    unfold normal
    nlinarith

theorem narrow_special {E F : Nat} (hf : Format E F) (s : Bool) (k : Nat) (hk : k < 2 ^ F) :
    (decode E F (bytes E F s (2 ^ E - 1) k)).map (narrow E F) = some (.inf s) := by
  have hp : 1 < 2 ^ E := Nat.one_lt_two_pow (by have := hf.exp; omega)
  have hb := bias_eq E
  have hE := two_pow_pred hf.exp
  have hk0 : 0 ≤ (k : ℚ) / 2 ^ F := by positivity
  rw [decode_bytes E F s _ k hf.size (by omega) hk, if_pos (by omega), Option.map_some]
  unfold narrow
  dsimp only
  rw [pow2_eq, if_pos]
  have he : (((2 ^ E - 1 : Nat) : Int) - bias E) = ((2 ^ (E - 1) : Nat) : Int) := by omega
  rw [he]
  have hpos : (0 : ℚ) < (2 : ℚ) ^ (((2 ^ (E - 1) : Nat) : Int)) := zpow_pos (by norm_num) _
  nlinarith

theorem narrow_subnormal {E F : Nat} (hf : Format E F) (s : Bool) (k : Nat) (hk : k < 2 ^ F) :
    (decode E F (bytes E F s 0 k)).map (narrow E F) = some (value E F s 0 (halfEven k)) := by
  have hb := bias_eq E
  have hE := two_pow_pred hf.exp
  have hp : 0 < 2 ^ (E - 1) := by positivity
  have hfr := frac_lt hk
  have hk0 : 0 ≤ (k : ℚ) / 2 ^ F := by positivity
  rw [(subnormal_halved E F hf s k hk).2, Option.map_some]
  unfold narrow
  dsimp only
  have e1 : (2 : Int) - (2 ^ (E - 1) : Nat) = 1 - bias E := by omega
  have hpos : (0 : ℚ) < (2 : ℚ) ^ (1 - bias E) := zpow_pos (by norm_num) _
  have hF : (0 : ℚ) < (2 : ℚ) ^ F := by positivity
  have hlt : subnormal E F k / 2 < (2 : ℚ) ^ (1 - bias E) := by
    unfold subnormal
    nlinarith
  have hle : (2 : ℚ) ^ (1 - bias E) ≤ (2 : ℚ) ^ (((2 ^ (E - 1) : Nat) : Int)) :=
    zpow_le_zpow_right₀ (by norm_num) (by omega)
  rw [e1, pow2_eq, pow2_eq, pow2_eq, if_neg (by linarith), if_pos hlt]
  have e2 : (2 : ℚ) ^ (1 - bias E - F) = (2 : ℚ) ^ (1 - bias E) / 2 ^ F := by
    rw [zpow_sub₀ (by norm_num), zpow_natCast]
  have e3 : subnormal E F k / 2 / (2 : ℚ) ^ (1 - bias E - F) = (k : ℚ) / 2 := by
    rw [e2]
    unfold subnormal
    field_simp
  rw [e3, roundEven_half, e2]
  unfold value
  rw [if_pos rfl]
  unfold subnormal
  congr 2
  rw [Int.cast_natCast]
  ring

end Verif.FloatApi
