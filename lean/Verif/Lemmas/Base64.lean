import Verif.Model.Base64
import Mathlib.Tactic.IntervalCases
namespace Verif.Base64

/-- Bitwise extensionality for bytes. -/
macro "bits8" : tactic => `(tactic|
  (apply UInt8.eq_of_toBitVec_eq; ext i hi; simp <;> (interval_cases i <;> simp)))

theorem six (x : UInt8) (h : x = x &&& (0x3f : UInt8)) : x.toNat < 64 := by
  have : ∀ y : UInt8, (y &&& (0x3f : UInt8)).toNat < 64 := by decide +kernel
  rw [h]; exact this x

theorem code_lookup (s : Bool) :
    ∀ n : Fin 64, look s (enc (UInt8.ofNat n)) = .code (UInt8.ofNat n) ∧
      enc (UInt8.ofNat n) ≠ c! "=" := by
  cases s <;> decide +kernel

theorem look_enc (s : Bool) (x : UInt8) (h : x.toNat < 64) : look s (enc x) = .code x := by
  have := (code_lookup s ⟨x.toNat, h⟩).1
  simpa using this

theorem enc_ne_pad (x : UInt8) (h : x.toNat < 64) : enc x ≠ c! "=" := by
  have := (code_lookup true ⟨x.toNat, h⟩).2
  simpa using this

theorem enc_mem (x : UInt8) (h : x.toNat < 64) : enc x ∈ encodingData := by
  have : ∀ n : Fin 64, enc (UInt8.ofNat n) ∈ encodingData := by decide +kernel
  have := this ⟨x.toNat, h⟩
  simpa using this

theorem q0 (a : UInt8) : ((a >>> 2) &&& (0x3f : UInt8)).toNat < 64 := six _ (by bits8)
theorem q1 (a b : UInt8) :
    (((a <<< 4) &&& (0x3f : UInt8)) ||| ((b >>> 4) &&& (0x0f : UInt8))).toNat < 64 := six _ (by bits8)
theorem q1' (a : UInt8) : ((a <<< 4) &&& (0x3f : UInt8)).toNat < 64 := six _ (by bits8)
theorem q2 (b c : UInt8) :
    (((b <<< 2) &&& (0x3f : UInt8)) ||| ((c >>> 6) &&& (0x03 : UInt8))).toNat < 64 := six _ (by bits8)
theorem q2' (b : UInt8) : ((b <<< 2) &&& (0x3f : UInt8)).toNat < 64 := six _ (by bits8)
theorem q3 (c : UInt8) : (c &&& (0x3f : UInt8)).toNat < 64 := six _ (by bits8)

theorem r0 (a b : UInt8) :
    (((a >>> 2) &&& (0x3f : UInt8)) <<< 2) |||
      (((((a <<< 4) &&& (0x3f : UInt8)) ||| ((b >>> 4) &&& (0x0f : UInt8))) >>> 4) &&& (0x3 : UInt8)) = a := by
  bits8
theorem r0' (a : UInt8) :
    (((a >>> 2) &&& (0x3f : UInt8)) <<< 2) |||
      ((((a <<< 4) &&& (0x3f : UInt8)) >>> 4) &&& (0x3 : UInt8)) = a := by
  bits8
theorem r1 (a b c : UInt8) :
    (((((a <<< 4) &&& (0x3f : UInt8)) ||| ((b >>> 4) &&& (0x0f : UInt8))) <<< 4) &&& (0xf0 : UInt8)) |||
      (((((b <<< 2) &&& (0x3f : UInt8)) ||| ((c >>> 6) &&& (0x03 : UInt8))) >>> 2) &&& (0x0f : UInt8)) = b := by
  bits8
theorem r1' (a b : UInt8) :
    (((((a <<< 4) &&& (0x3f : UInt8)) ||| ((b >>> 4) &&& (0x0f : UInt8))) <<< 4) &&& (0xf0 : UInt8)) |||
      ((((b <<< 2) &&& (0x3f : UInt8)) >>> 2) &&& (0x0f : UInt8)) = b := by
  bits8
theorem r2 (b c : UInt8) :
    (((((b <<< 2) &&& (0x3f : UInt8)) ||| ((c >>> 6) &&& (0x03 : UInt8))) <<< 6) &&& (0xc0 : UInt8)) |||
      (c &&& (0x3f : UInt8)) = c := by
  bits8
theorem z1 (a : UInt8) : ((a <<< 4) &&& (0x3f : UInt8)) &&& (0x0f : UInt8) = 0 := by bits8
theorem z2 (b : UInt8) : ((b <<< 2) &&& (0x3f : UInt8)) &&& (0x03 : UInt8) = 0 := by bits8

theorem decodeLoop_encode (s : Bool) (x : Bytes) :
    ∀ out, decodeLoop s (encode x) out = .ok (out ++ x) := by
  induction x using encode.induct with
  | case1 => intro out; simp [encode, decodeLoop]
  | case2 a =>
    intro out
    simp only [encode, decodeLoop]
    simp only [look_enc s _ (q0 a), look_enc s _ (q1' a), z1, r0', if_true]
  | case3 a b =>
    intro out
    simp only [encode, decodeLoop]
    simp only [look_enc s _ (q0 a), look_enc s _ (q1 a b), look_enc s _ (q2' b),
      if_neg (enc_ne_pad _ (q2' b)), z2, r0, r1', if_true]
    simp
  | case4 a b c rest ih =>
    intro out
    simp only [encode, decodeLoop]
    simp only [look_enc s _ (q0 a), look_enc s _ (q1 a b), look_enc s _ (q2 b c), look_enc s _ (q3 c),
      if_neg (enc_ne_pad _ (q2 b c)), if_neg (enc_ne_pad _ (q3 c)), r0, r1, r2, ih]
    simp

end Verif.Base64
