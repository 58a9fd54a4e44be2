import Verif.Model.Spdy
import Verif.Spec.Spdy
import Verif.Props.IntBytes
/-
Lemmas on the reading of numbers from a SPDY packet.
-/
namespace Verif.Lemmas.Spdy
open Verif.Spdy Verif.Spec.Spdy Verif.Spec.Endian

theorem byteAt_eq (mem : Bytes) (i : Nat) :
    byteAt mem i = if i + 1 ≤ mem.length then .ok (mem.getD i 0) else .error .outside := by
  unfold byteAt
  by_cases h : i < mem.length
  · rw [List.getElem?_eq_getElem h, if_pos (show i + 1 ≤ mem.length from h), List.getD_eq_getElem?_getD,
      List.getElem?_eq_getElem h]; rfl
  · rw [List.getElem?_eq_none (by omega), if_neg (by omega)]

theorem drop_take2 {mem : Bytes} {i : Nat} (h : i + 2 ≤ mem.length) :
    (mem.drop i).take 2 = [mem.getD i 0, mem.getD (i + 1) 0] := by
  rw [List.drop_eq_getElem_cons (by omega : i < mem.length), List.drop_eq_getElem_cons (by omega : i + 1 < mem.length),
    List.take_succ_cons, List.take_succ_cons]
  simp [List.getD, List.getElem?_eq_getElem (by omega : i < mem.length),
    List.getElem?_eq_getElem (by omega : i + 1 < mem.length)]

theorem drop_take3 {mem : Bytes} {i : Nat} (h : i + 3 ≤ mem.length) :
    (mem.drop i).take 3 = [mem.getD i 0, mem.getD (i + 1) 0, mem.getD (i + 2) 0] := by
  rw [List.drop_eq_getElem_cons (by omega : i < mem.length), List.take_succ_cons, drop_take2 (by omega)]
  simp [List.getD, List.getElem?_eq_getElem (by omega : i < mem.length)]

theorem drop_take4 {mem : Bytes} {i : Nat} (h : i + 4 ≤ mem.length) :
    (mem.drop i).take 4 = [mem.getD i 0, mem.getD (i + 1) 0, mem.getD (i + 2) 0, mem.getD (i + 3) 0] := by
  rw [List.drop_eq_getElem_cons (by omega : i < mem.length), List.take_succ_cons, drop_take3 (by omega)]
  simp [List.getD, List.getElem?_eq_getElem (by omega : i < mem.length)]

theorem u16At_eq (mem : Bytes) (i : Nat) :
    u16At mem i = if i + 2 ≤ mem.length then .ok (stored mem i 2) else .error .outside := by
  unfold u16At
  rw [byteAt_eq, byteAt_eq]
  by_cases h : i + 2 ≤ mem.length
  · rw [if_pos (by omega), if_pos (by omega), if_pos h, stored, drop_take2 h]
    simp only [bind, Except.bind, pure, Except.pure, List.map, Props.IntBytes.be2]
  · simp only [if_neg h]
    split <;> rfl

theorem u32At_eq (mem : Bytes) (i : Nat) :
    u32At mem i = if i + 4 ≤ mem.length then .ok (stored mem i 4) else .error .outside := by
  unfold u32At
  rw [byteAt_eq, byteAt_eq, byteAt_eq, byteAt_eq]
  by_cases h : i + 4 ≤ mem.length
  · rw [if_pos (by omega), if_pos (by omega), if_pos (by omega), if_pos (by omega), if_pos h, stored, drop_take4 h]
    simp only [bind, Except.bind, pure, Except.pure, List.map, Props.IntBytes.be4]
  · simp only [if_neg h]
    by_cases h1 : i + 1 ≤ mem.length <;> by_cases h2 : i + 1 + 1 ≤ mem.length <;> by_cases h3 : i + 2 + 1 ≤ mem.length <;>
      simp only [h1, h2, h3, if_true, if_false] <;> rfl

theorem toNat_lt (b : UInt8) : b.toBitVec.toNat < 256 := b.toBitVec.isLt

theorem stored4 {mem : Bytes} {i : Nat} (h : i + 4 ≤ mem.length) :
    stored mem i 4 = (mem.getD i 0).toNat * 2 ^ 24 + stored mem (i + 1) 3 ∧ stored mem (i + 1) 3 < 2 ^ 24 := by
  rw [stored, stored, drop_take4 h, drop_take3 (by omega)]
  simp only [List.map, beNat, List.foldl]
  have e : (mem.getD i 0).toNat = (mem.getD i 0).toBitVec.toNat := rfl
  have h1 := toNat_lt (mem.getD (i + 1) 0)
  have h2 := toNat_lt (mem.getD (i + 2) 0)
  have h3 := toNat_lt (mem.getD (i + 3) 0)
  rw [e]
  simp only [show i + 1 + 1 = i + 2 from rfl, show i + 1 + 2 = i + 3 from rfl]
  omega

theorem stored2 {mem : Bytes} {i : Nat} (h : i + 2 ≤ mem.length) :
    stored mem i 2 = (mem.getD i 0).toNat * 256 + (mem.getD (i + 1) 0).toNat := by
  rw [stored, drop_take2 h]
  simp only [List.map, beNat, List.foldl]
  have e : (mem.getD i 0).toNat = (mem.getD i 0).toBitVec.toNat := rfl
  have e1 : (mem.getD (i + 1) 0).toNat = (mem.getD (i + 1) 0).toBitVec.toNat := rfl
  omega

theorem stored4_lt {mem : Bytes} {i : Nat} (h : i + 4 ≤ mem.length) : stored mem i 4 < 2 ^ 32 := by
  have := stored4 h
  have h1 : (mem.getD i 0).toNat < 256 := toNat_lt _
  omega

theorem mask31 (n : Nat) : n &&& 0x7FFFFFFF = n % 2 ^ 31 := Nat.and_two_pow_sub_one_eq_mod n 31
theorem mask24 (n : Nat) : n &&& 0xFFFFFF = n % 2 ^ 24 := Nat.and_two_pow_sub_one_eq_mod n 24
theorem mask15 (n : Nat) : n &&& 0x7FFF = n % 2 ^ 15 := Nat.and_two_pow_sub_one_eq_mod n 15

theorem size_eq {mem : Bytes} (h : 8 ≤ mem.length) : stored mem 4 4 &&& 0xFFFFFF = payloadSize mem := by
  have := stored4 (mem := mem) (i := 4) (by omega)
  rw [mask24, this.1]
  have := this.2
  simp only [payloadSize, Nat.reduceAdd] at *
  omega

/-- What `populate` does with a data frame. -/
theorem populate_data {Z : Type} {mem : Bytes} {length : Nat} {info : Info} {dec : Dec Z} (h0 : mem.getD 0 0 = 0)
    (hl : 8 ≤ mem.length) :
    populate mem { read := 0, current := 0, length := length, info := info, dec := dec } =
      .ok ({ read := 8, current := 0, length := sub32 (sub32 length 4) 4,
             info := { info with streamId := stored mem 0 4, dataOffset := ((info.dataOffset + 4) % 2 ^ 32 + 4) % 2 ^ 32, dataSize := payloadSize mem }, dec := dec },
        some (⟨false, 0, 0, mem.getD 4 0, payloadSize mem⟩, stored mem 0 4)) := by
  unfold populate
  simp only [u16At_eq, u32At_eq, byteAt_eq, bind, Except.bind, pure, Except.pure]
  have s2 := stored2 (mem := mem) (i := 0) (by omega)
  have s4 := stored4 (mem := mem) (i := 0) (by omega)
  rw [h0] at s2 s4
  have hb : (mem.getD (0 + 1) 0).toNat < 256 := toNat_lt _
  have hz : (0 : UInt8).toNat = 0 := rfl
  have hc : ¬(stored mem 0 2 >>> 15 ≠ 0) := by
    rw [Nat.shiftRight_eq_div_pow]; simp only [ne_eq, Decidable.not_not]; omega
  have hm : stored mem 0 4 &&& 0x7FFFFFFF = stored mem 0 4 := by rw [mask31]; omega
  simp only [if_pos (by omega : 0 + 2 ≤ mem.length), if_neg hc, if_pos (by omega : 0 + 4 ≤ mem.length),
    if_pos (by omega : 0 + 4 + 1 ≤ mem.length), if_pos (by omega : 0 + 4 + 4 ≤ mem.length), hm, Nat.zero_add, size_eq hl]

/-- What `populate` does with a control frame. -/
theorem populate_control {Z : Type} {mem : Bytes} {length : Nat} {info : Info} {dec : Dec Z} (h0 : mem.getD 0 0 = 0x80) 
    (hl : 12 ≤ mem.length) (ht : typeOf mem < 11) :
    populate mem { read := 0, current := 0, length := length, info := info, dec := dec } =
      .ok ({ read := 8, current := 0, length := sub32 (sub32 (sub32 length 2) 2) 4,
             info := { info with dataOffset := (((info.dataOffset + 2) % 2 ^ 32 + 2) % 2 ^ 32 + 4) % 2 ^ 32, dataSize := payloadSize mem }, dec := dec },
        some (⟨true, (mem.getD 1 0).toNat, typeOf mem, mem.getD 4 0, payloadSize mem⟩, stored mem 8 4 % 2 ^ 31)) := by
  unfold populate
  simp only [u16At_eq, u32At_eq, byteAt_eq, bind, Except.bind, pure, Except.pure]
  have s2 := stored2 (mem := mem) (i := 0) (by omega)
  rw [h0] at s2
  have hb : (mem.getD (0 + 1) 0).toNat < 256 := toNat_lt _
  have hz : (0x80 : UInt8).toNat = 128 := rfl
  have hc : stored mem 0 2 >>> 15 ≠ 0 := by
    rw [Nat.shiftRight_eq_div_pow]; omega
  have hv : stored mem 0 2 &&& 0x7FFF = (mem.getD 1 0).toNat := by
    rw [mask15]; simp only [Nat.zero_add] at *; omega
  have ht' : ¬11 ≤ stored mem 2 2 := by unfold typeOf at ht; omega
  simp only [if_pos (by omega : 0 + 2 ≤ mem.length), if_pos hc, if_pos (by omega : 0 + 2 + 2 ≤ mem.length), Nat.zero_add,
    if_neg ht', if_pos (by omega : 2 + 2 + 1 ≤ mem.length), if_pos (by omega : 2 + 2 + 4 ≤ mem.length),
    if_pos (by omega : 2 + 2 + 4 + 4 ≤ mem.length), hv, Nat.reduceAdd, size_eq (by omega : 8 ≤ mem.length),
    mask31, typeOf]

/-- A control frame of unknown type. -/
theorem populate_unknown {Z : Type} {mem : Bytes} {length : Nat} {info : Info} {dec : Dec Z} (h0 : mem.getD 0 0 = 0x80) 
    (hl : 4 ≤ mem.length) (ht : 11 ≤ typeOf mem) :
    populate mem { read := 0, current := 0, length := length, info := info, dec := dec } =
      .ok ({ read := 2, current := 0, length := sub32 length 2,
             info := { info with dataOffset := (info.dataOffset + 2) % 2 ^ 32 }, dec := dec, error := some .invalidFrame }, none) := by
  unfold populate
  simp only [u16At_eq, u32At_eq, byteAt_eq, bind, Except.bind, pure, Except.pure]
  have s2 := stored2 (mem := mem) (i := 0) (by omega)
  rw [h0] at s2
  have hz : (0x80 : UInt8).toNat = 128 := rfl
  have hc : stored mem 0 2 >>> 15 ≠ 0 := by
    rw [Nat.shiftRight_eq_div_pow]; omega
  have ht' : 11 ≤ stored mem 2 2 := ht
  simp only [if_pos (by omega : 0 + 2 ≤ mem.length), if_pos hc, Nat.zero_add, if_pos (by omega : 2 + 2 ≤ mem.length), if_pos ht']

/-- A packet that is too short for its header. -/
theorem populate_short {Z : Type} {mem : Bytes} {length : Nat} {info : Info} {dec : Dec Z}
    (h : mem.length < 4 ∨ (mem.getD 0 0 = 0 ∧ mem.length < 8) ∨ (mem.getD 0 0 = 0x80 ∧ typeOf mem < 11 ∧ mem.length < 12)) :
    populate mem { read := 0, current := 0, length := length, info := info, dec := dec } = .error .outside := by
  unfold populate
  simp only [u16At_eq, u32At_eq, byteAt_eq, bind, Except.bind, pure, Except.pure, Nat.zero_add, Nat.reduceAdd]
  by_cases h2 : 2 ≤ mem.length
  · have s2 := stored2 (mem := mem) (i := 0) (by omega)
    have hb : (mem.getD (0 + 1) 0).toNat < 256 := toNat_lt _
    simp only [if_pos h2]
    by_cases h4 : 4 ≤ mem.length
    · simp only [if_pos h4]
      rcases h with h | ⟨h0, h⟩ | ⟨h0, ht, h⟩
      · omega
      · have hc : ¬(stored mem 0 2 >>> 15 ≠ 0) := by
          rw [h0] at s2; have hz : (0 : UInt8).toNat = 0 := rfl
          rw [Nat.shiftRight_eq_div_pow]; simp only [ne_eq, Decidable.not_not]; omega
        simp only [if_neg hc, if_neg (by omega : ¬8 ≤ mem.length)]
        by_cases h5 : 5 ≤ mem.length
        · simp only [if_pos h5]
        · simp only [if_neg h5]
      · have hc : stored mem 0 2 >>> 15 ≠ 0 := by
          rw [h0] at s2; have hz : (0x80 : UInt8).toNat = 128 := rfl
          rw [Nat.shiftRight_eq_div_pow]; omega
        have ht' : ¬11 ≤ stored mem 2 2 := by unfold typeOf at ht; omega
        simp only [if_pos hc, if_neg ht', if_neg (by omega : ¬12 ≤ mem.length)]
        by_cases h8 : 8 ≤ mem.length
        · simp only [if_pos h8, if_pos (by omega : 5 ≤ mem.length)]
        · simp only [if_neg h8]
          by_cases h5 : 5 ≤ mem.length
          · simp only [if_pos h5]
          · simp only [if_neg h5]
    · simp only [if_neg h4]
      split <;> rfl
  · simp only [if_neg h2]

theorem sub_sub2 {n : Nat} : sub32 (sub32 n 4) 4 = sub32 n 8 := by simp only [sub32]; omega
theorem sub_sub3 {n : Nat} : sub32 (sub32 (sub32 n 2) 2) 4 = sub32 n 8 := by simp only [sub32]; omega
theorem off2 {n : Nat} : ((n + 4) % 2 ^ 32 + 4) % 2 ^ 32 = (n + 8) % 2 ^ 32 := by omega
theorem off3 {n : Nat} : (((n + 2) % 2 ^ 32 + 2) % 2 ^ 32 + 4) % 2 ^ 32 = (n + 8) % 2 ^ 32 := by omega

end Verif.Lemmas.Spdy
