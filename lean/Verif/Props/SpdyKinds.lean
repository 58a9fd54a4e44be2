import Verif.Props.SpdyFrames
/-
C50, continued. The functions with which a caller of the SPDY parser tells frames apart before parsing them.
-/
namespace Verif.Props.Spdy
open Verif.Spdy Verif.Spec.Spdy Verif.Lemmas.Spdy Verif.Spec.Endian

/-- **C50, the kind of a frame** is read off its first byte: 0x80 for control frames (2), 0 for data frames (1), and anything
    else is no frame (3). -/
theorem frame_kind (mem : Bytes) (h : 1 ≤ mem.length) :
    (frameType mem = .ok 2 ↔ mem.getD 0 0 = 0x80) ∧ (frameType mem = .ok 1 ↔ mem.getD 0 0 = 0) ∧
    (frameType mem = .ok 3 ↔ mem.getD 0 0 ≠ 0x80 ∧ mem.getD 0 0 ≠ 0) := by
  unfold frameType
  rw [byte0 h]
  simp only [bind, Except.bind, pure, Except.pure, Except.ok.injEq]
  by_cases h1 : mem.getD 0 0 = 0x80
  · rw [if_pos h1, h1]; decide
  · rw [if_neg h1]
    by_cases h2 : mem.getD 0 0 = 0
    · rw [if_pos h2, h2]; decide
    · rw [if_neg h2]
      exact ⟨⟨fun h => absurd h (by decide), fun h => absurd h h1⟩, ⟨fun h => absurd h (by decide), fun h => absurd h h2⟩, fun _ => ⟨h1, h2⟩, fun _ => rfl⟩

/-- Control frames are recognised. -/
theorem control_kind (v : UInt8) (t : Nat) (fl : UInt8) (p rest : Bytes) : frameType (controlFrame v t fl p ++ rest) = .ok 2 := by
  rw [controlFrame_cons]; rfl

/-- **C50, data frames are recognised** if the number of their stream is less than 2^24. -/
theorem data_kind_partial {id : Nat} (fl : UInt8) (p rest : Bytes) (h : id < 2 ^ 24) :
    frameType (dataFrame id fl p ++ rest) = .ok 1 := by
  rw [(frame_kind _ (by rw [dataFrame_cons]; simp)).2.1, dataFrame_cons]
  have : id / 65536 / 256 = 0 := by omega
  rw [this]; rfl

/-- Streams have 31 bit numbers (SPDY, 2.2.2); data frames of those from 2^24 on are taken for something else than SPDY. -/
theorem data_kind_violated {id : Nat} (fl : UInt8) (p rest : Bytes) (h : 2 ^ 24 ≤ id) (h' : id < 2 ^ 31) :
    frameType (dataFrame id fl p ++ rest) = .ok 3 := by
  rw [(frame_kind _ (by rw [dataFrame_cons]; simp)).2.2, dataFrame_cons]
  have e : ((UInt8.ofNat (id / 65536 / 256)).toNat) = id / 65536 / 256 := by simp; omega
  constructor
  · intro hc
    have hc : UInt8.ofNat (id / 65536 / 256) = 0x80 := hc
    rw [hc] at e
    have : (0x80 : UInt8).toNat = 128 := rfl
    omega
  · intro hc
    have hc : UInt8.ofNat (id / 65536 / 256) = 0 := hc
    rw [hc] at e
    have : (0 : UInt8).toNat = 0 := rfl
    omega

private theorem stored0 (mem : Bytes) (h : 2 ≤ mem.length) : stored mem 0 2 = 256 * (mem.getD 0 0).toNat + (mem.getD 1 0).toNat := by
  match mem, h with
  | a :: b :: r, _ =>
    simp only [stored, List.drop_zero, List.take_succ_cons, List.take_zero, List.map, beNat, List.foldl]
    change (0 * 256 + a.toNat) * 256 + b.toNat = 256 * a.toNat + b.toNat
    omega

/-- **C50, what is taken for a control frame**: 0x80, a version from 1 to 3, and a type less than 11. -/
theorem control_iff (mem : Bytes) (h : 4 ≤ mem.length) : isControl mem = .ok (decide (mem.getD 0 0 = 0x80 ∧
    1 ≤ (mem.getD 1 0).toNat ∧ (mem.getD 1 0).toNat ≤ 3 ∧ stored mem 2 2 < 11)) := by
  unfold isControl
  rw [u16At_eq, u16At_eq, if_pos (by omega), if_pos (by omega)]
  simp only [bind, Except.bind, pure, Except.pure, stored0 mem (by omega)]
  generalize hb : mem.getD 1 0 = b
  generalize ha : mem.getD 0 0 = a
  have la := a.toNat_lt
  have lb := b.toNat_lt
  have e1 : (256 * a.toNat + b.toNat) >>> 15 = (256 * a.toNat + b.toNat) / 32768 := by rw [Nat.shiftRight_eq_div_pow]
  have e2 : (256 * a.toNat + b.toNat) &&& 0x7FFF = (256 * a.toNat + b.toNat) % 32768 := Nat.and_two_pow_sub_one_eq_mod _ 15
  rw [e1, e2]
  have e3 : a = 0x80 ↔ a.toNat = 128 := ⟨fun h => by rw [h]; rfl, fun h => UInt8.toNat_inj.mp (by rw [h]; rfl)⟩
  split
  · rw [decide_eq_false (by rw [e3]; omega)]
  · split
    · rw [decide_eq_false (by rw [e3]; omega)]
    · congr 1
      rw [decide_eq_decide, e3]
      omega

/-- What is taken for a control frame has the kind of a control frame. -/
theorem control_has_kind (mem : Bytes) (h : 4 ≤ mem.length) (hc : isControl mem = .ok true) : frameType mem = .ok 2 := by
  rw [control_iff mem h] at hc
  simp only [Except.ok.injEq, decide_eq_true_eq] at hc
  exact (frame_kind mem (by omega)).1.mpr hc.1

/-- Control frames of the versions and types that there are, and no others, are taken for control frames. -/
theorem control_frame_iff (v : UInt8) {t : Nat} (ht : t < 65536) (fl : UInt8) (p rest : Bytes) :
    isControl (controlFrame v t fl p ++ rest) = .ok (decide (1 ≤ v.toNat ∧ v.toNat ≤ 3 ∧ t < 11)) := by
  rw [control_iff _ (by rw [controlFrame_cons]; simp), controlFrame_cons]
  have : stored (0x80 :: v :: UInt8.ofNat (t / 256) :: UInt8.ofNat t :: fl :: UInt8.ofNat (p.length / 65536) ::
      UInt8.ofNat (p.length / 256) :: UInt8.ofNat p.length :: (p ++ rest)) 2 2 = t := by
    simp only [stored, List.drop_succ_cons, List.drop_zero, List.take_succ_cons, List.take_zero, List.map, beNat, List.foldl, ofNat_toBitVec]
    omega
  rw [this]
  simp [List.getD]

/-- Data frames are not taken for control frames. -/
theorem data_not_control {id : Nat} (fl : UInt8) (p rest : Bytes) (h : id < 2 ^ 31) :
    isControl (dataFrame id fl p ++ rest) = .ok false := by
  rw [control_iff _ (by rw [dataFrame_cons]; simp), dataFrame_cons]
  have e : ((UInt8.ofNat (id / 65536 / 256)).toNat) = id / 65536 / 256 := by simp; omega
  rw [decide_eq_false]
  rintro ⟨hc, _⟩
  have hc : UInt8.ofNat (id / 65536 / 256) = 0x80 := hc
  rw [hc] at e
  have : (0x80 : UInt8).toNat = 128 := rfl
  omega

/-- **C50, the stream of a control frame** is the number of 31 bits at the beginning of its payload, whatever the bit before it. -/
theorem control_stream (v : UInt8) (t : Nat) (fl : UInt8) {id : Nat} (h : id < 2 ^ 32) (p rest : Bytes) :
    controlStreamId (controlFrame v t fl (be32 id ++ p) ++ rest) = .ok (id % 2 ^ 31) := by
  unfold controlStreamId
  rw [u32At_eq, controlFrame_cons, if_pos (by simp [be32, be16])]
  have : stored (0x80 :: v :: UInt8.ofNat (t / 256) :: UInt8.ofNat t :: fl :: UInt8.ofNat ((be32 id ++ p).length / 65536) ::
      UInt8.ofNat ((be32 id ++ p).length / 256) :: UInt8.ofNat (be32 id ++ p).length :: ((be32 id ++ p) ++ rest)) 8 4 = id := by
    simp only [stored, be32, be16, List.cons_append, List.nil_append, List.drop_succ_cons, List.drop_zero, List.take_succ_cons,
      List.take_zero, List.map, beNat, List.foldl, ofNat_toBitVec]
    omega
  simp only [bind, Except.bind, pure, Except.pure, this]
  congr 1
  exact Nat.and_two_pow_sub_one_eq_mod _ 31

-- frames and texts that are none
example : isControl (controlFrame 3 1 0 (be32 5 ++ [0, 0])) = .ok true ∧ isControl (controlFrame 0 1 0 (be32 5)) = .ok false ∧
    isControl (controlFrame 2 11 0 (be32 5)) = .ok false := by decide +kernel
example : controlStreamId (controlFrame 3 1 0 (be32 (2 ^ 31 + 5) ++ [0, 0])) = .ok 5 := by decide +kernel
example : frameType (b! "GET / HTTP/1.1") = .ok 3 := by decide +kernel

end Verif.Props.Spdy
