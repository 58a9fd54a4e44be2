import Verif.Lemmas.Base64
import Verif.Spec.Base64
namespace Verif.Base64
open Verif.Spec.Base64 (bitsOf numOf sextets octets bits6 value? body alphabet padCount)

theorem tb (x : UInt8) (i : Nat) : x.toNat.testBit i = x.toBitVec.getLsbD i := by
  simp [BitVec.getLsbD]

theorem num6 : ∀ x : UInt8, x.toNat < 64 →
    numOf [x.toNat.testBit 5, x.toNat.testBit 4, x.toNat.testBit 3, x.toNat.testBit 2,
      x.toNat.testBit 1, x.toNat.testBit 0] = x.toNat := by decide +kernel

theorem num8 : ∀ x : UInt8,
    numOf [x.toNat.testBit 7, x.toNat.testBit 6, x.toNat.testBit 5, x.toNat.testBit 4, x.toNat.testBit 3,
      x.toNat.testBit 2, x.toNat.testBit 1, x.toNat.testBit 0] = x.toNat := by decide +kernel

theorem enc_eq (x : UInt8) : enc x = alphabet.getD x.toNat 0 := by
  simp [enc, alphabet, encodingData]

section encode
variable (a b c : UInt8)
theorem s0 : numOf [a.toNat.testBit 7, a.toNat.testBit 6, a.toNat.testBit 5, a.toNat.testBit 4,
    a.toNat.testBit 3, a.toNat.testBit 2] = ((a >>> 2) &&& (0x3f : UInt8)).toNat := by
  rw [← num6 _ (q0 a)]; simp only [tb]; simp
theorem s1 : numOf [a.toNat.testBit 1, a.toNat.testBit 0, b.toNat.testBit 7, b.toNat.testBit 6,
    b.toNat.testBit 5, b.toNat.testBit 4] =
    (((a <<< 4) &&& (0x3f : UInt8)) ||| ((b >>> 4) &&& (0x0f : UInt8))).toNat := by
  rw [← num6 _ (q1 a b)]; simp only [tb]; simp
theorem s1' : numOf [a.toNat.testBit 1, a.toNat.testBit 0, false, false, false, false] =
    ((a <<< 4) &&& (0x3f : UInt8)).toNat := by
  rw [← num6 _ (q1' a)]; simp only [tb]; simp
theorem s2 : numOf [b.toNat.testBit 3, b.toNat.testBit 2, b.toNat.testBit 1, b.toNat.testBit 0,
    c.toNat.testBit 7, c.toNat.testBit 6] =
    (((b <<< 2) &&& (0x3f : UInt8)) ||| ((c >>> 6) &&& (0x03 : UInt8))).toNat := by
  rw [← num6 _ (q2 b c)]; simp only [tb]; simp
theorem s2' : numOf [b.toNat.testBit 3, b.toNat.testBit 2, b.toNat.testBit 1, b.toNat.testBit 0,
    false, false] = ((b <<< 2) &&& (0x3f : UInt8)).toNat := by
  rw [← num6 _ (q2' b)]; simp only [tb]; simp
theorem s3 : numOf [c.toNat.testBit 5, c.toNat.testBit 4, c.toNat.testBit 3, c.toNat.testBit 2,
    c.toNat.testBit 1, c.toNat.testBit 0] = (c &&& (0x3f : UInt8)).toNat := by
  rw [← num6 _ (q3 c)]; simp only [tb]; simp
end encode

theorem pad_add3 (n : Nat) : padCount (n + 3) = padCount n := by simp [padCount]

theorem encode_eq_spec (x : Bytes) : encode x = Verif.Spec.Base64.encode x := by
  induction x using encode.induct with
  | case1 => rfl
  | case2 a =>
    simp only [encode, Verif.Spec.Base64.encode, List.flatMap_cons, List.flatMap_nil, bitsOf,
      List.append_nil, sextets, enc_eq]
    simp only [List.replicate, List.cons_append, List.nil_append, List.take, List.map, s0, s1']
    simp [padCount, List.replicate]
  | case3 a b =>
    simp only [encode, Verif.Spec.Base64.encode, List.flatMap_cons, List.flatMap_nil, bitsOf,
      List.append_nil, List.cons_append, List.nil_append, sextets, enc_eq]
    simp only [List.replicate, List.cons_append, List.nil_append, List.take, List.map, s0, s1, s2']
    simp [padCount]
  | case4 a b c rest ih =>
    simp only [encode, ih]
    simp only [Verif.Spec.Base64.encode, List.flatMap_cons, bitsOf,
      List.cons_append, List.nil_append, sextets, enc_eq, List.map, s0, s1, s2, s3, List.length_cons,
      pad_add3]

/-! Decoder. -/

theorem look_spec (s : Bool) : ∀ c : UInt8, (s = true → c.toNat < 128) →
    look s c = match value? c with | none => .nop | some v => .code (UInt8.ofNat v) := by
  cases s <;> decide +kernel

theorem value_lt : ∀ c : UInt8, ∀ v, value? c = some v → v < 64 := by
  intro c v h
  have := List.idxOf?_eq_some_iff.mp h
  obtain ⟨h, _⟩ := this
  have : alphabet.length = 64 := by decide +kernel
  omega

theorem value_pad : value? (c! "=") = none := by decide +kernel

theorem bits6_ofNat (v : Nat) (h : v < 64) :
    bits6 v = bits6 (UInt8.ofNat v).toNat := by
  have : (UInt8.ofNat v).toNat = v := by simp; omega
  rw [this]

section decode
variable (k0 k1 k2 k3 : UInt8)
theorem o0 :
    UInt8.ofNat (numOf [k0.toNat.testBit 5, k0.toNat.testBit 4, k0.toNat.testBit 3, k0.toNat.testBit 2,
      k0.toNat.testBit 1, k0.toNat.testBit 0, k1.toNat.testBit 5, k1.toNat.testBit 4]) =
      (k0 <<< 2) ||| ((k1 >>> 4) &&& (0x3 : UInt8)) := by
  have := num8 ((k0 <<< 2) ||| ((k1 >>> 4) &&& (0x3 : UInt8)))
  rw [← UInt8.ofNat_toNat (x := (k0 <<< 2) ||| ((k1 >>> 4) &&& (0x3 : UInt8))), ← this]
  simp only [tb]; simp
theorem o1 :
    UInt8.ofNat (numOf [k1.toNat.testBit 3, k1.toNat.testBit 2,
      k1.toNat.testBit 1, k1.toNat.testBit 0, k2.toNat.testBit 5, k2.toNat.testBit 4,
      k2.toNat.testBit 3, k2.toNat.testBit 2]) =
      ((k1 <<< 4) &&& (0xf0 : UInt8)) ||| ((k2 >>> 2) &&& (0x0f : UInt8)) := by
  have := num8 (((k1 <<< 4) &&& (0xf0 : UInt8)) ||| ((k2 >>> 2) &&& (0x0f : UInt8)))
  rw [← UInt8.ofNat_toNat (x := ((k1 <<< 4) &&& (0xf0 : UInt8)) ||| ((k2 >>> 2) &&& (0x0f : UInt8))), ← this]
  simp only [tb]; simp
theorem o2 (h3 : k3.toNat < 64) :
    UInt8.ofNat (numOf [k2.toNat.testBit 1, k2.toNat.testBit 0, k3.toNat.testBit 5, k3.toNat.testBit 4,
      k3.toNat.testBit 3, k3.toNat.testBit 2, k3.toNat.testBit 1, k3.toNat.testBit 0]) =
      ((k2 <<< 6) &&& (0xc0 : UInt8)) ||| k3 := by
  have := num8 (((k2 <<< 6) &&& (0xc0 : UInt8)) ||| k3)
  rw [← UInt8.ofNat_toNat (x := ((k2 <<< 6) &&& (0xc0 : UInt8)) ||| k3), ← this]
  have h6 : k3.toBitVec.getLsbD 6 = false := by rw [← tb]; exact Nat.testBit_lt_two_pow (by omega)
  have h7 : k3.toBitVec.getLsbD 7 = false := by rw [← tb]; exact Nat.testBit_lt_two_pow (by omega)
  simp only [tb]; simp [BitVec.getLsbD_eq_getElem] at h6 h7 ⊢; simp [h6, h7]
end decode

/-- How a decoder outcome compares with the specified outcome. -/
def Agree (r : DecRes) (out : Bytes) (sp : Option Bytes) : Prop :=
  match r with
  | .ok o => ∃ t, sp = some t ∧ o = out ++ t
  | .assertFail o => ∃ t, sp = some t ∧ o = out ++ t
  | .fail => sp = none
  | .oob => False

theorem value_ne_pad {c : UInt8} {v : Nat} (h : value? c = some v) : c ≠ c! "=" := by
  intro e; subst e; rw [value_pad] at h; cases h

theorem spec_bad0 (c : UInt8) (r : Bytes) (h : value? c = none) :
    Verif.Spec.Base64.decode (c :: r) = none := by
  by_cases e : c = c! "="
  · subst e; simp [Verif.Spec.Base64.decode, body]
  · simp [Verif.Spec.Base64.decode, body, e, h]

theorem decodeLoop_agree (s : Bool) : ∀ (n : Nat) (x : Bytes), x.length ≤ n →
    (s = true → ∀ c ∈ x, c.toNat < 128) → ∀ out,
    Agree (decodeLoop s x out) out (Verif.Spec.Base64.decode x) := by
  intro n
  induction n with
  | zero =>
    intro x hx _ out
    have : x = [] := by simpa using hx
    subst this
    simp [decodeLoop, Agree, Verif.Spec.Base64.decode, body, octets]
  | succ n ih =>
    intro x hx hs out
    match x with
    | [] => simp [decodeLoop, Agree, Verif.Spec.Base64.decode, body, octets]
    | c0 :: t0 =>
      have l0 := look_spec s c0 (fun h => hs h c0 (by simp))
      cases h0 : value? c0 with
      | none =>
        rw [h0] at l0
        simp only [decodeLoop, l0, Agree]
        exact spec_bad0 _ _ h0
      | some v0 =>
        rw [h0] at l0
        have e0 := value_ne_pad h0
        have b0 := bits6_ofNat v0 (value_lt _ _ h0)
        match t0 with
        | [] =>
          simp only [decodeLoop, l0, Agree]
          simp [Verif.Spec.Base64.decode, body, e0, h0]
        | c1 :: t1 =>
          have l1 := look_spec s c1 (fun h => hs h c1 (by simp))
          cases h1 : value? c1 with
          | none =>
            rw [h1] at l1
            simp only [decodeLoop, l0, l1, Agree]
            by_cases e : c1 = c! "="
            · subst e; simp [Verif.Spec.Base64.decode, body, e0, h0]
            · simp [Verif.Spec.Base64.decode, body, e0, e, h0, h1]
          | some v1 =>
            rw [h1] at l1
            have e1 := value_ne_pad h1
            have b1 := bits6_ofNat v1 (value_lt _ _ h1)
            match t1 with
            | [] =>
              simp only [decodeLoop, l0, l1, Agree]
              refine ⟨[_], ?_, rfl⟩
              simp [Verif.Spec.Base64.decode, body, e0, e1, h0, h1]
              simp only [b0, b1]
              simp only [bits6, List.cons_append, List.nil_append, octets, o0]
            | c2 :: t2 =>
              have l2 := look_spec s c2 (fun h => hs h c2 (by simp))
              by_cases e2 : c2 = c! "="
              · have : Verif.Spec.Base64.decode (c0 :: c1 :: c2 :: t2) =
                    some [(UInt8.ofNat v0 <<< 2) ||| ((UInt8.ofNat v1 >>> 4) &&& (0x3 : UInt8))] := by
                  subst e2
                  simp [Verif.Spec.Base64.decode, body, e0, e1, h0, h1]
                  simp only [b0, b1]
                  simp only [bits6, List.cons_append, List.nil_append, octets, o0]
                simp only [decodeLoop, l0, l1, e2, if_true]
                split
                · exact ⟨_, by rw [← e2]; exact this, rfl⟩
                · exact ⟨_, by rw [← e2]; exact this, rfl⟩
              · cases h2 : value? c2 with
                | none =>
                  rw [h2] at l2
                  simp only [decodeLoop, l0, l1, l2, if_neg e2, Agree]
                  simp [Verif.Spec.Base64.decode, body, e0, e1, e2, h0, h1, h2]
                | some v2 =>
                  rw [h2] at l2
                  have b2 := bits6_ofNat v2 (value_lt _ _ h2)
                  match t2 with
                  | [] =>
                    simp only [decodeLoop, l0, l1, l2, if_neg e2, Agree]
                    refine ⟨[_, _], ?_, by simp [List.append_assoc]; exact ⟨rfl, rfl⟩⟩
                    simp [Verif.Spec.Base64.decode, body, e0, e1, e2, h0, h1, h2]
                    simp only [b0, b1, b2]
                    simp only [bits6, List.cons_append, List.nil_append, octets, o0, o1]
                  | c3 :: t3 =>
                    have l3 := look_spec s c3 (fun h => hs h c3 (by simp))
                    by_cases e3 : c3 = c! "="
                    · have : Verif.Spec.Base64.decode (c0 :: c1 :: c2 :: c3 :: t3) =
                          some [(UInt8.ofNat v0 <<< 2) ||| ((UInt8.ofNat v1 >>> 4) &&& (0x3 : UInt8)),
                            ((UInt8.ofNat v1 <<< 4) &&& (0xf0 : UInt8)) |||
                              ((UInt8.ofNat v2 >>> 2) &&& (0x0f : UInt8))] := by
                        subst e3
                        simp [Verif.Spec.Base64.decode, body, e0, e1, e2, h0, h1, h2]
                        simp only [b0, b1, b2]
                        simp only [bits6, List.cons_append, List.nil_append, octets, o0, o1]
                      simp only [decodeLoop, l0, l1, l2, if_neg e2, e3, if_true]
                      split
                      · exact ⟨_, by rw [← e3]; exact this, by simp⟩
                      · exact ⟨_, by rw [← e3]; exact this, by simp⟩
                    · cases h3 : value? c3 with
                      | none =>
                        rw [h3] at l3
                        simp only [decodeLoop, l0, l1, l2, l3, if_neg e2, if_neg e3, Agree]
                        simp [Verif.Spec.Base64.decode, body, e0, e1, e2, e3, h0, h1, h2, h3]
                      | some v3 =>
                        rw [h3] at l3
                        have v3lt := value_lt _ _ h3
                        have b3 := bits6_ofNat v3 v3lt
                        have k3 : (UInt8.ofNat v3).toNat < 64 := by simp; omega
                        simp only [decodeLoop, l0, l1, l2, l3, if_neg e2, if_neg e3]
                        have key : Verif.Spec.Base64.decode (c0 :: c1 :: c2 :: c3 :: t3) =
                            (Verif.Spec.Base64.decode t3).map (fun t =>
                              ((UInt8.ofNat v0 <<< 2) ||| ((UInt8.ofNat v1 >>> 4) &&& (0x3 : UInt8))) ::
                              (((UInt8.ofNat v1 <<< 4) &&& (0xf0 : UInt8)) |||
                                ((UInt8.ofNat v2 >>> 2) &&& (0x0f : UInt8))) ::
                              (((UInt8.ofNat v2 <<< 6) &&& (0xc0 : UInt8)) ||| UInt8.ofNat v3) :: t) := by
                          have hb : body (c0 :: c1 :: c2 :: c3 :: t3) = c0 :: c1 :: c2 :: c3 :: body t3 := by
                            simp [body, e0, e1, e2, e3]
                          simp only [Verif.Spec.Base64.decode, hb, List.all_cons, h0, h1, h2, h3,
                            Option.isSome_some, Bool.true_and, List.length_cons, ne_eq,
                            List.cons.injEq, true_and, Nat.add_assoc, Nat.add_mod_right]
                          split
                          · rfl
                          · split
                            · rfl
                            · split
                              · rfl
                              · simp only [List.flatMap_cons, h0, h1, h2, h3, Option.getD_some, b0, b1, b2, b3]
                                simp only [bits6, List.cons_append, List.nil_append, octets, o0, o1,
                                  o2 _ _ k3, Option.map_some]
                        have := ih t3 (by simp at hx; omega) (fun h c hc => hs h c (by simp [hc]))
                          (out ++ [(UInt8.ofNat v0 <<< 2) ||| ((UInt8.ofNat v1 >>> 4) &&& (0x3 : UInt8))] ++
                            [((UInt8.ofNat v1 <<< 4) &&& (0xf0 : UInt8)) |||
                              ((UInt8.ofNat v2 >>> 2) &&& (0x0f : UInt8))] ++
                            [((UInt8.ofNat v2 <<< 6) &&& (0xc0 : UInt8)) ||| UInt8.ofNat v3])
                        rw [key]
                        revert this
                        generalize decodeLoop s t3 _ = r
                        intro this
                        cases r with
                        | ok o =>
                          obtain ⟨t, h, ho⟩ := this
                          exact ⟨_, by rw [h]; rfl, by simp [ho]⟩
                        | assertFail o =>
                          obtain ⟨t, h, ho⟩ := this
                          exact ⟨_, by rw [h]; rfl, by simp [ho]⟩
                        | fail =>
                          have h : Verif.Spec.Base64.decode t3 = none := this
                          show Option.map _ _ = none
                          rw [h]; rfl
                        | oob => exact this

end Verif.Base64
