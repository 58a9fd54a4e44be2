import Verif.Lemmas.Base64Spec
/-
C01, C02, C03: base64.
-/
namespace Verif.Props.Base64
open Verif.Base64

/-- C01: decoding the encoding of any byte string succeeds and gives the string back,
    whatever the signedness of `char`. -/
theorem base64_roundtrip (charSigned : Bool) (x : Bytes) :
    decode charSigned (encode x) = .ok x := by
  simp [decode, decodeLoop_encode]

example : decode true (encode [0, 255, 128, 61, 10]) = .ok [0, 255, 128, 61, 10] := by decide +kernel

/-- C01: no two byte strings share an encoding. -/
theorem base64_encode_injective (x y : Bytes) (h : encode x = encode y) : x = y := by
  have hx := base64_roundtrip true x
  rw [h, base64_roundtrip true y] at hx
  exact (DecRes.ok.inj hx).symm

/-- C02: the encoder computes the RFC 4648 encoding of its input
    (bit string cut into 6-bit groups, alphabet, padding). -/
theorem base64_encode_is_rfc4648 (x : Bytes) : encode x = Verif.Spec.Base64.encode x :=
  encode_eq_spec x

example : encode (b! "Man") = b! "TWFu" ∧ encode (b! "Ma") = b! "TWE=" ∧ encode (b! "M") = b! "TQ==" := by
  decide +kernel

/-- C02: output length, and output shape: alphabet characters followed by exactly the number of
    padding characters that the input length demands. -/
theorem base64_encode_shape (x : Bytes) :
    (encode x).length = 4 * ((x.length + 2) / 3) ∧
    ∃ data, encode x = data ++ List.replicate ((3 - x.length % 3) % 3) (c! "=") ∧
      ∀ c ∈ data, c ∈ Verif.Spec.Base64.alphabet := by
  have hm : ∀ k : UInt8, k.toNat < 64 → enc k ∈ Verif.Spec.Base64.alphabet := enc_mem
  induction x using encode.induct with
  | case1 => exact ⟨rfl, [], rfl, by simp⟩
  | case2 a =>
    refine ⟨by simp [encode], [_, _], rfl, ?_⟩
    intro c hc
    simp only [List.mem_cons, List.not_mem_nil, or_false] at hc
    rcases hc with h | h <;> subst h
    · exact hm _ (q0 a)
    · exact hm _ (q1' a)
  | case3 a b =>
    refine ⟨by simp [encode], [_, _, _], rfl, ?_⟩
    intro c hc
    simp only [List.mem_cons, List.not_mem_nil, or_false] at hc
    rcases hc with h | h | h <;> subst h
    · exact hm _ (q0 a)
    · exact hm _ (q1 a b)
    · exact hm _ (q2' b)
  | case4 a b c rest ih =>
    obtain ⟨hl, data, hd, ha⟩ := ih
    constructor
    · simp only [encode, List.length_cons, hl]; omega
    · refine ⟨enc ((a >>> 2) &&& (0x3f : UInt8)) ::
        enc (((a <<< 4) &&& (0x3f : UInt8)) ||| ((b >>> 4) &&& (0x0f : UInt8))) ::
        enc (((b <<< 2) &&& (0x3f : UInt8)) ||| ((c >>> 6) &&& (0x03 : UInt8))) ::
        enc (c &&& (0x3f : UInt8)) :: data, ?_, ?_⟩
      · simp only [encode, hd, List.length_cons, Nat.add_assoc, Nat.add_mod_right, List.cons_append]
      · intro d hd'
        simp only [List.mem_cons] at hd'
        rcases hd' with h | h | h | h | h
        · subst h; exact hm _ (q0 a)
        · subst h; exact hm _ (q1 a b)
        · subst h; exact hm _ (q2 b c)
        · subst h; exact hm _ (q3 c)
        · exact ha d h

/-- C03, violated: with a signed `char` (x86) a first byte >= 0x80, which a client can send in an
    Authorization header, indexes the lookup table with a negative number. -/
theorem base64_decode_oob (c : UInt8) (h : 128 ≤ c.toNat) (rest : Bytes) :
    decode true (c :: rest) = .oob := by
  have : look true c = .oob := by
    have hneg : (c.toNat : Int) - 256 < 0 := by have := c.toNat_lt; omega
    simp [look, charToInt, h, hneg]
  simp [decode, decodeLoop, this]

example : decode true [0xff] = .oob := base64_decode_oob 0xff (by decide) []

/-- C03, violated: a client can also trip the `BOOST_ASSERT` on left-over bits ("YR=="). -/
theorem base64_decode_assert : decode true (b! "YR==") = .assertFail (b! "a") := by decide +kernel

/-- C03 (part that holds): on 7-bit input, or on a platform with unsigned `char`, the decoder never
    leaves its table and computes exactly the specified decoding: rejects when the text before the
    first '=' holds a byte outside the alphabet, when a group has a lone character or when padding is
    misplaced, and otherwise returns the decoded bytes. Missing for the full property: bytes >= 0x80
    with signed `char`, see `base64_decode_oob`. -/
theorem base64_decode_spec_partial (charSigned : Bool) (x : Bytes)
    (h7 : charSigned = true → ∀ c ∈ x, c.toNat < 128) :
    match decode charSigned x with
    | .ok out => Verif.Spec.Base64.decode x = some out
    | .assertFail out => Verif.Spec.Base64.decode x = some out
    | .fail => Verif.Spec.Base64.decode x = none
    | .oob => False := by
  have := decodeLoop_agree charSigned _ x (Nat.le_refl _) h7 []
  unfold decode
  revert this
  cases decodeLoop charSigned x [] with
  | ok o => rintro ⟨t, h, ho⟩; simp at ho; simp [h, ho]
  | assertFail o => rintro ⟨t, h, ho⟩; simp at ho; simp [h, ho]
  | fail => exact id
  | oob => exact id

example : decode true (b! "TWE=junk") = .ok (b! "Ma") ∧ decode true (b! "TW!u") = .fail ∧
    decode true (b! "T") = .fail ∧ decode true (b! "TWE") = .ok (b! "Ma") := by decide +kernel

theorem low4 : ∀ k : UInt8, k.toNat < 64 → (k &&& (0x0f : UInt8) = 0 ↔
    [k.toNat.testBit 3, k.toNat.testBit 2, k.toNat.testBit 1, k.toNat.testBit 0].any id = false) := by
  decide +kernel

theorem low2 : ∀ k : UInt8, k.toNat < 64 → (k &&& (0x03 : UInt8) = 0 ↔
    [k.toNat.testBit 1, k.toNat.testBit 0].any id = false) := by
  decide +kernel

open Verif.Spec.Base64 in
/-- Where the loop violates its assertions. -/
theorem decodeLoop_asserts (s : Bool) : ∀ (n : Nat) (x : Bytes), x.length ≤ n →
    (s = true → ∀ c ∈ x, c.toNat < 128) → ∀ out,
    ((∃ o, decodeLoop s x out = .assertFail o) ↔
      Verif.Spec.Base64.decode x ≠ none ∧ body x ≠ x ∧ (leftover (bitsBefore x)).any id = true) := by
  intro n
  induction n with
  | zero =>
    intro x hx _ out
    have : x = [] := by simpa using hx
    subst this
    simp [decodeLoop, body]
  | succ n ih =>
    intro x hx hs out
    match x with
    | [] => simp [decodeLoop, body]
    | c0 :: t0 =>
      have l0 := look_spec s c0 (fun h => hs h c0 (by simp))
      cases h0 : value? c0 with
      | none =>
        rw [h0] at l0
        simp only [decodeLoop, l0, spec_bad0 _ _ h0]
        simp
      | some v0 =>
        rw [h0] at l0
        have e0 := value_ne_pad h0
        have b0 := bits6_ofNat v0 (value_lt _ _ h0)
        match t0 with
        | [] =>
          simp only [decodeLoop, l0]
          simp [body, e0]
        | c1 :: t1 =>
          have l1 := look_spec s c1 (fun h => hs h c1 (by simp))
          cases h1 : value? c1 with
          | none =>
            rw [h1] at l1
            simp only [decodeLoop, l0, l1]
            by_cases e : c1 = c! "="
            · subst e; simp [Verif.Spec.Base64.decode, body, e0, h0]
            · simp [Verif.Spec.Base64.decode, body, e0, e, h0, h1]
          | some v1 =>
            rw [h1] at l1
            have e1 := value_ne_pad h1
            have v1lt := value_lt _ _ h1
            have b1 := bits6_ofNat v1 v1lt
            have k1 : (UInt8.ofNat v1).toNat < 64 := by simp; omega
            match t1 with
            | [] =>
              simp only [decodeLoop, l0, l1]
              simp [body, e0, e1]
            | c2 :: t2 =>
              have l2 := look_spec s c2 (fun h => hs h c2 (by simp))
              by_cases e2 : c2 = c! "="
              · have hd : Verif.Spec.Base64.decode (c0 :: c1 :: c2 :: t2) ≠ none := by
                  subst e2; simp [Verif.Spec.Base64.decode, body, e0, e1, h0, h1]
                have hb : body (c0 :: c1 :: c2 :: t2) = [c0, c1] := by subst e2; simp [body, e0, e1]
                have hl : leftover (bitsBefore (c0 :: c1 :: c2 :: t2)) =
                    [(UInt8.ofNat v1).toNat.testBit 3, (UInt8.ofNat v1).toNat.testBit 2, (UInt8.ofNat v1).toNat.testBit 1,
                      (UInt8.ofNat v1).toNat.testBit 0] := by
                  simp only [bitsBefore, hb, List.flatMap_cons, List.flatMap_nil, h0, h1, Option.getD_some]
                  simp only [b0, b1]
                  simp only [bits6, List.cons_append, List.nil_append, leftover]
                rw [hl, hb]
                simp only [decodeLoop, l0, l1, e2, if_true]
                by_cases hz : UInt8.ofNat v1 &&& (0x0f : UInt8) = 0
                · rw [if_pos hz, (low4 _ k1).mp hz]; simp
                · rw [if_neg hz]
                  have := Bool.eq_true_of_not_eq_false (fun g => hz ((low4 _ k1).mpr g))
                  rw [e2] at hd
                  rw [this]
                  simp [hd]
              · cases h2 : value? c2 with
                | none =>
                  rw [h2] at l2
                  simp only [decodeLoop, l0, l1, l2, if_neg e2]
                  simp [Verif.Spec.Base64.decode, body, e0, e1, e2, h0, h1, h2]
                | some v2 =>
                  rw [h2] at l2
                  have v2lt := value_lt _ _ h2
                  have b2 := bits6_ofNat v2 v2lt
                  have k2 : (UInt8.ofNat v2).toNat < 64 := by simp; omega
                  match t2 with
                  | [] =>
                    simp only [decodeLoop, l0, l1, l2, if_neg e2]
                    simp [body, e0, e1, e2]
                  | c3 :: t3 =>
                    have l3 := look_spec s c3 (fun h => hs h c3 (by simp))
                    by_cases e3 : c3 = c! "="
                    · have hd : Verif.Spec.Base64.decode (c0 :: c1 :: c2 :: c3 :: t3) ≠ none := by
                        subst e3; simp [Verif.Spec.Base64.decode, body, e0, e1, e2, h0, h1, h2]
                      have hb : body (c0 :: c1 :: c2 :: c3 :: t3) = [c0, c1, c2] := by subst e3; simp [body, e0, e1, e2]
                      have hl : leftover (bitsBefore (c0 :: c1 :: c2 :: c3 :: t3)) =
                          [(UInt8.ofNat v2).toNat.testBit 1, (UInt8.ofNat v2).toNat.testBit 0] := by
                        simp only [bitsBefore, hb, List.flatMap_cons, List.flatMap_nil, h0, h1, h2, Option.getD_some]
                        simp only [b0, b1, b2]
                        simp only [bits6, List.cons_append, List.nil_append, leftover]
                      rw [hl, hb]
                      simp only [decodeLoop, l0, l1, l2, if_neg e2, e3, if_true]
                      by_cases hz : UInt8.ofNat v2 &&& (0x03 : UInt8) = 0
                      · rw [if_pos hz, (low2 _ k2).mp hz]; simp
                      · rw [if_neg hz]
                        have := Bool.eq_true_of_not_eq_false (fun g => hz ((low2 _ k2).mpr g))
                        rw [e3] at hd
                        rw [this]
                        simp [hd]
                    · cases h3 : value? c3 with
                      | none =>
                        rw [h3] at l3
                        simp only [decodeLoop, l0, l1, l2, l3, if_neg e2, if_neg e3]
                        simp [Verif.Spec.Base64.decode, body, e0, e1, e2, e3, h0, h1, h2, h3]
                      | some v3 =>
                        rw [h3] at l3
                        simp only [decodeLoop, l0, l1, l2, l3, if_neg e2, if_neg e3]
                        rw [ih t3 (by simp at hx; omega) (fun h c hc => hs h c (by simp [hc]))]
                        have hb : body (c0 :: c1 :: c2 :: c3 :: t3) = c0 :: c1 :: c2 :: c3 :: body t3 := by
                          simp [body, e0, e1, e2, e3]
                        have hl : leftover (bitsBefore (c0 :: c1 :: c2 :: c3 :: t3)) = leftover (bitsBefore t3) := by
                          simp only [bitsBefore, hb, List.flatMap_cons, h0, h1, h2, h3, Option.getD_some,
                            bits6, List.cons_append, List.nil_append, leftover]
                        have hd : Verif.Spec.Base64.decode (c0 :: c1 :: c2 :: c3 :: t3) ≠ none ↔
                            Verif.Spec.Base64.decode t3 ≠ none := by
                          simp only [Verif.Spec.Base64.decode, hb]
                          have hm : (body t3).length + 1 + 1 + 1 + 1 = (body t3).length + 4 := rfl
                          simp only [List.all_cons, h0, h1, h2, h3, Option.isSome_some, Bool.true_and, List.length_cons, hm,
                            Nat.add_mod_right, ne_eq, List.cons.injEq, true_and]
                          split
                          · simp
                          · split
                            · simp
                            · split <;> simp
                        rw [hl, hd, hb]
                        simp

/-- C03: exactly which texts trip the assertions (7-bit input or unsigned `char`): those that decode, are padded, and whose
    bits after the last whole byte are not all zero. -/
theorem base64_decode_assert_iff (charSigned : Bool) (x out : Bytes)
    (h7 : charSigned = true → ∀ c ∈ x, c.toNat < 128) :
    decode charSigned x = .assertFail out ↔
      Verif.Spec.Base64.decode x = some out ∧ c! "=" ∈ x ∧
        (Verif.Spec.Base64.leftover (Verif.Spec.Base64.bitsBefore x)).any id = true := by
  have key := decodeLoop_asserts charSigned _ x (Nat.le_refl _) h7 []
  have spec := base64_decode_spec_partial charSigned x h7
  have hmem : Verif.Spec.Base64.body x ≠ x ↔ c! "=" ∈ x := by
    unfold Verif.Spec.Base64.body
    clear key spec h7
    induction x with
    | nil => simp
    | cons d x ih =>
      by_cases hd : d = c! "="
      · subst hd; simp
      · have hd' : c! "=" ≠ d := fun h => hd h.symm
        simp only [List.takeWhile_cons, bne_iff_ne, ne_eq, hd, not_false_eq_true, if_true, List.cons.injEq, true_and,
          List.mem_cons, hd', false_or]
        exact ih
  rw [hmem] at key
  constructor
  · intro h
    rw [h] at spec
    have := key.mp ⟨out, h⟩
    exact ⟨spec, this.2⟩
  · rintro ⟨hd, hp⟩
    obtain ⟨o, ho⟩ := key.mpr ⟨by rw [hd]; simp, hp⟩
    have ho' : decode charSigned x = .assertFail o := ho
    rw [ho'] at spec
    simp only at spec
    rw [hd] at spec
    rw [ho', Option.some.inj spec]

example : Verif.Spec.Base64.leftover (Verif.Spec.Base64.bitsBefore (b! "YR==")) = [false, false, false, true] ∧
    decode true (b! "YWJ=") = .assertFail (b! "ab") ∧ decode true (b! "YWI=") = .ok (b! "ab") := by decide +kernel

/-- C03 (part that holds): a byte outside the alphabet before the first '=' always makes decoding
    fail (7-bit input or unsigned `char`). -/
theorem base64_decode_rejects_partial (charSigned : Bool) (pre post : Bytes) (bad : UInt8)
    (h7 : charSigned = true → ∀ c ∈ pre ++ bad :: post, c.toNat < 128)
    (hp : ∀ c ∈ pre, c ≠ c! "=") (hb : bad ≠ c! "=") (hbad : bad ∉ Verif.Spec.Base64.alphabet) :
    decode charSigned (pre ++ bad :: post) = .fail := by
  have := base64_decode_spec_partial charSigned _ h7
  have hn : Verif.Spec.Base64.decode (pre ++ bad :: post) = none := by
    have hbody : bad ∈ Verif.Spec.Base64.body (pre ++ bad :: post) := by
      have hpre : ∀ l : Bytes, (∀ c ∈ l, c ≠ c! "=") →
          bad ∈ (l ++ bad :: post).takeWhile (· != c! "=") := by
        intro l
        induction l with
        | nil => intro _; simp [hb]
        | cons d l ih =>
          intro h
          have hd : d ≠ c! "=" := h d (by simp)
          simp only [List.cons_append, List.takeWhile_cons, bne_iff_ne, ne_eq, hd, not_false_eq_true,
            if_true, List.mem_cons]
          exact Or.inr (ih (fun c hc => h c (by simp [hc])))
      exact hpre pre hp
    have hv : Verif.Spec.Base64.value? bad = none := by
      simpa [Verif.Spec.Base64.value?, List.idxOf?_eq_none_iff] using hbad
    have hall : (Verif.Spec.Base64.body (pre ++ bad :: post)).all
        (fun c => (Verif.Spec.Base64.value? c).isSome) = false := by
      rw [List.all_eq_false]; exact ⟨bad, hbody, by simp [hv]⟩
    simp only [Verif.Spec.Base64.decode, hall, if_true]
  revert this
  cases decode charSigned (pre ++ bad :: post) with
  | ok o => simp [hn]
  | assertFail o => simp [hn]
  | fail => simp
  | oob => simp

example : decode true (b! "TW" ++ c! "-" :: b! "u=") = .fail :=
  base64_decode_rejects_partial true _ _ _ (by decide +kernel) (by decide +kernel) (by decide +kernel) (by decide +kernel)

end Verif.Props.Base64
