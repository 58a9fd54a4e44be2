import Verif.Model.DataUrl
import Verif.Lemmas.Base64
import Verif.Lemmas.Base64Spec
import Verif.Lemmas.Multipart
import Verif.Spec.DataUrl
import Mathlib.Data.Nat.Find
/-
The iterators behind `binary_2base64` and `base64_2binary`, group by group.
-/
namespace Verif.DataUrl
open Verif.Base64

/-! ### Bytes into six bits -/

theorem fillE0 {read : Nat → Except Stop UInt8} {p : Nat} {z a : UInt8} (h : read p = .ok a) :
    fill read 8 6 ⟨p, 0, z, false⟩ 6 0 = .ok ((a >>> 2) &&& (0x3f : UInt8), ⟨p + 1, 2, a, false⟩) := by
  simp [fill, h]

theorem fillE1 {read : Nat → Except Stop UInt8} {p : Nat} {a b : UInt8} (h : read p = .ok b) :
    fill read 8 6 ⟨p, 2, a, false⟩ 6 0 =
      .ok (((a <<< 4) &&& (0x3f : UInt8)) ||| ((b >>> 4) &&& (0x0f : UInt8)), ⟨p + 1, 4, b, false⟩) := by
  have : (((0 : UInt8) <<< 2 ||| a >>> 0 &&& (3 : UInt8)) <<< 4 ||| b >>> 4 &&& (15 : UInt8)) =
      ((a <<< 4) &&& (0x3f : UInt8)) ||| ((b >>> 4) &&& (0x0f : UInt8)) := by bits8
  rw [← this]
  simp [fill, h]

theorem fillE1' {read : Nat → Except Stop UInt8} {p : Nat} {a : UInt8} :
    fill read 8 6 ⟨p, 2, a, true⟩ 6 0 = .ok ((a <<< 4) &&& (0x3f : UInt8), ⟨p, 0, 0, true⟩) := by
  have : ((0 : UInt8) <<< 2 ||| a >>> 0 &&& (3 : UInt8)) <<< 4 = (a <<< 4) &&& (0x3f : UInt8) := by bits8
  rw [← this]
  simp [fill]

theorem fillE2 {read : Nat → Except Stop UInt8} {p : Nat} {b c : UInt8} (h : read p = .ok c) :
    fill read 8 6 ⟨p, 4, b, false⟩ 6 0 =
      .ok (((b <<< 2) &&& (0x3f : UInt8)) ||| ((c >>> 6) &&& (0x03 : UInt8)), ⟨p + 1, 6, c, false⟩) := by
  have : (((0 : UInt8) <<< 4 ||| b >>> 0 &&& (15 : UInt8)) <<< 2 ||| c >>> 6 &&& (3 : UInt8)) =
      ((b <<< 2) &&& (0x3f : UInt8)) ||| ((c >>> 6) &&& (0x03 : UInt8)) := by bits8
  rw [← this]
  simp [fill, h]

theorem fillE2' {read : Nat → Except Stop UInt8} {p : Nat} {b : UInt8} :
    fill read 8 6 ⟨p, 4, b, true⟩ 6 0 = .ok ((b <<< 2) &&& (0x3f : UInt8), ⟨p, 0, 0, true⟩) := by
  have : ((0 : UInt8) <<< 4 ||| b >>> 0 &&& (15 : UInt8)) <<< 2 = (b <<< 2) &&& (0x3f : UInt8) := by bits8
  rw [← this]
  simp [fill]

theorem fillE3 {read : Nat → Except Stop UInt8} {p : Nat} {c : UInt8} (e : Bool) :
    fill read 8 6 ⟨p, 6, c, e⟩ 6 0 = .ok (c &&& (0x3f : UInt8), ⟨p, 0, c, e⟩) := by
  simp [fill]

/-- The six-bit codes of some bytes. -/
def codes : Bytes → Bytes
  | [] => []
  | [a] => [(a >>> 2) &&& (0x3f : UInt8), (a <<< 4) &&& (0x3f : UInt8)]
  | [a, b] => [(a >>> 2) &&& (0x3f : UInt8), ((a <<< 4) &&& (0x3f : UInt8)) ||| ((b >>> 4) &&& (0x0f : UInt8)),
      (b <<< 2) &&& (0x3f : UInt8)]
  | a :: b :: c :: rest => ((a >>> 2) &&& (0x3f : UInt8)) ::
      (((a <<< 4) &&& (0x3f : UInt8)) ||| ((b >>> 4) &&& (0x0f : UInt8))) ::
      (((b <<< 2) &&& (0x3f : UInt8)) ||| ((c >>> 6) &&& (0x03 : UInt8))) :: (c &&& (0x3f : UInt8)) :: codes rest

/-- The padding after the text of `n` bytes. -/
def padding (n : Nat) : Bytes := match n % 3 with
  | 0 => []
  | 1 => b! "=="
  | _ => b! "="

theorem encode_codes (x : Bytes) : encode x = (codes x).map enc ++ padding x.length := by
  induction x using codes.induct with
  | case1 => rfl
  | case2 a => rfl
  | case3 a b => rfl
  | case4 a b c rest ih =>
    have : padding (rest.length + 1 + 1 + 1) = padding rest.length := by
      unfold padding; rw [show rest.length + 1 + 1 + 1 = rest.length + 3 from rfl, Nat.add_mod_right]
    simp only [encode, codes, List.map_cons, List.length_cons, List.cons_append, ih, this]

theorem copy_encode (x : Bytes) : ∀ (pre out : Bytes) (fuel : Nat) (z : UInt8), 2 * x.length + 2 ≤ fuel →
    copy (readBuf (pre ++ x)) 8 6 (pre ++ x).length fuel ⟨pre.length, 0, z, false⟩ out = .done (out ++ codes x) := by
  induction x using codes.induct with
  | case1 =>
    intro pre out fuel z hf
    obtain ⟨f, rfl⟩ : ∃ f, fuel = f + 1 := ⟨fuel - 1, by omega⟩
    simp [copy, atEnd, codes]
  | case2 a =>
    intro pre out fuel z hf
    simp only [List.length_cons, List.length_nil] at hf
    obtain ⟨f, rfl⟩ : ∃ f, fuel = f + 3 := ⟨fuel - 3, by omega⟩
    have r0 : readBuf (pre ++ [a]) pre.length = .ok a := by simp [readBuf]
    simp [copy, atEnd, fillE0 r0, fillE1', codes]
  | case3 a b =>
    intro pre out fuel z hf
    simp only [List.length_cons, List.length_nil] at hf
    obtain ⟨f, rfl⟩ : ∃ f, fuel = f + 4 := ⟨fuel - 4, by omega⟩
    have r0 : readBuf (pre ++ [a, b]) pre.length = .ok a := by simp [readBuf]
    have r1 : readBuf (pre ++ [a, b]) (pre.length + 1) = .ok b := by simp [readBuf]
    simp [copy, atEnd, fillE0 r0, fillE1 r1, fillE2', codes]
  | case4 a b c rest ih =>
    intro pre out fuel z hf
    simp only [List.length_cons] at hf
    obtain ⟨f, rfl⟩ : ∃ f, fuel = f + 4 := ⟨fuel - 4, by omega⟩
    have r0 : readBuf (pre ++ a :: b :: c :: rest) pre.length = .ok a := by simp [readBuf]
    have r1 : readBuf (pre ++ a :: b :: c :: rest) (pre.length + 1) = .ok b := by simp [readBuf]
    have r2 : readBuf (pre ++ a :: b :: c :: rest) (pre.length + 2) = .ok c := by simp [readBuf]
    have hne0 : pre.length ≠ (pre ++ a :: b :: c :: rest).length := by simp
    have hne1 : pre.length + 1 ≠ (pre ++ a :: b :: c :: rest).length := by simp
    have hne2 : pre.length + 1 + 1 ≠ (pre ++ a :: b :: c :: rest).length := by simp; omega
    have e := fun (e : Bool) => ih (pre ++ [a, b, c]) (out ++ [(a >>> 2) &&& (0x3f : UInt8),
      ((a <<< 4) &&& (0x3f : UInt8)) ||| ((b >>> 4) &&& (0x0f : UInt8)),
      ((b <<< 2) &&& (0x3f : UInt8)) ||| ((c >>> 6) &&& (0x03 : UInt8)), c &&& (0x3f : UInt8)]) f c (by omega)
    rw [copy, atEnd, if_neg (by decide), if_neg hne0]
    simp only [fillE0 r0]
    rw [copy, atEnd, if_neg (by decide), if_neg hne1]
    simp only [fillE1 r1]
    rw [copy, atEnd, if_neg (by decide), if_neg hne2]
    simp only [fillE2 r2]
    rw [copy, atEnd, if_neg (by decide)]
    by_cases hr : rest = []
    · subst hr
      rw [if_pos (by simp)]
      simp only [show ((6 : Nat) = 0) = False from by simp, decide_false, fillE3]
      obtain ⟨g, rfl⟩ : ∃ g, f = g + 1 := ⟨f - 1, by omega⟩
      simp [copy, atEnd, codes]
    · have hne3 : pre.length + 1 + 1 + 1 ≠ (pre ++ a :: b :: c :: rest).length := by
        have := List.length_pos_iff.2 hr
        simp; omega
      rw [if_neg hne3]
      simp only [fillE3]
      have e := e false
      simp only [List.append_assoc, List.cons_append, List.nil_append, List.length_append, List.length_cons,
        List.length_nil] at e ⊢
      simp only [codes]
      exact e

/-! ### Characters into bytes -/

theorem fillD0 {read : Nat → Except Stop UInt8} {p : Nat} {z a b : UInt8} (h0 : read p = .ok a) (h1 : read (p + 1) = .ok b) :
    fill read 6 8 ⟨p, 0, z, false⟩ 8 0 = .ok ((a <<< 2) ||| ((b >>> 4) &&& (0x3 : UInt8)), ⟨p + 2, 4, b, false⟩) := by
  have : (((0 : UInt8) <<< 6 ||| a >>> 0 &&& (63 : UInt8)) <<< 2 ||| b >>> 4 &&& (3 : UInt8)) =
      (a <<< 2) ||| ((b >>> 4) &&& (0x3 : UInt8)) := by bits8
  rw [← this]
  simp [fill, h0, h1]

theorem fillD0e {read : Nat → Except Stop UInt8} {p : Nat} {z a : UInt8} {e : Stop} (h0 : read p = .ok a)
    (h1 : read (p + 1) = .error e) : fill read 6 8 ⟨p, 0, z, false⟩ 8 0 = .error e := by
  simp [fill, h0, h1]

theorem fillDe {read : Nat → Except Stop UInt8} {p : Nat} {z : UInt8} {e : Stop} (h0 : read p = .error e) :
    fill read 6 8 ⟨p, 0, z, false⟩ 8 0 = .error e ∧ fill read 6 8 ⟨p, 4, z, false⟩ 8 0 = .error e ∧
      fill read 6 8 ⟨p, 2, z, false⟩ 8 0 = .error e := by
  simp [fill, h0]

theorem fillD1 {read : Nat → Except Stop UInt8} {p : Nat} {b c : UInt8} (h : read p = .ok c) :
    fill read 6 8 ⟨p, 4, b, false⟩ 8 0 =
      .ok (((b <<< 4) &&& (0xf0 : UInt8)) ||| ((c >>> 2) &&& (0x0f : UInt8)), ⟨p + 1, 2, c, false⟩) := by
  have : (((0 : UInt8) <<< 4 ||| b >>> 0 &&& (15 : UInt8)) <<< 4 ||| c >>> 2 &&& (15 : UInt8)) =
      ((b <<< 4) &&& (0xf0 : UInt8)) ||| ((c >>> 2) &&& (0x0f : UInt8)) := by bits8
  rw [← this]
  simp [fill, h]

theorem fillD2 {read : Nat → Except Stop UInt8} {p : Nat} {c d : UInt8} (h : read p = .ok d) (hd : d.toNat < 64) :
    fill read 6 8 ⟨p, 2, c, false⟩ 8 0 = .ok (((c <<< 6) &&& (0xc0 : UInt8)) ||| d, ⟨p + 1, 0, d, false⟩) := by
  have h6 : d &&& 63 = d := by
    have : ∀ x : UInt8, x.toNat < 64 → x &&& 63 = x := by decide +kernel
    exact this d hd
  have : (((0 : UInt8) <<< 2 ||| c >>> 0 &&& (3 : UInt8)) <<< 6 ||| d >>> 0 &&& (63 : UInt8)) =
      ((c <<< 6) &&& (0xc0 : UInt8)) ||| (d &&& 63) := by bits8
  rw [h6] at this
  rw [← this]
  simp [fill, h]

/-- The bytes of six-bit codes. -/
def bytesOf : Bytes → Bytes
  | [] => []
  | [_] => []
  | [k0, k1] => [(k0 <<< 2) ||| ((k1 >>> 4) &&& (0x3 : UInt8))]
  | [k0, k1, k2] => [(k0 <<< 2) ||| ((k1 >>> 4) &&& (0x3 : UInt8)),
      ((k1 <<< 4) &&& (0xf0 : UInt8)) ||| ((k2 >>> 2) &&& (0x0f : UInt8))]
  | k0 :: k1 :: k2 :: k3 :: r => ((k0 <<< 2) ||| ((k1 >>> 4) &&& (0x3 : UInt8))) ::
      (((k1 <<< 4) &&& (0xf0 : UInt8)) ||| ((k2 >>> 2) &&& (0x0f : UInt8))) ::
      (((k2 <<< 6) &&& (0xc0 : UInt8)) ||| k3) :: bytesOf r

theorem bytesOf_length (ks : Bytes) (h : ks.length % 4 ≠ 1) : (bytesOf ks).length = ks.length * 6 / 8 := by
  induction ks using bytesOf.induct with
  | case1 => rfl
  | case2 => simp at h
  | case3 => simp [bytesOf]
  | case4 => simp [bytesOf]
  | case5 k0 k1 k2 k3 r ih =>
    simp only [List.length_cons] at h
    simp only [bytesOf, List.length_cons, ih (by omega)]
    omega

theorem bytesOf_spec (ks : Bytes) (h : ∀ k ∈ ks, k.toNat < 64) :
    Spec.Base64.octets (ks.flatMap fun k => Spec.Base64.bits6 k.toNat) = bytesOf ks := by
  induction ks using bytesOf.induct with
  | case1 => rfl
  | case2 => rfl
  | case3 k0 k1 =>
    simp only [List.flatMap_cons, List.flatMap_nil, Spec.Base64.bits6, List.cons_append, List.nil_append, Spec.Base64.octets,
      bytesOf, o0]
  | case4 k0 k1 k2 =>
    simp only [List.flatMap_cons, List.flatMap_nil, Spec.Base64.bits6, List.cons_append, List.nil_append, Spec.Base64.octets,
      bytesOf, o0, o1]
  | case5 k0 k1 k2 k3 r ih =>
    have h3 : k3.toNat < 64 := h k3 (by simp)
    simp only [List.flatMap_cons, Spec.Base64.bits6, List.cons_append, List.nil_append, Spec.Base64.octets,
      bytesOf, o0, o1, o2 k2 k3 h3]
    have e := ih (fun k hk => h k (by simp [hk]))
    simp only [Spec.Base64.bits6] at e
    rw [e]

/-- Characters that can all be read. -/
theorem copy_decode (read : Nat → Except Stop UInt8) (last : Nat) (ks : Bytes) : ∀ (p : Nat) (out : Bytes) (fuel : Nat) (z : UInt8),
    (∀ i (h : i < ks.length), read (p + i) = .ok ks[i]) → (∀ k ∈ ks, k.toNat < 64) → ks.length % 4 ≠ 1 →
    last = p + ks.length → ks.length < fuel →
    copy read 6 8 last fuel ⟨p, 0, z, false⟩ out = .done (out ++ bytesOf ks) := by
  induction ks using bytesOf.induct with
  | case1 =>
    intro p out fuel z _ _ _ hl hf
    obtain ⟨f, rfl⟩ : ∃ f, fuel = f + 1 := ⟨fuel - 1, by simp at hf; omega⟩
    simp [copy, atEnd, hl, bytesOf]
  | case2 => intro _ _ _ _ _ _ h; simp at h
  | case3 k0 k1 =>
    intro p out fuel z hr _ _ hl hf
    simp only [List.length_cons, List.length_nil] at hf hl
    obtain ⟨f, rfl⟩ : ∃ f, fuel = f + 2 := ⟨fuel - 2, by omega⟩
    have r0 : read p = .ok k0 := hr 0 (by simp)
    have r1 : read (p + 1) = .ok k1 := hr 1 (by simp)
    subst hl
    simp [copy, atEnd, fillD0 r0 r1, bytesOf]
  | case4 k0 k1 k2 =>
    intro p out fuel z hr _ _ hl hf
    simp only [List.length_cons, List.length_nil] at hf hl
    obtain ⟨f, rfl⟩ : ∃ f, fuel = f + 3 := ⟨fuel - 3, by omega⟩
    have r0 : read p = .ok k0 := hr 0 (by simp)
    have r1 : read (p + 1) = .ok k1 := hr 1 (by simp)
    have r2 : read (p + 2) = .ok k2 := hr 2 (by simp)
    subst hl
    simp [copy, atEnd, fillD0 r0 r1, fillD1 r2, bytesOf]
  | case5 k0 k1 k2 k3 r ih =>
    intro p out fuel z hr hk h4 hl hf
    simp only [List.length_cons] at hf hl h4
    obtain ⟨f, rfl⟩ : ∃ f, fuel = f + 3 := ⟨fuel - 3, by omega⟩
    have r0 : read p = .ok k0 := hr 0 (by simp)
    have r1 : read (p + 1) = .ok k1 := hr 1 (by simp)
    have r2 : read (p + 2) = .ok k2 := hr 2 (by simp)
    have r3 : read (p + 3) = .ok k3 := hr 3 (by simp)
    have n0 : p ≠ last := by omega
    have n1 : p + 2 ≠ last := by omega
    have n2 : p + 2 + 1 ≠ last := by omega
    have e := ih (p + 4) (out ++ [(k0 <<< 2) ||| ((k1 >>> 4) &&& (0x3 : UInt8)),
      ((k1 <<< 4) &&& (0xf0 : UInt8)) ||| ((k2 >>> 2) &&& (0x0f : UInt8)), ((k2 <<< 6) &&& (0xc0 : UInt8)) ||| k3]) f k3
      (fun i hi => by
        have := hr (i + 4) (by simp; omega)
        rw [show p + 4 + i = p + (i + 4) from by omega, this]; rfl)
      (fun k hm => hk k (by simp [hm])) (by omega) (by omega) (by omega)
    simp only [copy, atEnd, show (6 : Nat) < 8 from by decide, if_true, n0, n1, n2, decide_false, fillD0 r0 r1, fillD1 r2,
      fillD2 r3 (hk k3 (by simp)), List.append_assoc, List.cons_append, List.nil_append, bytesOf]
    simp only [List.append_assoc, List.cons_append, List.nil_append] at e
    exact e

/-- A character that cannot be read, at the distance `u`, with no end of a byte at the end of the text before it. -/
theorem copy_throws (read : Nat → Except Stop UInt8) (last : Nat) (u : Nat) : ∀ (p : Nat) (out : Bytes) (fuel : Nat) (z : UInt8),
    (∀ i < u, ∃ k, read (p + i) = .ok k ∧ k.toNat < 64) → read (p + u) = .error .throws →
    (∀ q ≤ u, q % 4 ≠ 1 → p + q ≠ last) → u < fuel →
    ∃ w, copy read 6 8 last fuel ⟨p, 0, z, false⟩ out = .stopped .throws w ∧ w.length ≤ out.length + u := by
  induction u using Nat.strongRecOn with
  | ind u ih =>
    intro p out fuel z hr hu hq hf
    obtain ⟨f, rfl⟩ : ∃ f, fuel = f + 1 := ⟨fuel - 1, by omega⟩
    have n0 : p ≠ last := hq 0 (by omega) (by simp)
    match u, ih, hr, hu, hq, hf with
    | 0, _, hr, hu, hq, hf =>
      have hu : read p = .error .throws := hu
      exact ⟨out, by simp [copy, atEnd, n0, (fillDe (z := z) hu).1], by simp⟩
    | 1, _, hr, hu, hq, hf =>
      obtain ⟨k0, r0, _⟩ := hr 0 (by omega)
      have r0 : read p = .ok k0 := r0
      exact ⟨out, by simp [copy, atEnd, n0, fillD0e (z := z) r0 hu], by simp⟩
    | 2, _, hr, hu, hq, hf =>
      obtain ⟨k0, r0, _⟩ := hr 0 (by omega)
      have r0 : read p = .ok k0 := r0
      obtain ⟨k1, r1, _⟩ := hr 1 (by omega)
      obtain ⟨g, rfl⟩ : ∃ g, f = g + 1 := ⟨f - 1, by omega⟩
      have n1 : p + 2 ≠ last := hq 2 (by omega) (by simp)
      refine ⟨out ++ [(k0 <<< 2) ||| ((k1 >>> 4) &&& (0x3 : UInt8))], ?_, by simp⟩
      simp only [copy, atEnd, show (6 : Nat) < 8 from by decide, if_true, n0, n1, decide_false, fillD0 r0 r1, (fillDe hu).2.1]
    | 3, _, hr, hu, hq, hf =>
      obtain ⟨k0, r0, _⟩ := hr 0 (by omega)
      have r0 : read p = .ok k0 := r0
      obtain ⟨k1, r1, _⟩ := hr 1 (by omega)
      obtain ⟨k2, r2, _⟩ := hr 2 (by omega)
      obtain ⟨g, rfl⟩ : ∃ g, f = g + 2 := ⟨f - 2, by omega⟩
      have n1 : p + 2 ≠ last := hq 2 (by omega) (by simp)
      have n2 : p + 2 + 1 ≠ last := hq 3 (by omega) (by simp)
      refine ⟨(out ++ [(k0 <<< 2) ||| ((k1 >>> 4) &&& (0x3 : UInt8))]) ++
        [((k1 <<< 4) &&& (0xf0 : UInt8)) ||| ((k2 >>> 2) &&& (0x0f : UInt8))], ?_, by simp⟩
      simp only [copy, atEnd, show (6 : Nat) < 8 from by decide, if_true, n0, n1, n2, decide_false, fillD0 r0 r1, fillD1 r2,
        (fillDe (p := p + 2 + 1) hu).2.2]
    | v + 4, ih, hr, hu, hq, hf =>
      obtain ⟨k0, r0, _⟩ := hr 0 (by omega)
      have r0 : read p = .ok k0 := r0
      obtain ⟨k1, r1, _⟩ := hr 1 (by omega)
      obtain ⟨k2, r2, _⟩ := hr 2 (by omega)
      obtain ⟨k3, r3, h3⟩ := hr 3 (by omega)
      obtain ⟨g, rfl⟩ : ∃ g, f = g + 2 := ⟨f - 2, by omega⟩
      have n1 : p + 2 ≠ last := hq 2 (by omega) (by simp)
      have n2 : p + 2 + 1 ≠ last := hq 3 (by omega) (by simp)
      obtain ⟨w, e, hw⟩ := ih v (by omega) (p + 4) (((out ++ [(k0 <<< 2) ||| ((k1 >>> 4) &&& (0x3 : UInt8))]) ++
        [((k1 <<< 4) &&& (0xf0 : UInt8)) ||| ((k2 >>> 2) &&& (0x0f : UInt8))]) ++ [((k2 <<< 6) &&& (0xc0 : UInt8)) ||| k3]) g k3
        (fun i hi => by
          have := hr (i + 4) (by omega)
          rw [show p + 4 + i = p + (i + 4) from by omega]; exact this)
        (by rw [show p + 4 + v = p + (v + 4) from by omega]; exact hu)
        (fun q hq1 hq2 => by
          have := hq (q + 4) (by omega) (by omega)
          omega) (by omega)
      refine ⟨w, ?_, by simp at hw; omega⟩
      rw [← e]
      simp only [copy, atEnd, show (6 : Nat) < 8 from by decide, if_true, n0, n1, n2, decide_false, fillD0 r0 r1, fillD1 r2,
        fillD2 r3 h3]

end Verif.DataUrl
