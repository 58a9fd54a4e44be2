import Verif.Spec.Ieee
import Mathlib.Tactic.Common
import Mathlib.Tactic.Linarith
import Mathlib.Tactic.FieldSimp
import Mathlib.Tactic.Ring
import Mathlib.Tactic.Positivity
import Mathlib.Algebra.Order.Field.Basic
/-
Lemmas for the floating point codecs: bit positions, buffers as bits.
-/
namespace Verif.FloatBytes
open Verif.Spec.Ieee

/-- The mask of bit `r` of a byte, counted from the most significant. -/
def maskOf (r : Nat) : UInt8 := UInt8.ofNat (2 ^ (7 - r))

/-- The position of bit `p` of a buffer. -/
def at_ (p : Nat) : Cur := ⟨p / 8, maskOf (p % 8)⟩

theorem shift_mask : ∀ r : Fin 8, (maskOf r &&& 0x01 ≠ 0 ↔ r = 7) ∧ (r ≠ 7 → maskOf r >>> 1 = maskOf (r + 1)) := by
  decide +kernel

theorem shift_at (p : Nat) : shift (at_ p) = at_ (p + 1) := by
  have hr : p % 8 < 8 := Nat.mod_lt _ (by decide)
  have := shift_mask ⟨p % 8, hr⟩
  unfold shift at_
  simp only at this ⊢
  by_cases h : p % 8 = 7
  · have h7 : (⟨p % 8, hr⟩ : Fin 8) = 7 := Fin.ext h
    rw [if_pos (this.1.2 h7)]
    rw [show (p + 1) / 8 = p / 8 + 1 by omega, show (p + 1) % 8 = 0 by omega]
    rfl
  · have h7 : (⟨p % 8, hr⟩ : Fin 8) ≠ 7 := fun e => h (congrArg Fin.val e)
    rw [if_neg (fun e => h7 (this.1.1 e)), this.2 h7]
    rw [show (p + 1) / 8 = p / 8 by omega, show (p + 1) % 8 = p % 8 + 1 by omega]

/-- Bit `i` of a buffer. -/
def bit (buf : Bytes) (i : Nat) : Bool := (buf.getD (i / 8) 0).toNat.testBit (7 - i % 8)

theorem mask_test (b : UInt8) (r : Fin 8) : (b &&& maskOf r != 0) = b.toNat.testBit (7 - r) := by
  revert b r; decide +kernel

theorem mask_set (b : UInt8) (r q : Fin 8) :
    (b ||| maskOf r).toNat.testBit (7 - q) = (b.toNat.testBit (7 - q) || decide (q = r)) := by
  revert b r q; decide +kernel

theorem test_at (buf : Bytes) (p : Nat) (h : p < 8 * buf.length) : test buf (at_ p) = some (bit buf p) := by
  have hp : p / 8 < buf.length := by omega
  unfold test bit at_
  simp only [List.getElem?_eq_getElem hp, Option.map_some, List.getD_eq_getElem?_getD, Option.getD_some]
  exact congrArg some (mask_test _ ⟨p % 8, Nat.mod_lt _ (by decide)⟩)

theorem setBit_at (buf : Bytes) (p : Nat) (h : p < 8 * buf.length) :
    ∃ buf', setBit buf (at_ p) = some buf' ∧ buf'.length = buf.length ∧ ∀ i, bit buf' i = (bit buf i || decide (i = p)) := by
  have hp : p / 8 < buf.length := by omega
  unfold setBit at_
  simp only [List.getElem?_eq_getElem hp, Option.map_some]
  refine ⟨_, rfl, by simp, fun i => ?_⟩
  unfold bit
  by_cases hi : i / 8 = p / 8
  · rw [hi]
    simp only [List.getD_eq_getElem?_getD, List.getElem?_set_self hp, Option.getD_some,
      List.getElem?_eq_getElem hp]
    have := mask_set buf[p / 8] ⟨p % 8, Nat.mod_lt _ (by decide)⟩ ⟨i % 8, Nat.mod_lt _ (by decide)⟩
    simp only at this
    rw [this]
    congr 1
    rw [decide_eq_decide, Fin.mk.injEq]
    omega
  · simp only [List.getD_eq_getElem?_getD, List.getElem?_set_ne (Ne.symm hi)]
    have : i ≠ p := fun e => hi (by rw [e])
    simp [this]

theorem bit_ext (a b : Bytes) (hl : a.length = b.length) (h : ∀ i < 8 * a.length, bit a i = bit b i) : a = b := by
  refine List.ext_getElem hl fun j h1 h2 => ?_
  apply UInt8.toNat_inj.1
  apply Nat.eq_of_testBit_eq
  intro i
  by_cases hi : i < 8
  · have := h (8 * j + (7 - i)) (by omega)
    unfold bit at this
    rw [show (8 * j + (7 - i)) / 8 = j by omega, show 7 - (8 * j + (7 - i)) % 8 = i by omega] at this
    simpa [List.getD_eq_getElem?_getD, h1, h2] using this
  · have e : ∀ x : UInt8, x.toNat.testBit i = false := fun x =>
      Nat.testBit_lt_two_pow (lt_of_lt_of_le x.toNat_lt (Nat.pow_le_pow_right (by decide) (Nat.not_lt.1 hi)))
    rw [e, e]

theorem length_beBytes (n N : Nat) : (beBytes n N).length = n := by
  induction n with
  | zero => rfl
  | succ n ih => simp [beBytes, ih]

theorem bit_beBytes (n N : Nat) : ∀ i < 8 * n, bit (beBytes n N) i = N.testBit (8 * n - 1 - i) := by
  induction n with
  | zero => intro i h; omega
  | succ n ih =>
    intro i hi
    unfold bit beBytes
    by_cases h : i < 8
    · rw [show i / 8 = 0 by omega, show i % 8 = i by omega]
      simp only [List.getD_cons_zero, UInt8.toNat_ofNat']
      rw [show (256 : Nat) ^ n = 2 ^ (8 * n) by rw [Nat.pow_mul], Nat.testBit_mod_two_pow, Nat.testBit_div_two_pow]
      rw [show (7 - i : Nat) + 8 * n = 8 * (n + 1) - 1 - i by omega]
      simp; omega
    · have := ih (i - 8) (by omega)
      unfold bit at this
      rw [show i / 8 = (i - 8) / 8 + 1 by omega, List.getD_cons_succ, show i % 8 = (i - 8) % 8 by omega, this]
      congr 1; omega

/-- The bits of the fields. -/
theorem bit_bytes (E F : Nat) (s : Bool) (e k : Nat) (h8 : (E + F + 1) % 8 = 0) (he : e < 2 ^ E) (hk : k < 2 ^ F)
    (i : Nat) (hi : i < E + F + 1) :
    bit (bytes E F s e k) i =
      if i = 0 then s else if i ≤ E then e.testBit (E - i) else k.testBit (E + F - i) := by
  unfold bytes
  rw [bit_beBytes _ _ i (by omega), show 8 * ((E + F + 1) / 8) - 1 - i = E + F - i by omega, Nat.mul_comm _ (2 ^ F),
    Nat.testBit_two_pow_mul_add _ hk, Nat.mul_comm _ (2 ^ E)]
  by_cases h0 : i = 0
  · subst h0
    rw [if_neg (by omega), if_pos rfl, Nat.testBit_two_pow_mul_add _ he, if_neg (by omega),
      show E + F - 0 - F - E = 0 by omega]
    cases s <;> rfl
  · rw [if_neg h0]
    by_cases h1 : i ≤ E
    · rw [if_neg (by omega), if_pos h1, Nat.testBit_two_pow_mul_add _ he, if_pos (by omega)]
      congr 1; omega
    · rw [if_pos (by omega), if_neg h1]

theorem length_bytes (E F : Nat) (s : Bool) (e k : Nat) : (bytes E F s e k).length = (E + F + 1) / 8 := length_beBytes _ _

/-! ### Decoding -/

theorem readExp_spec (buf : Bytes) (e : Nat) : ∀ (n p : Nat), p + n < 8 * buf.length →
    (∀ j < n, bit buf (p + 1 + j) = e.testBit (n - 1 - j)) → ∀ acc,
    readExp buf n (at_ p) acc = some (acc * 2 ^ n + e % 2 ^ n, at_ (p + n)) := by
  intro n
  induction n with
  | zero => intro p _ _ acc; simp [readExp, Nat.mod_one]
  | succ n ih =>
    intro p hp hb acc
    rw [readExp, shift_at, test_at buf (p + 1) (by omega)]
    simp only
    rw [ih (p + 1) (by omega) ?_ _]
    · have h0 := hb 0 (by omega)
      rw [Nat.add_zero, Nat.sub_zero, Nat.add_sub_cancel] at h0
      rw [h0, show p + 1 + n = p + (n + 1) by omega]
      congr 2
      rw [Nat.pow_succ, Nat.mod_mul, Nat.testBit_eq_decide_div_mod_eq]
      have : e / 2 ^ n % 2 < 2 := Nat.mod_lt _ (by decide)
      by_cases h : e / 2 ^ n % 2 = 1
      · simp [h]; ring
      · have h : e / 2 ^ n % 2 = 0 := by omega
        simp [h]; ring
    · intro j hj
      have := hb (j + 1) (by omega)
      rw [show p + 1 + (j + 1) = p + 1 + 1 + j by omega, show n + 1 - 1 - (j + 1) = n - 1 - j by omega] at this
      exact this

theorem readFrac_spec (buf : Bytes) (k : Nat) : ∀ (n p : Nat), p + n < 8 * buf.length →
    (∀ j < n, bit buf (p + 1 + j) = k.testBit (n - 1 - j)) → ∀ (sig v : ℚ),
    readFrac buf n (at_ p) sig v = some (sig + v * ((k % 2 ^ n : Nat) : ℚ) / 2 ^ n) := by
  intro n
  induction n with
  | zero => intro p _ _ sig v; simp [readFrac, Nat.mod_one]
  | succ n ih =>
    intro p hp hb sig v
    rw [readFrac, shift_at, test_at buf (p + 1) (by omega)]
    simp only
    rw [ih (p + 1) (by omega) ?_ _ _]
    · have h0 := hb 0 (by omega)
      rw [Nat.add_zero, Nat.sub_zero, Nat.add_sub_cancel] at h0
      rw [h0]
      congr 1
      rw [Nat.pow_succ, Nat.mod_mul, Nat.testBit_eq_decide_div_mod_eq]
      have : k / 2 ^ n % 2 < 2 := Nat.mod_lt _ (by decide)
      by_cases h : k / 2 ^ n % 2 = 1
      · simp [h]; field_simp; ring
      · have h : k / 2 ^ n % 2 = 0 := by omega
        simp [h]; field_simp; ring
    · intro j hj
      have := hb (j + 1) (by omega)
      rw [show p + 1 + (j + 1) = p + 1 + 1 + j by omega, show n + 1 - 1 - (j + 1) = n - 1 - j by omega] at this
      exact this

theorem pow2_eq (e : Int) : pow2 e = (2 : ℚ) ^ e := by
  unfold pow2
  split
  · rename_i h
    obtain ⟨n, rfl⟩ := Int.eq_ofNat_of_zero_le h
    simp
  · rename_i h
    obtain ⟨n, hn⟩ := Int.eq_ofNat_of_zero_le (show 0 ≤ -e by omega)
    rw [show e = -(n : Int) by omega]
    simp

/-- The decoder on every well-formed buffer. -/
theorem decode_bytes (E F : Nat) (s : Bool) (e k : Nat) (h8 : (E + F + 1) % 8 = 0) (he : e < 2 ^ E)
    (hk : k < 2 ^ F) :
    decode E F (bytes E F s e k) =
      some (.fin s (((if e ≠ 0 then 1 else 0) + (k : ℚ) / 2 ^ F) * (2 : ℚ) ^ ((e : Int) - bias E))) := by
  have hl : 8 * (bytes E F s e k).length = E + F + 1 := by rw [length_bytes]; omega
  have hbit := bit_bytes E F s e k h8 he hk
  unfold decode
  rw [show (⟨0, 0x80⟩ : Cur) = at_ 0 by decide, test_at _ 0 (by omega)]
  simp only
  rw [readExp_spec _ e E 0 (by omega) (by
    intro j hj
    rw [hbit _ (by omega), if_neg (by omega), if_pos (by omega)]
    congr 1; omega) 0]
  simp only [Nat.zero_mul, Nat.zero_add, Nat.mod_eq_of_lt he]
  rw [readFrac_spec _ k F E (by omega) (by
    intro j hj
    rw [hbit _ (by omega), if_neg (by omega), if_neg (by omega)]
    congr 1; omega) _ _]
  rw [Nat.mod_eq_of_lt hk, hbit 0 (by omega), if_pos rfl, Option.map_some, pow2_eq, one_mul]
  unfold bias
  congr 5

/-! ### Encoding -/

theorem skipExp_at (fuel : Nat) : ∀ (n p : Nat), n ≤ fuel → skipExp fuel n (at_ p) = at_ (p + n) := by
  induction fuel with
  | zero => intro n p h; rw [Nat.le_zero.1 h]; rfl
  | succ fuel ih =>
    intro n p h
    cases n with
    | zero => rfl
    | succ n =>
      rw [skipExp]
      split
      · rename_i h8
        rw [show (⟨(at_ p).ptr + 1, (at_ p).mask⟩ : Cur) = at_ (p + 8) by
          unfold at_; simp only; rw [show (p + 8) / 8 = p / 8 + 1 by omega, show (p + 8) % 8 = p % 8 by omega]]
        rw [ih _ _ (by omega)]
        congr 1; omega
      · rw [shift_at, ih _ _ (by omega)]
        congr 1; omega

theorem ge1_fin (x : ℚ) : (LD.fin false x).ge1 = decide (1 ≤ x) := rfl

theorem scaleDown_lt (fuel : Nat) (x : ℚ) (e : Int) (h : x < 1) :
    scaleDown (fuel + 1) (.fin false x) e = some (.fin false x, e) := by
  rw [scaleDown, ge1_fin, decide_eq_false (not_le.2 h)]; rfl

theorem scaleDown_ge (m : ℚ) (h1 : 1 ≤ m) (h2 : m < 2) : ∀ (z fuel : Nat) (e : Int), z + 2 ≤ fuel →
    scaleDown fuel (.fin false (m * 2 ^ z)) e = some (.fin false (m / 2), e + z + 1) := by
  intro z
  induction z with
  | zero =>
    intro fuel e h
    obtain ⟨fuel, rfl⟩ : ∃ f, fuel = f + 2 := ⟨fuel - 2, by omega⟩
    rw [pow_zero, mul_one, scaleDown, ge1_fin, decide_eq_true h1, if_pos rfl]
    change scaleDown (fuel + 1) (.fin false (m / 2)) (e + 1) = _
    rw [scaleDown_lt _ _ _ (by linarith)]
    simp
  | succ z ih =>
    intro fuel e h
    obtain ⟨fuel, rfl⟩ : ∃ f, fuel = f + 1 := ⟨fuel - 1, by omega⟩
    have hp : (1 : ℚ) ≤ 2 ^ (z + 1) := one_le_pow₀ (by norm_num)
    rw [scaleDown, ge1_fin, decide_eq_true (by nlinarith), if_pos rfl]
    change scaleDown fuel (.fin false (m * 2 ^ (z + 1) / 2)) (e + 1) = _
    rw [show m * 2 ^ (z + 1) / 2 = m * 2 ^ z by rw [pow_succ]; ring, ih fuel _ (by omega)]
    push_cast; congr 2; ring

/-- The loop until the exponent is known. -/
theorem fracLoop_exp (F : Nat) (hF : 0 < F) (m : ℚ) (h1 : 1 ≤ m) (h2 : m < 2) : ∀ (y : Nat) (fuel : Nat) (s : St),
    s.got = false → s.bits = 0 → s.value = .fin false (m / 2 ^ (y + 1)) →
    fracLoop F (fuel + (y + 1)) s =
      fracLoop F fuel { s with value := .fin false (m - 1), exponent := s.exponent - (y + 1), got := true } := by
  intro y
  induction y with
  | zero =>
    intro fuel s hg hb hv
    rw [show fuel + (0 + 1) = fuel + 1 by rfl, fracLoop, hv, hg, hb]
    have : m / 2 ^ (0 + 1) ≠ 0 := by
      have : 0 < m := by linarith
      positivity
    rw [show (LD.fin false (m / 2 ^ (0 + 1))).nonzero = true by simp [LD.nonzero]; linarith, decide_eq_true hF]
    simp only [Bool.and_self, if_true]
    unfold fracExp
    rw [show (LD.fin false (m / 2 ^ (0 + 1))).double = .fin false m by simp [LD.double]]
    simp only [ge1_fin, decide_eq_true h1, if_true]
    simp [LD.pred]
  | succ y ih =>
    intro fuel s hg hb hv
    have hm : 0 < m := by linarith
    have hpos : 0 < m / 2 ^ (y + 1 + 1) := by positivity
    rw [show fuel + (y + 1 + 1) = (fuel + (y + 1)) + 1 by rfl, fracLoop, hv, hg, hb]
    rw [show (LD.fin false (m / 2 ^ (y + 1 + 1))).nonzero = true by simp [LD.nonzero]; linarith, decide_eq_true hF]
    simp only [Bool.and_self, if_true]
    have hd : (LD.fin false (m / 2 ^ (y + 1 + 1))).double = .fin false (m / 2 ^ (y + 1)) := by
      simp only [LD.double]; congr 1; rw [pow_succ _ (y + 1)]; field_simp
    have hlt : m / 2 ^ (y + 1) < 1 := by
      rw [div_lt_one (by positivity)]
      calc m < 2 := h2
        _ ≤ 2 ^ (y + 1) := by rw [pow_succ]; have : (1 : ℚ) ≤ 2 ^ y := one_le_pow₀ (by norm_num); linarith
    unfold fracExp
    rw [hd]
    simp only [ge1_fin, decide_eq_false (not_le.2 hlt)]
    simp only [Bool.false_eq_true, if_false]
    have := ih fuel { s with value := LD.fin false (m / 2 ^ (y + 1)), exponent := s.exponent - 1, got := false, bits := 0 }
      rfl rfl rfl
    rw [this]
    congr 2
    push_cast; ring

/-- The loop writing the fraction: the first `r` binary digits of `x` go to the bits from `p`. -/
theorem fracLoop_bits (F : Nat) : ∀ (r : Nat) (fuel : Nat) (s : St) (x : ℚ) (k p : Nat), r < fuel →
    s.got = true → s.value = .fin false x → s.bits + r = F → s.cur = at_ p → p + r ≤ 8 * s.buf.length →
    (k : ℚ) ≤ x * 2 ^ r → x * 2 ^ r < k + 1 → k < 2 ^ r →
    ∃ s', fracLoop F fuel s = some s' ∧ s'.got = true ∧ s'.exponent = s.exponent ∧
      s'.buf.length = s.buf.length ∧
      ∀ i, bit s'.buf i = (bit s.buf i || (decide (p ≤ i ∧ i < p + r) && k.testBit (p + r - 1 - i))) := by
  intro r
  induction r with
  | zero =>
    intro fuel s x k p hf hg hv hb hc hp h1 h2 hk
    obtain ⟨fuel, rfl⟩ : ∃ f, fuel = f + 1 := ⟨fuel - 1, by omega⟩
    rw [fracLoop, decide_eq_false (by omega), Bool.and_false]
    refine ⟨s, rfl, hg, rfl, rfl, fun i => ?_⟩
    rw [decide_eq_false (by omega), Bool.false_and, Bool.or_false]
  | succ r ih =>
    intro fuel s x k p hf hg hv hb hc hp h1 h2 hk
    obtain ⟨fuel, rfl⟩ : ∃ f, fuel = f + 1 := ⟨fuel - 1, by omega⟩
    by_cases hx : x = 0
    · have hk0 : k = 0 := by
        rw [hx, zero_mul] at h1
        have : (k : ℚ) ≤ ((0 : Nat) : ℚ) := by simpa using h1
        exact Nat.le_zero.1 (by exact_mod_cast this)
      rw [fracLoop, hv, hx, show (LD.fin false 0).nonzero = false by rfl, Bool.false_and]
      refine ⟨s, rfl, hg, rfl, rfl, fun i => ?_⟩
      rw [hk0, Nat.zero_testBit, Bool.and_false, Bool.or_false]
    · rw [fracLoop, hv, hg, show (LD.fin false x).nonzero = true by simp [LD.nonzero, hx], decide_eq_true (by omega)]
      simp only [Bool.and_self, if_true]
      have e : x * 2 ^ (r + 1) = x * 2 * 2 ^ r := by rw [pow_succ]; ring
      rw [e] at h1 h2
      have hpos : (0 : ℚ) < 2 ^ r := by positivity
      have htop : k.testBit r = decide (2 ^ r ≤ k) := by
        rw [Nat.testBit_eq_decide_div_mod_eq, decide_eq_decide]
        rw [Nat.pow_succ] at hk
        by_cases h : 2 ^ r ≤ k
        · have : k / 2 ^ r = 1 := by
            rw [Nat.div_eq_iff (by positivity)]; omega
          rw [this]; simp [h]
        · rw [Nat.div_eq_of_lt (by omega)]; simp [h]
      -- bits of the rest
      have hrest : ∀ i, (decide (p + 1 ≤ i ∧ i < p + 1 + r) && (k % 2 ^ r).testBit (p + 1 + r - 1 - i)) =
          (decide (p + 1 ≤ i ∧ i < p + 1 + r) && k.testBit (p + (r + 1) - 1 - i)) := by
        intro i
        by_cases h : p + 1 ≤ i ∧ i < p + 1 + r
        · rw [Nat.testBit_mod_two_pow, decide_eq_true (p := _ < r) (by omega), Bool.true_and]
          congr 2; omega
        · rw [decide_eq_false h]; rfl
      have hsplit : ∀ i, (decide (p ≤ i ∧ i < p + (r + 1)) && k.testBit (p + (r + 1) - 1 - i)) =
          ((decide (i = p) && k.testBit r) || (decide (p + 1 ≤ i ∧ i < p + 1 + r) && k.testBit (p + (r + 1) - 1 - i))) := by
        intro i
        by_cases h : i = p
        · subst h
          rw [decide_eq_true (p := i ≤ i ∧ _) (by omega), decide_eq_true (p := i = i) rfl,
            decide_eq_false (p := i + 1 ≤ i ∧ _) (by omega), show i + (r + 1) - 1 - i = r by omega]
          simp
        · rw [decide_eq_false h, Bool.false_and, Bool.false_or]
          congr 1
          rw [decide_eq_decide]; omega
      rw [show (LD.fin false x).double = .fin false (x * 2) from rfl]
      by_cases hge : 2 ^ r ≤ k
      · have hge' : (1 : ℚ) ≤ x * 2 := by
          have : ((2 ^ r : Nat) : ℚ) ≤ k := by exact_mod_cast hge
          push_cast at this
          by_contra hn
          have := mul_lt_mul_of_pos_right (not_le.1 hn) hpos
          linarith
        rw [fracBit, if_pos (by rw [ge1_fin]; exact decide_eq_true hge')]
        simp only [hc]
        obtain ⟨buf', hset, hlen, hbit⟩ := setBit_at s.buf p (by omega)
        rw [hset]
        simp only [Option.map_some, LD.pred]
        have hmod : k % 2 ^ r = k - 2 ^ r := by
          rw [Nat.pow_succ] at hk
          rw [Nat.mod_eq_sub_mod hge, Nat.mod_eq_of_lt (by omega)]
        have hcast : ((k % 2 ^ r : Nat) : ℚ) = k - 2 ^ r := by
          rw [hmod, Nat.cast_sub hge]; push_cast; rfl
        obtain ⟨s', h1', h2', h3', h4', h5'⟩ := ih fuel
          { s with value := LD.fin false (x * 2 - 1), buf := buf', cur := shift (at_ p), bits := s.bits + 1 }
          (x * 2 - 1) (k % 2 ^ r) (p + 1) (by omega) hg rfl (by simp only; omega) (shift_at p)
          (by simp only; omega) (by rw [hcast]; nlinarith) (by rw [hcast]; nlinarith) (Nat.mod_lt _ (by positivity))
        refine ⟨s', ?_, h2', h3', by rw [h4']; exact hlen, fun i => ?_⟩
        · simpa [hg] using h1'
        · rw [h5', hbit, hrest, hsplit, htop, decide_eq_true hge]
          cases bit s.buf i <;> cases decide (i = p) <;> rfl
      · have hlt : x * 2 < 1 := by
          have : ((k + 1 : Nat) : ℚ) ≤ ((2 ^ r : Nat) : ℚ) := by exact_mod_cast (by omega : k + 1 ≤ 2 ^ r)
          push_cast at this
          by_contra hn
          have := mul_le_mul_of_nonneg_right (not_lt.1 hn) hpos.le
          linarith
        rw [fracBit, if_neg (by rw [ge1_fin, decide_eq_false (not_le.2 hlt)]; simp)]
        simp only
        have hmod : k % 2 ^ r = k := Nat.mod_eq_of_lt (by omega)
        obtain ⟨s', h1', h2', h3', h4', h5'⟩ := ih fuel
          { s with value := LD.fin false (x * 2), cur := shift s.cur, bits := s.bits + 1 }
          (x * 2) (k % 2 ^ r) (p + 1) (by omega) hg rfl (by simp only; omega) (by simp only [hc]; exact shift_at p)
          (by simp only; omega) (by rw [hmod]; exact h1) (by rw [hmod]; exact h2) (Nat.mod_lt _ (by positivity))
        refine ⟨s', ?_, h2', h3', h4', fun i => ?_⟩
        · simpa [hg] using h1'
        · rw [h5', hrest, hsplit, htop, decide_eq_false hge, Bool.and_false, Bool.false_or]

theorem writeExp_bits : ∀ (n p e : Nat) (buf : Bytes), p + n < 8 * buf.length → e < 2 ^ n →
    ∃ buf', writeExp n (at_ p) e ((2 ^ n / 2 : Nat) : Int) buf = some buf' ∧ buf'.length = buf.length ∧
      ∀ i, bit buf' i = (bit buf i || (decide (p + 1 ≤ i ∧ i ≤ p + n) && e.testBit (p + n - i))) := by
  intro n
  induction n with
  | zero =>
    intro p e buf _ _
    refine ⟨buf, rfl, rfl, fun i => ?_⟩
    rw [decide_eq_false (by omega), Bool.false_and, Bool.or_false]
  | succ n ih =>
    intro p e buf hp he
    have hd : 2 ^ (n + 1) / 2 = 2 ^ n := by rw [Nat.pow_succ]; omega
    have htd : ((2 ^ n : Nat) : Int).tdiv 2 = ((2 ^ n / 2 : Nat) : Int) := rfl
    rw [hd, writeExp, htd]
    have htop : e.testBit n = decide (2 ^ n ≤ e) := by
      rw [Nat.testBit_eq_decide_div_mod_eq, decide_eq_decide]
      rw [Nat.pow_succ] at he
      by_cases h : 2 ^ n ≤ e
      · have : e / 2 ^ n = 1 := by
          rw [Nat.div_eq_iff (by positivity)]; omega
        rw [this]; simp [h]
      · rw [Nat.div_eq_of_lt (by omega)]; simp [h]
    have hrest : ∀ i, (decide (p + 1 + 1 ≤ i ∧ i ≤ p + 1 + n) && (e % 2 ^ n).testBit (p + 1 + n - i)) =
        (decide (p + 1 + 1 ≤ i ∧ i ≤ p + 1 + n) && e.testBit (p + (n + 1) - i)) := by
      intro i
      by_cases h : p + 1 + 1 ≤ i ∧ i ≤ p + 1 + n
      · rw [Nat.testBit_mod_two_pow, decide_eq_true (p := _ < n) (by omega), Bool.true_and]
        congr 2; omega
      · rw [decide_eq_false h]; rfl
    have hsplit : ∀ i, (decide (p + 1 ≤ i ∧ i ≤ p + (n + 1)) && e.testBit (p + (n + 1) - i)) =
        ((decide (i = p + 1) && e.testBit n) || (decide (p + 1 + 1 ≤ i ∧ i ≤ p + 1 + n) && e.testBit (p + (n + 1) - i))) := by
      intro i
      by_cases h : i = p + 1
      · subst h
        rw [decide_eq_true (p := p + 1 ≤ p + 1 ∧ _) (by omega), decide_eq_true (p := p + 1 = p + 1) rfl,
          decide_eq_false (p := p + 1 + 1 ≤ p + 1 ∧ _) (by omega), show p + (n + 1) - (p + 1) = n by omega]
        simp
      · rw [decide_eq_false h, Bool.false_and, Bool.false_or]
        congr 1
        rw [decide_eq_decide]; omega
    rw [shift_at]
    by_cases h : 2 ^ n ≤ e
    · rw [if_pos (by exact_mod_cast h)]
      obtain ⟨b1, hset, hlen, hbit⟩ := setBit_at buf (p + 1) (by omega)
      rw [hset]
      simp only
      have hmod : e % 2 ^ n = e - 2 ^ n := by
        rw [Nat.pow_succ] at he
        rw [Nat.mod_eq_sub_mod h, Nat.mod_eq_of_lt (by omega)]
      have hsub : (e : Int) - ((2 ^ n : Nat) : Int) = ((e % 2 ^ n : Nat) : Int) := by
        rw [hmod, Int.ofNat_sub h]
      rw [hsub]
      obtain ⟨b2, h1, h2, h3⟩ := ih (p + 1) (e % 2 ^ n) b1 (by omega) (Nat.mod_lt _ (by positivity))
      refine ⟨b2, h1, by rw [h2, hlen], fun i => ?_⟩
      rw [h3, hbit, hrest, hsplit, htop, decide_eq_true h]
      cases bit buf i <;> cases decide (i = p + 1) <;> rfl
    · rw [if_neg (by intro hc; exact h (by exact_mod_cast hc))]
      have hmod : e % 2 ^ n = e := Nat.mod_eq_of_lt (by omega)
      obtain ⟨b2, h1, h2, h3⟩ := ih (p + 1) (e % 2 ^ n) buf (by omega) (Nat.mod_lt _ (by positivity))
      rw [hmod] at h1
      refine ⟨b2, h1, h2, fun i => ?_⟩
      rw [h3, hrest, hsplit, htop, decide_eq_false h, Bool.and_false, Bool.false_or]

theorem bit_zero (n i : Nat) : bit (List.replicate n 0) i = false := by
  unfold bit
  rw [List.getD_eq_getElem?_getD, List.getElem?_replicate]
  split <;> simp

/-- The buffer before the loops: the sign. -/
theorem sign_buf (n : Nat) (hn : 0 < n) (s : Bool) :
    ∃ buf : Bytes, (if s then (List.replicate n (0 : UInt8)).set 0 0x80 else List.replicate n 0) = buf ∧
      buf.length = n ∧ ∀ i, bit buf i = (decide (i = 0) && s) := by
  refine ⟨_, rfl, by cases s <;> simp, fun i => ?_⟩
  cases s with
  | false => simp [bit_zero]
  | true =>
    obtain ⟨b, h1, h2, h3⟩ := setBit_at (List.replicate n 0) 0 (by simp; omega)
    have : (List.replicate n (0 : UInt8)).set 0 0x80 = b := by
      unfold setBit at_ at h1
      simp only [Nat.zero_div, List.getElem?_replicate, if_pos hn, Option.map_some, Option.some.injEq] at h1
      rw [← h1]; rfl
    rw [if_pos rfl, this, h3, bit_zero]; simp

/-- The encoder on every finite value in the range of normal numbers: sign, exponent and the first `F` binary digits
    of the fraction. -/
theorem encode_spec (E F : Nat) (hE : 0 < E) (hF : 0 < F) (h8 : (E + F + 1) % 8 = 0) (s : Bool) (m : ℚ) (z : Int)
    (e k : Nat) (h1 : 1 ≤ m) (h2 : m < 2) (he : (e : Int) = z + bias E) (he2 : e < 2 ^ E)
    (hk1 : (k : ℚ) ≤ (m - 1) * 2 ^ F) (hk2 : (m - 1) * 2 ^ F < k + 1) :
    ∃ N, ∀ fuel, N ≤ fuel → encode E F fuel (.fin s (m * (2 : ℚ) ^ z)) = some (bytes E F s e k) := by
  have hm : 0 < m := by linarith
  have hk : k < 2 ^ F := by
    have hp : (0 : ℚ) < 2 ^ F := by positivity
    have : (k : ℚ) < ((2 ^ F : Nat) : ℚ) := by push_cast; nlinarith
    exact_mod_cast this
  have hmag : m * (2 : ℚ) ^ z ≠ 0 := mul_ne_zero hm.ne' (zpow_ne_zero _ (by norm_num))
  have hlt0 : (LD.fin s (m * (2 : ℚ) ^ z)).lt0 = s := by
    simp only [LD.lt0]
    rw [bne_iff_ne.2 hmag, Bool.and_true]
  have hval : (if s = true then (LD.fin s (m * (2 : ℚ) ^ z)).negate else LD.fin s (m * (2 : ℚ) ^ z)) =
      LD.fin false (m * (2 : ℚ) ^ z) := by
    cases s <;> rfl
  obtain ⟨b0, hb0, hlen0, hbit0⟩ := sign_buf ((E + F + 1 + 7) / 8) (by omega) s
  have hlen : 8 * b0.length = E + F + 1 := by rw [hlen0]; omega
  -- after the two loops that find the exponent
  have key : ∃ N, ∀ fuel, N ≤ fuel → ∃ v ex, scaleDown fuel (.fin false (m * (2 : ℚ) ^ z)) 0 = some (v, ex) ∧
      ∃ f', F < f' ∧ fracLoop F fuel ⟨v, ex, false, 0, at_ (1 + E), b0⟩ =
        fracLoop F f' ⟨.fin false (m - 1), z, true, 0, at_ (1 + E), b0⟩ := by
    rcases le_or_gt 0 z with hz | hz
    · obtain ⟨n, rfl⟩ := Int.eq_ofNat_of_zero_le hz
      refine ⟨n + F + 3, fun fuel hfuel => ⟨.fin false (m / 2), (n : Int) + 1, ?_, fuel - 1, by omega, ?_⟩⟩
      · have := scaleDown_ge m h1 h2 n fuel 0 (by omega)
        rw [Int.zero_add] at this
        rw [← this]; simp
      · have := fracLoop_exp F hF m h1 h2 0 (fuel - 1) ⟨.fin false (m / 2), (n : Int) + 1, false, 0, at_ (1 + E), b0⟩
          rfl rfl (by simp)
        rw [show fuel - 1 + (0 + 1) = fuel by omega] at this
        rw [this]; simp
    · obtain ⟨y, hy⟩ : ∃ y : Nat, z = -((y : Int) + 1) := ⟨(-z - 1).toNat, by omega⟩
      have hv : m * (2 : ℚ) ^ z = m / 2 ^ (y + 1) := by
        rw [hy, zpow_neg, div_eq_mul_inv]; norm_cast
      rw [hv]
      have hlt : m / 2 ^ (y + 1) < 1 := by
        rw [div_lt_one (by positivity)]
        have : (1 : ℚ) ≤ 2 ^ y := one_le_pow₀ (by norm_num)
        rw [pow_succ]; linarith
      refine ⟨y + F + 3, fun fuel hfuel => ⟨.fin false (m / 2 ^ (y + 1)), 0, ?_, fuel - (y + 1), by omega, ?_⟩⟩
      · obtain ⟨g, rfl⟩ : ∃ g, fuel = g + 1 := ⟨fuel - 1, by omega⟩
        exact scaleDown_lt g _ _ hlt
      · have := fracLoop_exp F hF m h1 h2 y (fuel - (y + 1)) ⟨.fin false (m / 2 ^ (y + 1)), 0, false, 0, at_ (1 + E), b0⟩
          rfl rfl rfl
        rw [show fuel - (y + 1) + (y + 1) = fuel by omega] at this
        rw [this, hy]
        congr 2
  obtain ⟨N, hN⟩ := key
  refine ⟨N, fun fuel hfuel => ?_⟩
  obtain ⟨v, ex, hs, f', hf', hfr⟩ := hN fuel hfuel
  obtain ⟨t, ht, hgot, hexp, hlt, hbt⟩ := fracLoop_bits F F f' ⟨.fin false (m - 1), z, true, 0, at_ (1 + E), b0⟩ (m - 1) k
    (1 + E) hf' rfl rfl (by simp) rfl (by simp only; omega) hk1 hk2 hk
  unfold encode
  simp only [hlt0]
  rw [hb0, hval, hs]
  simp only
  rw [show (⟨0, 0x40⟩ : Cur) = at_ 1 by decide, skipExp_at E E 1 (le_refl _), hfr, ht]
  simp only [hgot, if_true, hexp]
  have hE' : 2 ^ (E - 1) = 2 ^ E / 2 := by
    obtain ⟨E', rfl⟩ : ∃ E', E = E' + 1 := ⟨E - 1, by omega⟩
    rw [Nat.pow_succ, Nat.add_sub_cancel]; omega
  have hbias : z + (((2 ^ (E - 1) : Nat) : Int) - 1) = (e : Int) := by
    rw [he]; unfold bias; push_cast; rfl
  rw [hbias, hE', show (⟨0, 0x80⟩ : Cur) = at_ 0 by decide]
  simp only at hlt
  obtain ⟨buf', hw, hwl, hwb⟩ := writeExp_bits E 0 e t.buf (by rw [hlt]; omega) he2
  rw [hw]
  congr 1
  refine bit_ext _ _ (by rw [hwl, hlt, length_bytes]; omega) fun i hi => ?_
  rw [hwl, hlt, hlen] at hi
  rw [hwb, hbt, hbit0, bit_bytes E F s e k h8 he2 hk i hi]
  by_cases h0 : i = 0
  · subst h0
    rw [decide_eq_true (p := (0 : Nat) = 0) rfl, decide_eq_false (p := 1 + E ≤ 0 ∧ _) (by omega),
      decide_eq_false (p := 0 + 1 ≤ 0 ∧ _) (by omega)]
    simp
  · rw [decide_eq_false h0, if_neg h0]
    by_cases h1 : i ≤ E
    · rw [if_pos h1, decide_eq_false (p := 1 + E ≤ i ∧ _) (by omega), decide_eq_true (p := 0 + 1 ≤ i ∧ _) (by omega)]
      simp
    · rw [if_neg h1, decide_eq_true (p := 1 + E ≤ i ∧ _) (by omega), decide_eq_false (p := 0 + 1 ≤ i ∧ _) (by omega),
        show 1 + E + F - 1 - i = E + F - i by omega]
      simp

end Verif.FloatBytes
