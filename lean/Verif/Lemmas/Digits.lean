import Verif.Model.Digits
import Verif.Model.Strtol
import Mathlib.Tactic.Common
/-
Numbers survive formatting and reading.
-/
namespace Verif

theorem digitsBE_lt (b : Nat) (hb : 0 < b) : ∀ f n, ∀ d ∈ digitsBE b f n, d < b := by
  intro f
  induction f with
  | zero => intro n d hd; simp only [digitsBE, List.mem_singleton] at hd; subst hd; exact Nat.mod_lt _ hb
  | succ f ih =>
    intro n d hd
    simp only [digitsBE] at hd
    split at hd
    · simp only [List.mem_singleton] at hd; omega
    · simp only [List.mem_append, List.mem_singleton] at hd
      rcases hd with hd | rfl
      · exact ih _ _ hd
      · exact Nat.mod_lt _ hb

theorem digitsBE_ne_nil (b f n : Nat) : digitsBE b f n ≠ [] := by
  cases f with
  | zero => simp [digitsBE]
  | succ f => simp only [digitsBE]; split <;> simp

theorem digitsBE_value (b : Nat) (hb : 2 ≤ b) : ∀ f n, n ≤ f → (digitsBE b f n).foldl (fun a d => b * a + d) 0 = n := by
  intro f
  induction f with
  | zero => intro n hn; have : n = 0 := by omega
            subst this; simp [digitsBE]
  | succ f ih =>
    intro n hn
    simp only [digitsBE]
    split
    · simp
    · rename_i hlt
      have h1 : n / b ≤ f := by
        have : n / b < n := Nat.div_lt_self (by omega) (by omega)
        omega
      simp only [List.foldl_append, ih _ h1, List.foldl_cons, List.foldl_nil]
      exact Nat.div_add_mod n b

theorem digitChar_digit : ∀ d, d < 10 → isDigit (digitChar d) = true ∧ digitVal (digitChar d) = d := by
  have : ∀ d : Fin 10, isDigit (digitChar d) = true ∧ digitVal (digitChar d) = d := by decide
  intro d h; exact this ⟨d, h⟩

theorem digitChar_hex : ∀ d, d < 16 → isHexDigit (digitChar d) = true ∧ hexVal? (digitChar d) = some d ∧
    isSpaceC (digitChar d) = false ∧ digitChar d ≠ c! "-" ∧ digitChar d ≠ c! "+" ∧ digitChar d ≠ c! "x" ∧
    digitChar d ≠ c! "X" := by
  have : ∀ d : Fin 16, isHexDigit (digitChar d) = true ∧ hexVal? (digitChar d) = some d.val ∧
    isSpaceC (digitChar d) = false ∧ digitChar d ≠ c! "-" ∧ digitChar d ≠ c! "+" ∧ digitChar d ≠ c! "x" ∧
    digitChar d ≠ c! "X" := by decide
  intro d h; exact this ⟨d, h⟩

theorem toDec_ne_nil (n : Nat) : toDec n ≠ [] := by
  simp [toDec, digitsBE_ne_nil]

theorem toHex_ne_nil (n : Nat) : toHex n ≠ [] := by
  simp [toHex, digitsBE_ne_nil]

theorem toDec_isDigit (n : Nat) : ∀ c ∈ toDec n, isDigit c = true := by
  intro c hc
  simp only [toDec, List.mem_map] at hc
  obtain ⟨d, hd, rfl⟩ := hc
  exact (digitChar_digit d (digitsBE_lt 10 (by omega) _ _ _ hd)).1

theorem toHex_isHex (n : Nat) : ∀ c ∈ toHex n, isHexDigit c = true := by
  intro c hc
  simp only [toHex, List.mem_map] at hc
  obtain ⟨d, hd, rfl⟩ := hc
  exact (digitChar_hex d (digitsBE_lt 16 (by omega) _ _ _ hd)).1

theorem foldl_digitVal (l : List Nat) (h : ∀ d ∈ l, d < 10) : ∀ a,
    (l.map digitChar).foldl (fun n c => 10 * n + digitVal c) a = l.foldl (fun a d => 10 * a + d) a := by
  induction l with
  | nil => intro a; rfl
  | cons d l ih =>
    intro a
    simp only [List.map_cons, List.foldl_cons, (digitChar_digit d (h d (by simp))).2]
    exact ih (fun x hx => h x (by simp [hx])) _

/-- Reading a decimal number. -/
theorem decVal_toDec (n : Nat) : decVal (toDec n) = n := by
  unfold decVal toDec
  rw [foldl_digitVal _ (digitsBE_lt 10 (by omega) _ _)]
  exact digitsBE_value 10 (by omega) n n (Nat.le_refl n)

theorem hexDigits_map (l : List Nat) (h : ∀ d ∈ l, d < 16) : ∀ a,
    hexDigits a (l.map digitChar) = l.foldl (fun a d => 16 * a + d) a := by
  induction l with
  | nil => intro a; rfl
  | cons d l ih =>
    intro a
    simp only [List.map_cons, hexDigits, (digitChar_hex d (h d (by simp))).2.1, List.foldl_cons]
    exact ih (fun x hx => h x (by simp [hx])) _

/-- Reading a hexadecimal number with `strtol`. -/
theorem strtol16_toHex (n : Nat) : strtol16 (toHex n) = (min n LONG_MAX : Nat) := by
  have hlt := digitsBE_lt 16 (by omega) n n
  have hv := digitsBE_value 16 (by omega) n n (Nat.le_refl n)
  have hmap := hexDigits_map _ hlt 0
  rw [hv] at hmap
  unfold strtol16 toHex
  cases hd : digitsBE 16 n n with
  | nil => exact absurd hd (digitsBE_ne_nil _ _ _)
  | cons d l =>
    rw [hd] at hlt hmap
    obtain ⟨_, _, h3, h4, h5, _, _⟩ := digitChar_hex d (hlt d (by simp))
    have hdw : ((d :: l).map digitChar).dropWhile isSpaceC = (d :: l).map digitChar := by
      simp [h3]
    have hsk : skip0x ((d :: l).map digitChar) = (d :: l).map digitChar := by
      cases l with
      | nil => simp [skip0x]
      | cons e l =>
        obtain ⟨_, _, _, _, _, h6, h7⟩ := digitChar_hex e (hlt e (by simp))
        cases l with
        | nil => simp [skip0x]
        | cons f l => simp only [List.map_cons, skip0x, h6, h7, or_self, false_and, and_false, if_false]
    rw [hdw]
    simp only [List.map_cons, h4, h5, if_false]
    rw [← List.map_cons, hsk, hmap]

end Verif
