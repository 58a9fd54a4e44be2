import Verif.Lemmas.TestFiles
/-
C109: the functions of the test header that compare files. The specification is `Spec/TestFiles`.
-/
namespace Verif.Props.TestFiles
open Verif Verif.TestFiles Verif.Spec.TestFiles

/-- **C109 (byte for byte).** Files match exactly if they are the same. -/
theorem exact_iff (a b : Bytes) : checkFilesExactMatch a b false = true ↔ a = b := by
  unfold checkFilesExactMatch
  rw [if_neg (by simp)]
  exact blocksLoop_iff a.length a b (Nat.le_refl _)

/-- **C109 (up to line ends).** Files match exactly if their lines are the same, when carriage returns at the end of lines are
    left out. Partial: for files without a zero byte, and whose lines have at most 4095 characters. -/
theorem ignoring_iff_partial {a b : Bytes} (ha : Fits a) (hb : Fits b) :
    checkFilesExactMatch a b true = true ↔ (lines a).map clean = (lines b).map clean := by
  unfold checkFilesExactMatch
  rw [if_pos rfl]
  exact linesLoop_iff a.length _ _ (Nat.le_refl _) (.inl rfl) (.inl rfl) ha hb

/-- A file always matches itself. -/
theorem itself (a : Bytes) (ignoring : Bool) : checkFilesExactMatch a a ignoring = true := by
  cases ignoring with
  | false => exact (exact_iff a a).2 rfl
  | true =>
    unfold checkFilesExactMatch
    rw [if_pos rfl]
    exact linesLoop_self a.length _ (Nat.le_refl _)

theorem linesLoop_long {x a b : Bytes} (hx : (0x0a : UInt8) ∉ x) (hl : x.length = 4095) (ha : ∀ c ∈ a.head?, c ≠ 0x0a)
    (hb : ∀ c ∈ b.head?, c ≠ 0x0a) (na : a ≠ []) (nb : b ≠ []) : linesLoop { rest := x ++ a } { rest := x ++ b } = true := by
  have key : ∀ (y : Bytes) (room : Nat) (got a : Bytes), (0x0a : UInt8) ∉ y → y.length = room → a ≠ [] → (∀ c ∈ a.head?, c ≠ 0x0a) →
      lineLoop room got (y ++ a) = ⟨false, got ++ y, (got ++ y).length, { rest := a, ended := true }⟩ := by
    intro y
    induction y with
    | nil =>
      intro room got a _ hr na ha
      obtain ⟨c, r, rfl⟩ := List.exists_cons_of_ne_nil na
      obtain rfl : room = 0 := by simpa using hr.symm
      rw [List.nil_append, lineLoop, if_neg (ha c (by simp))]
      simp
    | cons d y ih =>
      intro room got a hy hr na ha
      obtain ⟨room, rfl⟩ : ∃ k, room = k + 1 := ⟨y.length, by simpa using hr.symm⟩
      have hd : d ≠ 0x0a := fun e => hy (by simp [e])
      rw [List.cons_append, lineLoop, if_neg hd]
      rw [ih room _ a (fun e => hy (by simp [e])) (by simpa using hr) na ha]
      simp
  have e : ∀ t : Bytes, getline BUF_SIZE { rest := t } = lineLoop 4095 [] t := fun t => rfl
  rw [linesLoop, e, e, key x 4095 [] a hx hl na ha, key x 4095 [] b hx hl nb hb]
  simp [finish]

/-- **C109 fails for long lines**: files whose first 4095 bytes are the same line match, whatever follows. -/
theorem long_lines_match {x a b : Bytes} (hx : (0x0a : UInt8) ∉ x) (hl : x.length = 4095) (ha : ∀ c ∈ a.head?, c ≠ 0x0a)
    (hb : ∀ c ∈ b.head?, c ≠ 0x0a) (na : a ≠ []) (nb : b ≠ []) : checkFilesExactMatch (x ++ a) (x ++ b) true = true := by
  unfold checkFilesExactMatch
  rw [if_pos rfl]
  exact linesLoop_long hx hl ha hb na nb

/-- Such files need not even have the same number of lines. -/
theorem long_lines_differ : ∃ a b : Bytes, checkFilesExactMatch a b true = true ∧ (lines a).length ≠ (lines b).length := by
  obtain ⟨x, hx, hl⟩ : ∃ x : Bytes, (0x0a : UInt8) ∉ x ∧ x.length = 4095 :=
    ⟨List.replicate 4095 0x78, fun h => absurd (List.eq_of_mem_replicate h) (by decide), List.length_replicate⟩
  refine ⟨x ++ [0x79], x ++ [0x7a, 0x0a, 0x7a], long_lines_match hx hl (by simp) (by simp) (by simp) (by simp), ?_⟩
  rw [lines_none (by simp) (by simp [hx]), show x ++ [0x7a, 0x0a, 0x7a] = (x ++ [0x7a]) ++ 0x0a :: [0x7a] by simp,
    lines_line (by simp [hx]), lines_none (by simp) (by simp)]
  simp

/-- **C109 fails for files with zero bytes**: what follows one on its line does not count. -/
theorem zero_bytes_match : checkFilesExactMatch [0x61, 0x00, 0x62] [0x61, 0x00, 0x63] true = true ∧
    checkFilesExactMatch [0x61, 0x00, 0x62] [0x61] true = true := by
  unfold checkFilesExactMatch
  constructor <;>
  · rw [if_pos rfl, linesLoop, dif_pos (by decide), if_pos (by decide), if_pos (by decide), linesLoop, dif_neg (by decide)]
    decide

/-- **C109 (in any order).** Files match exactly if each line that is neither blank nor a comment, without the white space at its
    ends, occurs equally often in both. -/
theorem match_iff (a b : Bytes) : checkFilesMatch a b = true ↔ (counts a).Perm (counts b) := by
  unfold checkFilesMatch
  rw [beq_iff_eq, sorted_eq_iff, readLines_eq a.length _ (Nat.le_refl _) (.inl rfl), readLines_eq b.length _ (Nat.le_refl _) (.inl rfl)]

example : Fits (b! "one\r\ntwo\n\nthree") := by
  unfold Fits
  decide +kernel
example : (lines (b! "one\r\ntwo\n\nthree")).map clean = (lines (b! "one\ntwo\r\n\nthree\n")).map clean := by decide +kernel
example : (counts (b! "# a comment\n two \r\none\n\n")).Perm (counts (b! "one\ntwo")) := by decide +kernel

end Verif.Props.TestFiles
