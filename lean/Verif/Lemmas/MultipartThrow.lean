import Verif.Lemmas.Multipart
/-
For C54: reading a named part whose blank line is directly followed by the delimiter.
-/
namespace Verif.Multipart
open Verif.Spec.Multipart

variable {body bd : Bytes}

/-- From the delimiter to the end of the blank line of a named part. -/
theorem go_head (hs : List (Bytes × Bytes)) (ho : ∀ h ∈ hs, HeaderOk h) (hn : hs.foldl lineName [] ≠ [])
    (hne : bd ≠ []) (d : Dict) (f : Bool) (s : St) (hst : AtDelim d f s) (p : Nat) (rest : Bytes)
    (hd : body.drop p = bd ++ crlf ++ hs.flatMap headerLine ++ crlf ++ rest) :
    ∃ s', s'.st = .fieldData ∧ Go body bd s p s' (p + (bd ++ crlf ++ hs.flatMap headerLine ++ crlf).length) := by
  obtain ⟨hst, hsd, hsf⟩ := hst
  have hbl : 1 ≤ bd.length := List.length_pos_iff.2 hne
  have hd0 : body.drop p = bd ++ (0x0d :: 0x0a :: (hs.flatMap headerLine ++ (0x0d :: 0x0a :: rest))) := by
    rw [hd]; simp [crlf]
  obtain ⟨b0, bt, hb⟩ : ∃ b0 bt, bd = b0 :: bt := by
    cases hbb : bd with
    | nil => exact absurd hbb hne
    | cons x y => exact ⟨x, y, rfl⟩
  have g1 : Go body bd s p { dict := d, found := f, st := .headerCr } (p + bd.length) := by
    have : body.drop p = b0 :: (bt ++ (0x0d :: 0x0a :: (hs.flatMap headerLine ++ (0x0d :: 0x0a :: rest)))) := by
      rw [hd0]; conv_lhs => arg 1; rw [hb]
      exact List.cons_append
    apply Go.one this
    unfold step
    rw [hst]
    dsimp only
    rw [show p + (bd.length - 1) + 1 = p + bd.length by omega]
    congr 1
    cases s
    simp only [St.mk.injEq] at *
    simp [hsd, hsf]
  have hd1 := drop_add_of_drop hd0
  have g2 : Go body bd { dict := d, found := f, st := .headerCr } (p + bd.length)
      { dict := d, found := f, st := .headerLf } (p + bd.length + 1) := Go.one hd1 rfl
  have hd2 := drop_succ_of_drop hd1
  have g3 : Go body bd { dict := d, found := f, st := .headerLf } (p + bd.length + 1)
      (atLine d f [] [] false) (p + bd.length + 1 + 1) := Go.one hd2 rfl
  have hd3 := drop_succ_of_drop hd2
  have g4 := go_lines (bd := bd) hs ho d f [] [] false _ _ hd3
  have hd4 := drop_add_of_drop hd3
  generalize hs.foldl lineName [] = N at g4 hn
  generalize hs.foldl lineType [] = T at g4
  generalize hs.foldl lineMime false = M at g4
  generalize hq : p + bd.length + 1 + 1 + (hs.flatMap headerLine).length = q at g4 hd4
  have g5 : Go body bd (atLine d f N T M) q { atLine d f N T M with st := .headerLastLf } (q + 1) := Go.one hd4 rfl
  have hd5 := drop_succ_of_drop hd4
  have g6 : Go body bd { atLine d f N T M with st := .headerLastLf } (q + 1)
      { atLine d f N T M with st := .fieldData } (q + 1 + 1) := by
    apply Go.one hd5
    unfold step
    dsimp only [atLine]
    have : N.isEmpty = false := by
      cases hN0 : N with
      | nil => exact absurd hN0 hn
      | cons _ _ => rfl
    simp only [if_true, this, Bool.false_eq_true, if_false]
  refine ⟨{ atLine d f N T M with st := .fieldData }, rfl, ?_⟩
  have e : p + (bd ++ crlf ++ hs.flatMap headerLine ++ crlf).length = q + 1 + 1 := by
    simp only [crlf, List.length_append, List.length_cons, List.length_nil]; omega
  rw [e]
  exact ((((g1.trans g2).trans g3).trans g4).trans g5).trans g6

/-- At the delimiter, two bytes after a line break: the end of the data lies in front of its beginning. -/
theorem step_negative (s : St) (hs : s.st = .fieldData) (q : Nat) (rest : Bytes) (hne : bd ≠ [])
    (hd : body.drop q = crlf ++ (bd ++ rest)) (fuel : Nat) :
    loop body bd (fuel + 1) s (q + 2) = .negativeLength := by
  have hd2 : body.drop (q + 2) = bd ++ rest := drop_add_of_drop (u := crlf) hd
  have hse : search body bd (q + 2) = q + 2 := by
    unfold search
    rw [hd2, findSub_of 0 (Nat.zero_le _) (List.prefix_append _ _) (fun i hi => absurd hi (Nat.not_lt_zero _))]
  obtain ⟨c, t, hct⟩ : ∃ c t, body.drop (q + 2) = c :: t := by
    cases hh : body.drop (q + 2) with
    | nil => rw [hh] at hd2; simp [hne] at hd2
    | cons c t => exact ⟨c, t, rfl⟩
  have hx1 : body[q + 2 - 2]? = some 0x0d := getElem?_of_drop (t := 0x0a :: (bd ++ rest)) (by simpa [crlf] using hd)
  have hx2 : body[q + 2 - 1]? = some 0x0a := by
    have h1 : body.drop q = 0x0d :: (0x0a :: (bd ++ rest)) := by simpa [crlf] using hd
    exact getElem?_of_drop (drop_succ_of_drop h1)
  have hst : step body bd s (q + 2) c = .negativeLength := by
    unfold step
    rw [hs]
    dsimp only
    have hcond : (some (0x0d : UInt8) == some 0x0d && some (0x0a : UInt8) == some 0x0a) = true := by decide
    rw [hse, hx1, hx2, hcond, if_neg (by omega), if_pos rfl, if_pos (by omega)]
  rw [loop, getElem?_of_drop hct]
  dsimp only
  rw [hst]

end Verif.Multipart
