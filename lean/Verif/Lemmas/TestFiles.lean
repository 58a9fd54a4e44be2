import Verif.Model.TestFiles
import Verif.Spec.TestFiles
/-
Lemmas for `Props/TestFiles`.
-/
namespace Verif.TestFiles
open Verif Verif.Spec.TestFiles

/-- A text is empty, one line without an end, or a line, its end, and more. -/
theorem cases_text (t : Bytes) : t = [] ∨ (t ≠ [] ∧ (0x0a : UInt8) ∉ t) ∨ ∃ l r, t = l ++ 0x0a :: r ∧ (0x0a : UInt8) ∉ l := by
  induction t with
  | nil => exact .inl rfl
  | cons c t ih =>
    by_cases hc : c = 0x0a
    · exact .inr (.inr ⟨[], t, by simp [hc], nofun⟩)
    · rcases ih with rfl | ⟨_, h⟩ | ⟨l, r, rfl, h⟩
      · exact .inr (.inl ⟨nofun, by simpa using Ne.symm hc⟩)
      · exact .inr (.inl ⟨nofun, by simp [h, Ne.symm hc]⟩)
      · exact .inr (.inr ⟨c :: l, r, rfl, by simp [h, Ne.symm hc]⟩)

theorem splitOn_none (l : Bytes) (h : (0x0a : UInt8) ∉ l) : l.splitOn 0x0a = [l] := by
  induction l with
  | nil => rfl
  | cons c l ih =>
    have hc : c ≠ 0x0a := fun e => h (by simp [e])
    have hl : (0x0a : UInt8) ∉ l := fun e => h (by simp [e])
    unfold List.splitOn at ih ⊢
    rw [List.splitOnP_cons_eq_if_modifyHead, if_neg (by simpa using hc), ih hl]
    rfl

theorem splitOn_line (l r : Bytes) (h : (0x0a : UInt8) ∉ l) : (l ++ 0x0a :: r).splitOn 0x0a = l :: r.splitOn 0x0a := by
  induction l with
  | nil =>
    unfold List.splitOn
    rw [List.nil_append, List.splitOnP_cons_eq_if_modifyHead, if_pos (by simp)]
  | cons c l ih =>
    have hc : c ≠ 0x0a := fun e => h (by simp [e])
    have hl : (0x0a : UInt8) ∉ l := fun e => h (by simp [e])
    unfold List.splitOn at ih ⊢
    rw [List.cons_append, List.splitOnP_cons_eq_if_modifyHead, if_neg (by simpa using hc), ih hl]
    rfl

theorem lines_nil : lines [] = [] := by decide

theorem lines_none {l : Bytes} (hl : l ≠ []) (h : (0x0a : UInt8) ∉ l) : lines l = [l] := by
  unfold lines
  rw [splitOn_none l h]
  simp [hl]

theorem lines_line {l r : Bytes} (h : (0x0a : UInt8) ∉ l) : lines (l ++ 0x0a :: r) = l :: lines r := by
  unfold lines
  rw [splitOn_line l r h]
  have hne : r.splitOn 0x0a ≠ [] := by
    unfold List.splitOn
    exact List.splitOnP_ne_nil _ _
  obtain ⟨x, xs, hx⟩ := List.exists_cons_of_ne_nil hne
  rw [hx]
  simp only [List.getLast?_cons_cons]
  split <;> simp

theorem lineLoop_none (l : Bytes) : ∀ (room : Nat) (got : Bytes), (0x0a : UInt8) ∉ l → l.length ≤ room →
    lineLoop room got l = ⟨!(got ++ l).isEmpty, got ++ l, (got ++ l).length, { rest := [], ended := true }⟩ := by
  induction l with
  | nil =>
    intro room got _ _
    simp [lineLoop]
  | cons c l ih =>
    intro room got h hl
    have hc : c ≠ 0x0a := fun e => h (by simp [e])
    cases room with
    | zero => simp at hl
    | succ room =>
      unfold lineLoop
      rw [if_neg hc]
      dsimp only
      rw [ih room _ (fun e => h (by simp [e])) (by simpa using hl)]
      simp

theorem lineLoop_line (l r : Bytes) : ∀ (room : Nat) (got : Bytes), (0x0a : UInt8) ∉ l → l.length ≤ room →
    lineLoop room got (l ++ 0x0a :: r) = ⟨true, got ++ l, (got ++ l).length + 1, { rest := r }⟩ := by
  induction l with
  | nil =>
    intro room got _ _
    rw [List.nil_append, lineLoop.eq_def]
    simp
  | cons c l ih =>
    intro room got h hl
    have hc : c ≠ 0x0a := fun e => h (by simp [e])
    cases room with
    | zero => simp at hl
    | succ room =>
      rw [List.cons_append]
      unfold lineLoop
      rw [if_neg hc]
      dsimp only
      rw [ih room _ (fun e => h (by simp [e])) (by simpa using hl)]
      simp

/-- Texts whose lines fit into the buffer. -/
def Fits (t : Bytes) : Prop := ∀ l ∈ lines t, l.length ≤ 4095 ∧ (0 : UInt8) ∉ l

/-- What the next call of `getline` gives. -/
theorem getline_cases {s : Stream} (h : s.ended = false ∨ s.rest = []) (hf : Fits s.rest) :
    (lines s.rest = [] ∧ (getline BUF_SIZE s).ok = false ∧ (getline BUF_SIZE s).count = 0) ∨
    ∃ l s', lines s.rest = l :: lines s'.rest ∧ (s'.ended = false ∨ s'.rest = []) ∧ s'.rest.length < s.rest.length ∧
      (getline BUF_SIZE s).ok = true ∧ (getline BUF_SIZE s).data = l ∧ (getline BUF_SIZE s).next = s' ∧ (0x0a : UInt8) ∉ l := by
  obtain ⟨t, e⟩ := s
  dsimp only at h hf ⊢
  cases e with
  | true =>
    obtain rfl : t = [] := h.resolve_left nofun
    exact .inl ⟨lines_nil, rfl, rfl⟩
  | false =>
    have hg : getline BUF_SIZE ⟨t, false⟩ = lineLoop 4095 [] t := rfl
    rw [hg]
    rcases cases_text t with rfl | ⟨h1, h2⟩ | ⟨l, r, rfl, hl⟩
    · exact .inl ⟨lines_nil, rfl, rfl⟩
    · have hlen := (hf t (by simp [lines_none h1 h2])).1
      rw [lineLoop_none t 4095 [] h2 hlen]
      refine .inr ⟨t, ⟨[], true⟩, by rw [lines_none h1 h2, lines_nil], .inr rfl, ?_, by simpa using h1, rfl, rfl, h2⟩
      exact List.length_pos_iff.2 h1
    · have hlen := (hf l (by simp [lines_line hl])).1
      rw [lineLoop_line l r 4095 [] hl hlen]
      exact .inr ⟨l, ⟨r, false⟩, lines_line hl, .inl rfl, by simp only [List.length_append, List.length_cons]; omega, rfl, rfl, rfl, hl⟩

theorem dropWhile_congr' {p q : UInt8 → Bool} {l : Bytes} (h : ∀ c ∈ l, p c = q c) : l.dropWhile p = l.dropWhile q := by
  induction l with
  | nil => rfl
  | cons c l ih =>
    rw [List.dropWhile_cons, List.dropWhile_cons, h c (by simp), ih fun d hd => h d (by simp [hd])]

theorem trim_clean {l : Bytes} (h0 : (0 : UInt8) ∉ l) (h : (0x0a : UInt8) ∉ l) : trim l = clean l := by
  unfold trim clean cstr
  have : l.takeWhile (· != 0) = l := by
    clear h
    induction l with
    | nil => rfl
    | cons c l ih =>
      have hc : c ≠ 0 := fun e => h0 (by simp [e])
      rw [List.takeWhile_cons_of_pos (by simpa using hc), ih fun e => h0 (by simp [e])]
  rw [this]
  congr 1
  refine dropWhile_congr' fun c hc => ?_
  have : c ≠ 0x0a := by
    rintro rfl
    exact h (by simpa using hc)
  rw [decide_eq_false this, Bool.false_or, Bool.beq_eq_decide_eq]

theorem fits_next {t t' : Bytes} {l : Bytes} (hf : Fits t) (h : lines t = l :: lines t') : Fits t' := fun x hx => hf x (by simp [h, hx])

theorem linesLoop_iff (k : Nat) : ∀ a b : Stream, a.rest.length ≤ k → (a.ended = false ∨ a.rest = []) → (b.ended = false ∨ b.rest = []) →
    Fits a.rest → Fits b.rest → (linesLoop a b = true ↔ (lines a.rest).map clean = (lines b.rest).map clean) := by
  induction k with
  | zero =>
    intro a b hk ha hb fa fb
    have : a.rest = [] := List.length_eq_zero_iff.1 (by omega)
    rcases getline_cases ha fa with ⟨a1, a2, a3⟩ | ⟨l, s, a1, a2, a3, _⟩
    · rw [linesLoop, dif_neg (by simp [a2]), a1]
      rcases getline_cases hb fb with ⟨b1, b2, b3⟩ | ⟨l, s, b1, b2, b3, b4, _⟩
      · simp [finish, b1, b2, a3, b3]
      · simp [finish, b1, b4]
    · rw [this] at a3
      simp at a3
  | succ k ih =>
    intro a b hk ha hb fa fb
    rcases getline_cases ha fa with ⟨a1, a2, a3⟩ | ⟨l, s, a1, a2, a3, a4, a5, a6, a7⟩
    · rw [linesLoop, dif_neg (by simp [a2]), a1]
      rcases getline_cases hb fb with ⟨b1, b2, b3⟩ | ⟨l, s, b1, b2, b3, b4, _⟩
      · simp [finish, b1, b2, a3, b3]
      · simp [finish, b1, b4]
    · rw [linesLoop, dif_pos a4, a1, a5, a6]
      rcases getline_cases hb fb with ⟨b1, b2, b3⟩ | ⟨l', s', b1, b2, b3, b4, b5, b6, b7⟩
      · simp [b1, b2]
      · rw [if_pos b4, b1, b5, b6, trim_clean (fa l (by simp [a1])).2 a7, trim_clean (fb l' (by simp [b1])).2 b7]
        have := ih s s' (by omega) a2 b2 (fits_next fa a1) (fits_next fb b1)
        simp only [List.map_cons, List.cons.injEq, ← this]
        by_cases hc : clean l = clean l'
        · simp [hc]
        · simp [hc]

theorem linesLoop_self (k : Nat) : ∀ a : Stream, a.rest.length ≤ k → linesLoop a a = true := by
  induction k with
  | zero =>
    intro a hk
    have : ¬(getline BUF_SIZE a).ok = true := fun h => by
      have := getline_less h
      omega
    rw [linesLoop, dif_neg this]
    simp [finish, this]
  | succ k ih =>
    intro a hk
    rw [linesLoop]
    by_cases h : (getline BUF_SIZE a).ok = true
    · rw [dif_pos h, if_pos h, if_pos rfl]
      exact ih _ (by have := getline_less h; omega)
    · rw [dif_neg h]
      simp [finish, h]

theorem blocksLoop_iff (k : Nat) : ∀ a b : Bytes, a.length ≤ k → (blocksLoop { rest := a } { rest := b } = true ↔ a = b) := by
  have hok : ∀ t : Bytes, (read BUF_SIZE { rest := t }).ok = decide (4096 ≤ t.length) := by
    intro t
    unfold read
    by_cases h : 4096 ≤ t.length
    · simp [BUF_SIZE, h]
    · simp [BUF_SIZE, h]
  have hyes : ∀ t : Bytes, 4096 ≤ t.length → read BUF_SIZE { rest := t } = ⟨true, t.take 4096, 4096, { rest := t.drop 4096 }⟩ := by
    intro t h
    unfold read
    simp [BUF_SIZE, h]
  have hno : ∀ t : Bytes, ¬4096 ≤ t.length → read BUF_SIZE { rest := t } = ⟨false, t, t.length, { rest := [], ended := true }⟩ := by
    intro t h
    unfold read
    simp [BUF_SIZE, h]
  induction k with
  | zero =>
    intro a b hk
    obtain rfl : a = [] := List.length_eq_zero_iff.1 (by omega)
    rw [blocksLoop, dif_neg (by simp [hok]), hno [] (by simp)]
    by_cases hb : 4096 ≤ b.length
    · rw [hyes b hb]
      simp only [finish, if_true]
      constructor
      · intro h; cases h
      · rintro rfl; simp at hb
    · rw [hno b hb]
      cases b <;> simp [finish]
  | succ k ih =>
    intro a b hk
    rw [blocksLoop]
    by_cases ha : 4096 ≤ a.length
    · rw [dif_pos (by simp [hok, ha]), hyes a ha]
      by_cases hb : 4096 ≤ b.length
      · rw [hyes b hb]
        dsimp only
        rw [if_pos rfl]
        have := ih (a.drop 4096) (b.drop 4096) (by rw [List.length_drop]; omega)
        by_cases ht : a.take 4096 = b.take 4096
        · rw [if_pos ht, this]
          constructor
          · intro hd
            rw [← List.take_append_drop 4096 a, ht, hd, List.take_append_drop]
          · rintro rfl; rfl
        · rw [if_neg ht]
          constructor
          · intro h; cases h
          · rintro rfl; exact absurd rfl ht
      · rw [hno b hb]
        constructor
        · intro h; cases h
        · rintro rfl; exact absurd ha hb
    · rw [dif_neg (by simp [hok, ha]), hno a ha]
      by_cases hb : 4096 ≤ b.length
      · rw [hyes b hb]
        constructor
        · intro h; cases h
        · rintro rfl; exact absurd hb ha
      · rw [hno b hb]
        simp only [finish, Bool.false_eq_true, if_false]
        by_cases hl : a.length = b.length
        · simp [hl]
          rw [List.take_of_length_le (by omega)]
        · simp [hl]
          rintro rfl; exact hl rfl

theorem space_blank : ∀ c : UInt8, isSpace c = blank c := by decide +kernel

theorem boostTrim_strip (l : Bytes) : boostTrim l = strip l := by
  have : isSpace = blank := funext space_blank
  unfold boostTrim strip
  rw [this]

theorem readLines_eq (k : Nat) : ∀ s : Stream, s.rest.length ≤ k → (s.ended = false ∨ s.rest = []) → readLines s = counts s.rest := by
  have hnil : counts [] = [] := rfl
  have hcons : ∀ (l t t' : Bytes), lines t = l :: lines t' →
      counts t = if !(strip l).isEmpty && (strip l).head? != some (c! "#") then strip l :: counts t' else counts t' := by
    intro l t t' h
    unfold counts
    rw [h, List.map_cons, List.filter_cons]
    simp
  have hend : ∀ s : Stream, (getlineString s).ok = false → lines s.rest = [] → readLines s = counts s.rest := by
    intro s h h'
    rw [readLines, dif_neg (by simp [h])]
    unfold counts
    rw [h']
    rfl
  have key : ∀ s : Stream, (s.ended = false ∨ s.rest = []) → ((getlineString s).ok = false ∧ lines s.rest = []) ∨
      ∃ l s', lines s.rest = l :: lines s'.rest ∧ (s'.ended = false ∨ s'.rest = []) ∧ s'.rest.length < s.rest.length ∧
      (getlineString s).ok = true ∧ (getlineString s).data = l ∧ (getlineString s).next = s' := by
    rintro ⟨t, e⟩ h
    dsimp only at h ⊢
    cases e with
    | true =>
      obtain rfl : t = [] := h.resolve_left nofun
      exact .inl ⟨rfl, lines_nil⟩
    | false =>
      have hg : getlineString ⟨t, false⟩ = lineLoop t.length [] t := rfl
      rw [hg]
      rcases cases_text t with rfl | ⟨h1, h2⟩ | ⟨l, r, rfl, hl⟩
      · exact .inl ⟨rfl, lines_nil⟩
      · rw [lineLoop_none t _ [] h2 (Nat.le_refl _)]
        exact .inr ⟨t, ⟨[], true⟩, by rw [lines_none h1 h2, lines_nil], .inr rfl, List.length_pos_iff.2 h1, by simpa using h1, rfl, rfl⟩
      · rw [lineLoop_line l r _ [] hl (by simp)]
        exact .inr ⟨l, ⟨r, false⟩, lines_line hl, .inl rfl, by simp only [List.length_append, List.length_cons]; omega, rfl, rfl, rfl⟩
  induction k with
  | zero =>
    intro s hk hs
    rcases key s hs with ⟨h1, h2⟩ | ⟨l, s', _, _, h3, _⟩
    · exact hend s h1 h2
    · omega
  | succ k ih =>
    intro s hk hs
    rcases key s hs with ⟨h1, h2⟩ | ⟨l, s', h1, h2, h3, h4, h5, h6⟩
    · exact hend s h1 h2
    · rw [readLines, dif_pos h4, h5, h6, ih s' (by omega) h2, boostTrim_strip, hcons l _ _ h1]

theorem sorted_eq_iff (a b : List Bytes) :
    a.mergeSort (fun x y => decide (x ≤ y)) = b.mergeSort (fun x y => decide (x ≤ y)) ↔ a.Perm b := by
  have sorted : ∀ l : List Bytes, (l.mergeSort (fun x y => decide (x ≤ y))).Pairwise fun x y => decide (x ≤ y) = true :=
    List.pairwise_mergeSort (fun x y z h1 h2 => decide_eq_true (List.le_trans (of_decide_eq_true h1) (of_decide_eq_true h2)))
      fun x y => by
        rcases List.le_total x y with h | h
        · simp [h]
        · simp [h]
  constructor
  · intro h
    exact (List.mergeSort_perm a _).symm.trans (h ▸ List.mergeSort_perm b _)
  · intro h
    exact List.Perm.eq_of_pairwise (fun x y _ _ h1 h2 => List.le_antisymm (of_decide_eq_true h1) (of_decide_eq_true h2)) (sorted a) (sorted b)
      ((List.mergeSort_perm a _).trans (h.trans (List.mergeSort_perm b _).symm))

end Verif.TestFiles
