import Verif.Model.XmlEncode
import Verif.Spec.Xml
/-
C07, C08: XML escaping.
-/
namespace Verif.Props.XmlEncode
open Verif Verif.XmlEncode Verif.Spec.Xml

/-- Case analysis of one step of `xmlEncode?`: the byte sequence `u` taken from the input and the text
    `o` produced for it. -/
inductive Step : Bytes → Bytes → Bytes → Prop where
  | ascii (c) (rest) (h : (0x20 ≤ c ∧ c ≤ 0x7F) ∨ c = 0x9 ∨ c = 0xa ∨ c = 0xd) : Step (c :: rest) (ascii c) rest
  | repl (c) (rest) (h : ¬ ((0x20 ≤ c ∧ c ≤ 0x7F) ∨ c = 0x9 ∨ c = 0xa ∨ c = 0xd))
      (hu : utf8 (c :: rest) = false ∨ ((c :: rest).all fun c => 0x20 ≤ c || c = 0x09 || c = 0x0a || c = 0x0d) = false) :
      Step (c :: rest) replacement rest
  | two (c c1 rest) (h : 0xC2 ≤ c ∧ c ≤ 0xDF) (h1 : cont c1 = true) : Step (c :: c1 :: rest) [c, c1] rest
  | three (c c1 c2 rest) (h : 0xE0 ≤ c ∧ c ≤ 0xEF) (h1 : cont c1 = true) (h2 : cont c2 = true) :
      Step (c :: c1 :: c2 :: rest) [c, c1, c2] rest
  | four (c c1 c2 c3 rest) (h : 0xF0 ≤ c ∧ c ≤ 0xF4) (h1 : cont c1 = true) (h2 : cont c2 = true)
      (h3 : cont c3 = true) : Step (c :: c1 :: c2 :: c3 :: rest) [c, c1, c2, c3] rest

theorem isCont_nil : isCont? [] 0 = some false := by decide
theorem isCont_zero (c : UInt8) (r : Bytes) : isCont? (c :: r) 0 = some (cont c) := by
  simp [isCont?, peek, cont]
theorem isCont_succ (c : UInt8) (r : Bytes) (k : Nat) : isCont? (c :: r) (k + 1) = isCont? r k := by
  simp [isCont?, peek]

theorem encode_step (c : UInt8) (t : Bytes) :
    ∃ o rest, Step (c :: t) o rest ∧ xmlEncode? (c :: t) = (xmlEncode? rest).map (o ++ ·) ∧
      rest.length < (c :: t).length := by
  rw [xmlEncode?.eq_def]
  by_cases h0 : (0x20 ≤ c ∧ c ≤ 0x7F) ∨ c = 0x9 ∨ c = 0xa ∨ c = 0xd
  · exact ⟨_, _, .ascii c t h0, by simp only [if_pos h0], by simp⟩
  simp only [if_neg h0]
  by_cases h1 : 0xC2 ≤ c ∧ c ≤ 0xDF
  · simp only [if_pos h1]
    have hgt : ¬ c ≤ 0x7F := by
      have := h1.1; intro h; exact absurd (UInt8.le_trans this h) (by decide)
    match t with
    | [] =>
      rw [isCont_nil]
      exact ⟨_, _, .repl c [] h0 (.inl (by rw [utf8.eq_def]; simp [hgt, h1])), rfl, by simp⟩
    | c1 :: r =>
      rw [isCont_zero]
      cases hc : cont c1 with
      | false =>
        refine ⟨_, _, .repl c _ h0 (.inl (by rw [utf8.eq_def]; simp only [if_neg hgt, if_pos h1, hc]; rfl)), rfl, by simp⟩
      | true => exact ⟨_, _, .two c c1 r h1 hc, rfl, by simp; omega⟩
  simp only [if_neg h1]
  by_cases h2 : 0xE0 ≤ c ∧ c ≤ 0xEF
  · simp only [if_pos h2]
    have hgt : ¬ c ≤ 0x7F := by
      have := h2.1; intro h; exact absurd (UInt8.le_trans this h) (by decide)
    match t with
    | [] =>
      rw [isCont_nil]
      exact ⟨_, _, .repl c [] h0 (.inl (by rw [utf8.eq_def]; simp [hgt, h1, h2])), rfl, by simp⟩
    | [c1] =>
      rw [isCont_zero]
      have hu : utf8 [c, c1] = false := by rw [utf8.eq_def]; simp only [if_neg hgt, if_neg h1, if_pos h2]
      cases hc : cont c1 with
      | false => exact ⟨_, _, .repl c _ h0 (.inl hu), rfl, by simp⟩
      | true =>
        rw [isCont_succ, isCont_nil]
        exact ⟨_, _, .repl c _ h0 (.inl hu), rfl, by simp⟩
    | c1 :: c2 :: r =>
      rw [isCont_zero, isCont_succ, isCont_zero]
      have hu : utf8 (c :: c1 :: c2 :: r) = (cont c1 && cont c2 && (c != 0xE0 || 0xA0 ≤ c1) && (c != 0xED || c1 ≤ 0x9F) && utf8 r) := by
        rw [utf8.eq_def]; simp only [if_neg hgt, if_neg h1, if_pos h2]
      cases hc : cont c1 with
      | false => exact ⟨_, _, .repl c _ h0 (.inl (by rw [hu, hc]; rfl)), rfl, by simp⟩
      | true =>
        cases hc2 : cont c2 with
        | false => exact ⟨_, _, .repl c _ h0 (.inl (by rw [hu, hc, hc2]; rfl)), rfl, by simp⟩
        | true => exact ⟨_, _, .three c c1 c2 r h2 hc hc2, rfl, by simp; omega⟩
  simp only [if_neg h2]
  by_cases h3 : 0xF0 ≤ c ∧ c ≤ 0xF4
  · simp only [if_pos h3]
    have hgt : ¬ c ≤ 0x7F := by
      have := h3.1; intro h; exact absurd (UInt8.le_trans this h) (by decide)
    match t with
    | [] =>
      rw [isCont_nil]
      exact ⟨_, _, .repl c [] h0 (.inl (by rw [utf8.eq_def]; simp [hgt, h1, h2, h3])), rfl, by simp⟩
    | [c1] =>
      rw [isCont_zero]
      have hu : utf8 [c, c1] = false := by
        rw [utf8.eq_def]; simp only [if_neg hgt, if_neg h1, if_neg h2, if_pos h3]
      cases hc : cont c1 with
      | false => exact ⟨_, _, .repl c _ h0 (.inl hu), rfl, by simp⟩
      | true =>
        rw [isCont_succ, isCont_nil]
        exact ⟨_, _, .repl c _ h0 (.inl hu), rfl, by simp⟩
    | [c1, c2] =>
      rw [isCont_zero]
      have hu : utf8 [c, c1, c2] = false := by
        rw [utf8.eq_def]; simp only [if_neg hgt, if_neg h1, if_neg h2, if_pos h3]
      cases hc : cont c1 with
      | false => exact ⟨_, _, .repl c _ h0 (.inl hu), rfl, by simp⟩
      | true =>
        rw [isCont_succ, isCont_zero]
        cases hc2 : cont c2 with
        | false => exact ⟨_, _, .repl c _ h0 (.inl hu), rfl, by simp⟩
        | true =>
          rw [isCont_succ, isCont_succ, isCont_nil]
          exact ⟨_, _, .repl c _ h0 (.inl hu), rfl, by simp⟩
    | c1 :: c2 :: c3 :: r =>
      rw [isCont_zero, isCont_succ, isCont_zero, isCont_succ, isCont_succ, isCont_zero]
      have hu : utf8 (c :: c1 :: c2 :: c3 :: r) = (cont c1 && cont c2 && cont c3 && (c != 0xF0 || 0x90 ≤ c1) && (c != 0xF4 || c1 ≤ 0x8F) && utf8 r) := by
        rw [utf8.eq_def]; simp only [if_neg hgt, if_neg h1, if_neg h2, if_pos h3]
      cases hc : cont c1 with
      | false => exact ⟨_, _, .repl c _ h0 (.inl (by rw [hu, hc]; rfl)), rfl, by simp⟩
      | true =>
        cases hc2 : cont c2 with
        | false => exact ⟨_, _, .repl c _ h0 (.inl (by rw [hu, hc, hc2]; rfl)), rfl, by simp⟩
        | true =>
          cases hc3 : cont c3 with
          | false => exact ⟨_, _, .repl c _ h0 (.inl (by rw [hu, hc, hc2, hc3]; rfl)), rfl, by simp⟩
          | true => exact ⟨_, _, .four c c1 c2 c3 r h3 hc hc2 hc3, rfl, by simp; omega⟩
  simp only [if_neg h3]
  refine ⟨_, _, .repl c t h0 ?_, rfl, by simp⟩
  by_cases h4 : c ≤ 0x7F
  · right
    have : (0x20 ≤ c || c = 0x09 || c = 0x0a || c = 0x0d : Bool) = false := by
      revert h0 h4; revert c; decide +kernel
    simp only [List.all_cons, this, Bool.false_and]
  · left
    rw [utf8.eq_def]; simp only [if_neg h4, if_neg h1, if_neg h2, if_neg h3]

/-- Induction along the steps of the encoder. -/
theorem encode_induction (P : Bytes → Bytes → Prop) (nil : P [] [])
    (step : ∀ s o rest e, Step s o rest → xmlEncode? rest = some e → P rest e → P s (o ++ e)) :
    ∀ s, ∃ e, xmlEncode? s = some e ∧ P s e := by
  intro s
  induction h : s.length using Nat.strongRecOn generalizing s with
  | ind n ih =>
    match s with
    | [] => exact ⟨[], rfl, nil⟩
    | c :: t =>
      obtain ⟨o, rest, hs, he, hl⟩ := encode_step c t
      obtain ⟨e, he', hp⟩ := ih rest.length (by omega) rest rfl
      exact ⟨o ++ e, by rw [he, he']; rfl, step _ _ _ _ hs he' hp⟩

/-- C07: the encoder never reads outside its input (plus terminating NUL), for any input. -/
theorem xml_encode_total (s : Bytes) : ∃ e, xmlEncode? s = some e := by
  obtain ⟨e, h, _⟩ := encode_induction (fun _ _ => True) trivial (fun _ _ _ _ _ _ _ => trivial) s
  exact ⟨e, h⟩

/-- The encoded text (total by `xml_encode_total`). -/
def xmlEncode (s : Bytes) : Bytes := (xmlEncode? s).getD []

theorem xmlEncode_eq {s e : Bytes} (h : xmlEncode? s = some e) : xmlEncode s = e := by
  simp [xmlEncode, h]

theorem high_plain : ∀ c : UInt8, 0x80 ≤ c → c ≠ c! "&" ∧ forbidden.contains c = false ∧ (0x20 ≤ c : Bool) = true := by
  decide +kernel

theorem safe_high (c : UInt8) (h : 0x80 ≤ c) (t : Bytes) : safe (c :: t) = safe t := by
  obtain ⟨h1, h2, h3⟩ := high_plain c h
  rw [safe.eq_2, if_neg h1, h2, h3]; simp

theorem cont_high (c : UInt8) (h : cont c = true) : 0x80 ≤ c := by
  simp only [cont, Bool.and_eq_true, decide_eq_true_eq] at h; exact h.1

theorem safe_ascii : ∀ c : UInt8, ((0x20 ≤ c ∧ c ≤ 0x7F) ∨ c = 0x9 ∨ c = 0xa ∨ c = 0xd) →
    ∀ t, safe (ascii c ++ t) = safe t := by
  intro c hc t
  simp only [ascii]
  split
  · simp [safe, entityAt, entities, List.isPrefixOf, forbidden]
  split
  · simp [safe, entityAt, entities, List.isPrefixOf, forbidden]
  split
  · simp [safe, entityAt, entities, List.isPrefixOf, forbidden]
  split
  · simp [safe, entityAt, entities, List.isPrefixOf, forbidden]
  split
  · simp [safe, entityAt, entities, List.isPrefixOf, forbidden]
  · rename_i h1 h2 h3 h4 h5
    have hf : forbidden.contains c = false := by simp [forbidden, h2, h3, h4, h5]
    have hr : (0x20 ≤ c || c = 0x09 || c = 0x0a || c = 0x0d : Bool) = true := by
      rcases hc with hc | hc | hc | hc <;> simp [hc]
    rw [List.cons_append, List.nil_append, safe.eq_2, if_neg h1, hf, hr]; rfl

/-- C07: whatever the input, the output has no raw markup character, every '&' starts one of the five
    predefined entities and no control characters besides tab, LF and CR occur. -/
theorem xml_encode_safe (s : Bytes) : safe (xmlEncode s) = true := by
  obtain ⟨e, h, hp⟩ := encode_induction (fun _ e => safe e = true) rfl (by
    intro s o rest e hs _ hp
    cases hs with
    | ascii c rest h => rw [safe_ascii c h]; exact hp
    | repl c rest h hu =>
      simp only [replacement, List.cons_append, List.nil_append]
      rw [safe_high _ (by decide), safe_high _ (by decide), safe_high _ (by decide)]; exact hp
    | two c c1 rest h h1 =>
      simp only [List.cons_append, List.nil_append]
      rw [safe_high _ (UInt8.le_trans (by decide) h.1), safe_high _ (cont_high _ h1)]; exact hp
    | three c c1 c2 rest h h1 h2 =>
      simp only [List.cons_append, List.nil_append]
      rw [safe_high _ (UInt8.le_trans (by decide) h.1), safe_high _ (cont_high _ h1), safe_high _ (cont_high _ h2)]
      exact hp
    | four c c1 c2 c3 rest h h1 h2 h3 =>
      simp only [List.cons_append, List.nil_append]
      rw [safe_high _ (UInt8.le_trans (by decide) h.1), safe_high _ (cont_high _ h1), safe_high _ (cont_high _ h2),
        safe_high _ (cont_high _ h3)]
      exact hp) s
  rw [xmlEncode_eq h]; exact hp

example : xmlEncode (b! "<a href='x'>&\"" ++ [0x01, 0xC3, 0xA9, 0xC3]) =
    b! "&lt;a href=&apos;x&apos;&gt;&amp;&quot;" ++ [0xEF, 0xBF, 0xBD, 0xC3, 0xA9, 0xEF, 0xBF, 0xBD] := by
  decide +kernel


theorem unescapeN_mono : ∀ (n m : Nat) (s : Bytes), s.length ≤ n → s.length ≤ m → unescapeN n s = unescapeN m s := by
  intro n
  induction n with
  | zero =>
    intro m s hn _
    obtain rfl : s = [] := List.eq_nil_of_length_eq_zero (by omega)
    cases m <;> rfl
  | succ n ih =>
    intro m s hn hm
    match s with
    | [] => cases m <;> rfl
    | c :: t =>
      match m with
      | 0 => simp at hm
      | m + 1 =>
        simp only [List.length_cons, Nat.add_le_add_iff_right] at hn hm
        simp only [unescapeN]
        rw [ih m t hn hm]
        have : ∀ k, unescapeN n (t.drop k) = unescapeN m (t.drop k) := fun k =>
          ih m _ (by simp; omega) (by simp; omega)
        simp only [this]

theorem unescape_cons (c : UInt8) (h : c ≠ c! "&") (t : Bytes) : unescape (c :: t) = c :: unescape t := by
  simp only [unescape, List.length_cons, unescapeN, if_neg h]

theorem unescape_ascii (c : UInt8) (t : Bytes) : unescape (ascii c ++ t) = c :: unescape t := by
  simp only [ascii]
  have key : ∀ e d, entityAt (e ++ t) = some (e, d) → unescape (c! "&" :: (e ++ t)) = d :: unescape t := by
    intro e d h
    simp only [unescape, List.length_cons, unescapeN, if_true, h, List.drop_left]
    rw [unescapeN_mono _ t.length t (by simp) (by simp)]
  split
  · rename_i h; subst h
    exact key (b! "amp;") _ (by simp [entityAt, entities, List.isPrefixOf])
  split
  · rename_i h; subst h
    exact key (b! "lt;") _ (by simp [entityAt, entities, List.isPrefixOf])
  split
  · rename_i h; subst h
    exact key (b! "gt;") _ (by simp [entityAt, entities, List.isPrefixOf])
  split
  · rename_i h; subst h
    exact key (b! "quot;") _ (by simp [entityAt, entities, List.isPrefixOf])
  split
  · rename_i h; subst h
    exact key (b! "apos;") _ (by simp [entityAt, entities, List.isPrefixOf])
  · rename_i h _ _ _ _
    exact unescape_cons c h t

theorem utf8_ascii (c : UInt8) (h : c ≤ 0x7F) (t : Bytes) : utf8 (c :: t) = utf8 t := by
  rw [utf8.eq_def]; simp only [if_pos h]

theorem lead_facts : ∀ c : UInt8,
    (((0x20 ≤ c ∧ c ≤ 0x7F) ∨ c = 0x9 ∨ c = 0xa ∨ c = 0xd) → c ≤ 0x7F) ∧
    (0xC2 ≤ c ∧ c ≤ 0xDF → ¬ c ≤ 0x7F) ∧
    (0xE0 ≤ c ∧ c ≤ 0xEF → ¬ c ≤ 0x7F ∧ ¬ (0xC2 ≤ c ∧ c ≤ 0xDF)) ∧
    (0xF0 ≤ c ∧ c ≤ 0xF4 → ¬ c ≤ 0x7F ∧ ¬ (0xC2 ≤ c ∧ c ≤ 0xDF) ∧ ¬ (0xE0 ≤ c ∧ c ≤ 0xEF)) := by
  decide +kernel

theorem utf8_two (c c1 : UInt8) (t : Bytes) (h : 0xC2 ≤ c ∧ c ≤ 0xDF) : utf8 (c :: c1 :: t) = (cont c1 && utf8 t) := by
  rw [utf8.eq_def]; simp only [if_neg ((lead_facts c).2.1 h), if_pos h]
theorem utf8_three (c c1 c2 : UInt8) (t : Bytes) (h : 0xE0 ≤ c ∧ c ≤ 0xEF) : utf8 (c :: c1 :: c2 :: t) =
    (cont c1 && cont c2 && (c != 0xE0 || 0xA0 ≤ c1) && (c != 0xED || c1 ≤ 0x9F) && utf8 t) := by
  obtain ⟨h1, h2⟩ := (lead_facts c).2.2.1 h
  rw [utf8.eq_def]; simp only [if_neg h1, if_neg h2, if_pos h]
theorem utf8_four (c c1 c2 c3 : UInt8) (t : Bytes) (h : 0xF0 ≤ c ∧ c ≤ 0xF4) : utf8 (c :: c1 :: c2 :: c3 :: t) =
    (cont c1 && cont c2 && cont c3 && (c != 0xF0 || 0x90 ≤ c1) && (c != 0xF4 || c1 ≤ 0x8F) && utf8 t) := by
  obtain ⟨h1, h2, h3⟩ := (lead_facts c).2.2.2 h
  rw [utf8.eq_def]; simp only [if_neg h1, if_neg h2, if_neg h3, if_pos h]

theorem structure_ascii (c : UInt8) (h : c ≤ 0x7F) (t : Bytes) : utf8Structure (c :: t) = utf8Structure t := by
  rw [utf8Structure.eq_def]; simp only [if_pos h]
theorem structure_two (c c1 : UInt8) (t : Bytes) (h : 0xC2 ≤ c ∧ c ≤ 0xDF) :
    utf8Structure (c :: c1 :: t) = (cont c1 && utf8Structure t) := by
  rw [utf8Structure.eq_def]; simp only [if_neg ((lead_facts c).2.1 h), if_pos h]
theorem structure_three (c c1 c2 : UInt8) (t : Bytes) (h : 0xE0 ≤ c ∧ c ≤ 0xEF) :
    utf8Structure (c :: c1 :: c2 :: t) = (cont c1 && cont c2 && utf8Structure t) := by
  obtain ⟨h1, h2⟩ := (lead_facts c).2.2.1 h
  rw [utf8Structure.eq_def]; simp only [if_neg h1, if_neg h2, if_pos h]
theorem structure_four (c c1 c2 c3 : UInt8) (t : Bytes) (h : 0xF0 ≤ c ∧ c ≤ 0xF4) :
    utf8Structure (c :: c1 :: c2 :: c3 :: t) = (cont c1 && cont c2 && cont c3 && utf8Structure t) := by
  obtain ⟨h1, h2, h3⟩ := (lead_facts c).2.2.2 h
  rw [utf8Structure.eq_def]; simp only [if_neg h1, if_neg h2, if_neg h3, if_pos h]

theorem not_amp_high (c : UInt8) (h : 0x80 ≤ c) : c ≠ c! "&" := (high_plain c h).1

/-- C07: text which is well-formed UTF-8 without control characters is read back exactly. -/
theorem xml_encode_lossless (s : Bytes) (hu : utf8 s = true) (hc : noControls s = true) :
    unescape (xmlEncode s) = s := by
  obtain ⟨e, h, hp⟩ := encode_induction (fun s e => utf8 s = true → noControls s = true → unescape e = s)
    (fun _ _ => rfl) (by
    intro s o rest e hs _ hp hu hc
    cases hs with
    | ascii c rest h =>
      rw [utf8_ascii c ((lead_facts c).1 h)] at hu
      simp only [noControls, List.all_cons, Bool.and_eq_true] at hc
      rw [unescape_ascii, hp hu hc.2]
    | repl c rest h hn =>
      rcases hn with hn | hn
      · rw [hu] at hn; cases hn
      · rw [noControls, hn] at hc; cases hc
    | two c c1 rest h h1 =>
      rw [utf8_two _ _ _ h] at hu
      simp only [noControls, List.all_cons, Bool.and_eq_true] at hc hu
      rw [List.cons_append, List.cons_append, List.nil_append,
        unescape_cons _ (not_amp_high _ (UInt8.le_trans (by decide) h.1)),
        unescape_cons _ (not_amp_high _ (cont_high _ h1)), hp hu.2 hc.2.2]
    | three c c1 c2 rest h h1 h2 =>
      rw [utf8_three _ _ _ _ h] at hu
      simp only [noControls, List.all_cons, Bool.and_eq_true] at hc hu
      simp only [List.cons_append, List.nil_append]
      rw [unescape_cons _ (not_amp_high _ (UInt8.le_trans (by decide) h.1)),
        unescape_cons _ (not_amp_high _ (cont_high _ h1)),
        unescape_cons _ (not_amp_high _ (cont_high _ h2)), hp hu.2 hc.2.2.2]
    | four c c1 c2 c3 rest h h1 h2 h3 =>
      rw [utf8_four _ _ _ _ _ h] at hu
      simp only [noControls, List.all_cons, Bool.and_eq_true] at hc hu
      simp only [List.cons_append, List.nil_append]
      rw [unescape_cons _ (not_amp_high _ (UInt8.le_trans (by decide) h.1)),
        unescape_cons _ (not_amp_high _ (cont_high _ h1)),
        unescape_cons _ (not_amp_high _ (cont_high _ h2)),
        unescape_cons _ (not_amp_high _ (cont_high _ h3)), hp hu.2 hc.2.2.2.2]) s
  rw [xmlEncode_eq h]; exact hp hu hc

example : utf8 (b! "a<b & " ++ [0xC3, 0xA9, 0xE2, 0x82, 0xAC, 0xF0, 0x9F, 0x98, 0x80]) = true ∧
    noControls (b! "a<b & " ++ [0xC3, 0xA9, 0xE2, 0x82, 0xAC, 0xF0, 0x9F, 0x98, 0x80]) = true := by decide +kernel

theorem ascii_low : ∀ c : UInt8, c ≤ 0x7F → (ascii c).all (fun d => d ≤ 0x7F) = true := by decide +kernel

theorem utf8_low_append (l : Bytes) (h : l.all (fun d => d ≤ 0x7F) = true) (t : Bytes) : utf8 (l ++ t) = utf8 t := by
  induction l with
  | nil => rfl
  | cons c l ih =>
    simp only [List.all_cons, Bool.and_eq_true, decide_eq_true_eq] at h
    rw [List.cons_append, utf8_ascii c h.1, ih h.2]
theorem structure_low_append (l : Bytes) (h : l.all (fun d => d ≤ 0x7F) = true) (t : Bytes) :
    utf8Structure (l ++ t) = utf8Structure t := by
  induction l with
  | nil => rfl
  | cons c l ih =>
    simp only [List.all_cons, Bool.and_eq_true, decide_eq_true_eq] at h
    rw [List.cons_append, structure_ascii c h.1, ih h.2]

/-- C08, violated in full: the encoder passes an overlong sequence (and surrogates, and code points above
    U+10FFFF) through, so its output need not be well-formed UTF-8. -/
theorem xml_encode_illformed :
    utf8 (xmlEncode [0xE0, 0x80, 0x80]) = false ∧ utf8 (xmlEncode [0xED, 0xA0, 0x80]) = false ∧
    utf8 (xmlEncode [0xF0, 0x80, 0x80, 0x80]) = false ∧ utf8 (xmlEncode [0xF4, 0x90, 0x80, 0x80]) = false := by
  decide +kernel

/-- C08 partial: for every input the output has the byte structure of UTF-8 (each lead byte is followed by
    exactly its continuation bytes, no stray byte remains). -/
theorem xml_encode_structure_partial (s : Bytes) : utf8Structure (xmlEncode s) = true := by
  obtain ⟨e, h, hp⟩ := encode_induction (fun _ e => utf8Structure e = true) rfl (by
    intro s o rest e hs _ hp
    cases hs with
    | ascii c rest h => rw [structure_low_append _ (ascii_low c ((lead_facts c).1 h))]; exact hp
    | repl c rest h hu =>
      simp only [replacement, List.cons_append, List.nil_append]
      rw [structure_three _ _ _ _ (by decide), hp]; decide
    | two c c1 rest h h1 =>
      simp only [List.cons_append, List.nil_append]
      rw [structure_two _ _ _ h, h1, hp]; rfl
    | three c c1 c2 rest h h1 h2 =>
      simp only [List.cons_append, List.nil_append]
      rw [structure_three _ _ _ _ h, h1, h2, hp]; rfl
    | four c c1 c2 c3 rest h h1 h2 h3 =>
      simp only [List.cons_append, List.nil_append]
      rw [structure_four _ _ _ _ _ h, h1, h2, h3, hp]; rfl) s
  rw [xmlEncode_eq h]; exact hp

theorem hasBadPair_tail (c : UInt8) (t : Bytes) (h : hasBadPair (c :: t) = false) : hasBadPair t = false := by
  match t with
  | [] => rfl
  | d :: t => simp only [hasBadPair, Bool.or_eq_false_iff] at h; exact h.2

/-- C08 partial: the only cause of ill-formed output is an overlong form, a surrogate or a code point above
    U+10FFFF in the input; every other defect of the input is repaired. -/
theorem xml_encode_utf8_partial (s : Bytes) (hb : hasBadPair s = false) : utf8 (xmlEncode s) = true := by
  obtain ⟨e, h, hp⟩ := encode_induction (fun s e => hasBadPair s = false → utf8 e = true) (fun _ => rfl) (by
    intro s o rest e hs _ hp hb
    cases hs with
    | ascii c rest h =>
      rw [utf8_low_append _ (ascii_low c ((lead_facts c).1 h))]; exact hp (hasBadPair_tail _ _ hb)
    | repl c rest h hu =>
      simp only [replacement, List.cons_append, List.nil_append]
      rw [utf8_three _ _ _ _ (by decide), hp (hasBadPair_tail _ _ hb)]; decide
    | two c c1 rest h h1 =>
      simp only [List.cons_append, List.nil_append]
      rw [utf8_two _ _ _ h, h1, hp (hasBadPair_tail _ _ (hasBadPair_tail _ _ hb))]; rfl
    | three c c1 c2 rest h h1 h2 =>
      have hb' := hp (hasBadPair_tail _ _ (hasBadPair_tail _ _ (hasBadPair_tail _ _ hb)))
      simp only [List.cons_append, List.nil_append]
      rw [utf8_three _ _ _ _ h, h1, h2, hb']
      have := hb
      simp only [hasBadPair, badPair, Bool.or_eq_false_iff, Bool.and_eq_false_iff, decide_eq_false_iff_not,
        UInt8.not_lt] at this
      simp only [Bool.true_and, Bool.and_true, Bool.and_eq_true, Bool.or_eq_true, bne_iff_ne, ne_eq,
        decide_eq_true_eq]
      exact ⟨this.1.1.1.1, this.1.1.1.2⟩
    | four c c1 c2 c3 rest h h1 h2 h3 =>
      have hb' := hp (hasBadPair_tail _ _ (hasBadPair_tail _ _ (hasBadPair_tail _ _ (hasBadPair_tail _ _ hb))))
      simp only [List.cons_append, List.nil_append]
      rw [utf8_four _ _ _ _ _ h, h1, h2, h3, hb']
      have := hb
      simp only [hasBadPair, badPair, Bool.or_eq_false_iff, Bool.and_eq_false_iff, decide_eq_false_iff_not,
        UInt8.not_lt] at this
      simp only [Bool.true_and, Bool.and_true, Bool.and_eq_true, Bool.or_eq_true, bne_iff_ne, ne_eq,
        decide_eq_true_eq]
      exact ⟨this.1.1.2, this.1.2⟩) s
  rw [xmlEncode_eq h]; exact hp hb

example : hasBadPair [0xC3, 0x41, 0x80, 0xE2, 0x82, 0xFF, 0xF0, 0x9F, 0x98, 0x80] = false ∧
    utf8 [0xC3, 0x41, 0x80, 0xE2, 0x82, 0xFF, 0xF0, 0x9F, 0x98, 0x80] = false := by decide +kernel

end Verif.Props.XmlEncode
