import Verif.Model.Query
import Verif.Props.UrlCodec
/-
C20: query strings.

The property as stated (all byte values, all names) fails in two ways, shown below: a zero byte does not survive
`url_decode` (C04), and a pair with an empty name is dropped. For all other lists of pairs the round trip holds.
-/
namespace Verif.Props.Query
open Verif Verif.Query Verif.UrlCodec

/-- A pair within the size limits: the limits apply to the encoded name and value. -/
structure PairOk (p : Bytes × Bytes) : Prop where
  nameSet : p.1 ≠ []
  nameNul : 0 ∉ p.1
  valueNul : 0 ∉ p.2
  nameMax : (urlEncode p.1).length ≤ 1024
  valueMax : (urlEncode p.2).length ≤ 1048576

/-- A character of encoded text. -/
def plain (c : UInt8) : Bool :=
  c != c! "=" && c != c! "&" && c != c! "," && c != 0x0d && c != 0x0a && c != 0x09 && !isControl c

theorem plain_of_mem {s : Bytes} {c : UInt8} (h : c ∈ urlEncode s) : plain c = true := by
  have key : ∀ c : UInt8, 33 ≤ c.toNat → c.toNat ≤ 126 → c ∉ Spec.Url.delimiters → plain c = true := by
    decide +kernel
  have := Props.UrlCodec.url_encode_no_delimiters s c h
  exact key c this.2.1 this.2.2 this.1

theorem step_name (s : St) (c : UInt8) (hv : s.inValue = false) (hc : plain c = true)
    (hl : s.name.length < 1024) : step s c = some { s with name := s.name ++ [c] } := by
  unfold plain at hc
  simp only [Bool.and_eq_true, bne_iff_ne, ne_eq, Bool.not_eq_true'] at hc
  obtain ⟨⟨⟨⟨⟨⟨h1, h2⟩, h3⟩, h4⟩, h5⟩, h6⟩, h7⟩ := hc
  unfold step
  rw [if_pos hv, if_neg h1, if_neg h2, if_neg (by simp [h4, h5, h6]), if_neg]
  unfold NAME_MAX
  simp [h7]; omega

theorem step_value (s : St) (c : UInt8) (hv : s.inValue = true) (hc : plain c = true)
    (hl : s.value.length < 1048576) : step s c = some { s with value := s.value ++ [c] } := by
  unfold plain at hc
  simp only [Bool.and_eq_true, bne_iff_ne, ne_eq, Bool.not_eq_true'] at hc
  obtain ⟨⟨⟨⟨⟨⟨h1, h2⟩, h3⟩, h4⟩, h5⟩, h6⟩, h7⟩ := hc
  unfold step
  rw [if_neg (by simp [hv]), if_neg h2, if_neg h3, if_neg (by simp [h4, h5, h6]), if_neg]
  unfold VALUE_MAX
  simp [h7]; omega

theorem loop_name (w : Bytes) (s : St) (rest : Bytes) (hv : s.inValue = false) (hw : ∀ c ∈ w, plain c = true)
    (hl : s.name.length + w.length ≤ 1024) :
    loop s (w ++ rest) = loop { s with name := s.name ++ w } rest := by
  induction w generalizing s with
  | nil => simp
  | cons c w ih =>
    rw [List.cons_append]
    rw [List.length_cons] at hl
    rw [loop, step_name s c hv (hw c List.mem_cons_self) (by omega)]
    dsimp only
    rw [ih _ (by exact hv) (fun c hc => hw c (List.mem_cons_of_mem _ hc)) (by simp; omega)]
    simp

theorem loop_value (w : Bytes) (s : St) (rest : Bytes) (hv : s.inValue = true) (hw : ∀ c ∈ w, plain c = true)
    (hl : s.value.length + w.length ≤ 1048576) :
    loop s (w ++ rest) = loop { s with value := s.value ++ w } rest := by
  induction w generalizing s with
  | nil => simp
  | cons c w ih =>
    rw [List.cons_append]
    rw [List.length_cons] at hl
    rw [loop, step_value s c hv (hw c List.mem_cons_self) (by omega)]
    dsimp only
    rw [ih _ (by exact hv) (fun c hc => hw c (List.mem_cons_of_mem _ hc)) (by simp; omega)]
    simp

theorem urlEncode_ne_nil {n : Bytes} (h : n ≠ []) : urlEncode n ≠ [] := by
  intro h0
  exact h (Props.UrlCodec.url_encode_injective n [] (by rw [h0]; rfl))

/-- Reading one encoded pair. -/
theorem loop_pair (d : Dict) (p : Bytes × Bytes) (hp : PairOk p) (rest : Bytes) :
    loop { dict := d } (urlEncode p.1 ++ [c! "="] ++ urlEncode p.2 ++ rest) =
    loop { inValue := true, name := urlEncode p.1, value := urlEncode p.2, dict := d } rest := by
  rw [List.append_assoc, List.append_assoc, loop_name _ _ _ rfl (fun c hc => plain_of_mem hc) (by simpa using hp.nameMax)]
  rw [List.singleton_append]
  rw [loop]
  dsimp only [step]
  rw [if_pos rfl, if_pos rfl]
  dsimp only
  rw [loop_value _ _ _ rfl (fun c hc => plain_of_mem hc) (by simpa using hp.valueMax)]
  rfl

theorem parse_make (d ps : Dict) (h : ∀ p ∈ ps, PairOk p) :
    parseUrlEncoded d (makeQueryString ps) = (true, d ++ ps) := by
  induction ps generalizing d with
  | nil => simp [parseUrlEncoded, makeQueryString, loop]
  | cons p r ih =>
    have hp := h p List.mem_cons_self
    have hput : put { inValue := true, name := urlEncode p.1, value := urlEncode p.2, dict := d } = d ++ [p] := by
      unfold put Dict.insert
      dsimp only
      rw [Props.UrlCodec.url_roundtrip_partial _ hp.nameNul, Props.UrlCodec.url_roundtrip_partial _ hp.valueNul]
    have hne : (urlEncode p.1).isEmpty = false := by
      cases hh : urlEncode p.1 with
      | nil => exact absurd hh (urlEncode_ne_nil hp.nameSet)
      | cons _ _ => rfl
    cases r with
    | nil =>
      have := loop_pair d p hp []
      rw [List.append_nil] at this
      unfold parseUrlEncoded makeQueryString
      rw [this]
      simp only [loop, hne]
      rw [← hput]; rfl
    | cons q r =>
      have e : makeQueryString (p :: q :: r) =
          urlEncode p.1 ++ [c! "="] ++ urlEncode p.2 ++ (c! "&" :: makeQueryString (q :: r)) := by
        obtain ⟨n, v⟩ := p
        rw [makeQueryString]
        · simp
        · intro hh; cases hh
      unfold parseUrlEncoded
      rw [e, loop_pair d p hp, loop]
      dsimp only [step]
      rw [if_neg (by simp), if_pos rfl, hne, if_neg (by simp), hput]
      dsimp only
      have := ih (d ++ [p]) (fun x hx => h x (List.mem_cons_of_mem _ hx))
      unfold parseUrlEncoded at this
      rw [this]
      simp

/-- **C20 (without zero bytes and empty names).** Parsing the query string made from a list of pairs succeeds
    and yields exactly the pairs, in order. -/
theorem query_roundtrip_partial (ps : Dict) (h : ∀ p ∈ ps, PairOk p) :
    parseUrlEncoded [] (makeQueryString ps) = (true, ps) := parse_make [] ps h

/-- **C20 (appending).** The pairs are added to those already in the dictionary. -/
theorem query_roundtrip_append_partial (d ps : Dict) (h : ∀ p ∈ ps, PairOk p) :
    parseUrlEncoded d (makeQueryString ps) = (true, d ++ ps) := parse_make d ps h

/-- A list with separators, a repeated name, an empty value and bytes above 0x7f. -/
def pairs : Dict := [(b! "a&b", b! "1=2,3"), (b! "x", []), (b! "x", [0xff, 0x0a, 0x20, 0x2b])]
example : ∀ p ∈ pairs, PairOk p := by
  intro p hp
  simp only [pairs, List.mem_cons, List.not_mem_nil, or_false] at hp
  rcases hp with rfl | rfl | rfl <;> exact ⟨by decide, by decide +kernel, by decide +kernel, by decide +kernel, by decide +kernel⟩
example : makeQueryString pairs = b! "a%26b=1%3D2%2C3&x=&x=%FF%0A%20%2B" := by decide +kernel

/-- **C20 fails for empty names**: the pair is dropped. -/
theorem query_drops_empty_name : parseUrlEncoded [] (makeQueryString [([], b! "v"), (b! "a", b! "b")]) =
    (true, [(b! "a", b! "b")]) := by decide +kernel

/-- **C20 fails for zero bytes.** -/
theorem query_changes_nul : parseUrlEncoded [] (makeQueryString [(b! "a", [0])]) = (true, [(b! "a", b! "%00")]) := by
  decide +kernel

/-! ### Arbitrary text -/

/-- What `parse_url_encoded` keeps within bounds while it reads. -/
theorem step_bounds (s s' : St) (c : UInt8) (h : step s c = some s') (hn : s.name.length ≤ 1024)
    (hv : s.value.length ≤ 1048576) (hd : ∀ e ∈ s.dict, e.1.length ≤ 1024 ∧ e.2.length ≤ 1048576) :
    s'.name.length ≤ 1024 ∧ s'.value.length ≤ 1048576 ∧
      ∀ e ∈ s'.dict, e.1.length ≤ 1024 ∧ e.2.length ≤ 1048576 := by
  have hput : ∀ e ∈ put s, e.1.length ≤ 1024 ∧ e.2.length ≤ 1048576 := by
    intro e he
    unfold put Dict.insert at he
    rcases List.mem_append.1 he with he | he
    · exact hd e he
    · rw [List.mem_singleton] at he
      subst he
      exact ⟨Nat.le_trans (Props.UrlCodec.url_decode_length_le _) hn,
        Nat.le_trans (Props.UrlCodec.url_decode_length_le _) hv⟩
  unfold step NAME_MAX VALUE_MAX at h
  repeat' split at h
  all_goals first
    | (cases h; done)
    | (cases h
       refine ⟨?_, ?_, ?_⟩ <;> first
         | assumption
         | (intro e he; first | exact hput e he | exact hd e he)
         | (simp only [List.length_nil]; omega)
         | (simp only [List.length_append, List.length_singleton]
            rename_i hh
            simp only [Bool.or_eq_true, decide_eq_true_eq, not_or, Nat.not_le] at hh
            omega))

theorem loop_bounds (t : Bytes) (s : St) (hn : s.name.length ≤ 1024)
    (hv : s.value.length ≤ 1048576) (hd : ∀ e ∈ s.dict, e.1.length ≤ 1024 ∧ e.2.length ≤ 1048576) :
    match loop s t with
    | .inl d => ∀ e ∈ d, e.1.length ≤ 1024 ∧ e.2.length ≤ 1048576
    | .inr s' => s'.name.length ≤ 1024 ∧ s'.value.length ≤ 1048576 ∧
      ∀ e ∈ s'.dict, e.1.length ≤ 1024 ∧ e.2.length ≤ 1048576 := by
  induction t generalizing s with
  | nil => exact ⟨hn, hv, hd⟩
  | cons c t ih =>
    unfold loop
    cases h : step s c with
    | none => exact hd
    | some s' =>
      obtain ⟨a, b, d⟩ := step_bounds s s' c h hn hv hd
      exact ih s' a b d

/-- **C20 (limits).** Whatever text is parsed, and whether or not parsing succeeds, every name and value added
    to the dictionary respects the limits of 1024 and 1048576 bytes. -/
theorem parsed_pairs_bounded (t : Bytes) :
    ∀ e ∈ (parseUrlEncoded [] t).2, e.1.length ≤ 1024 ∧ e.2.length ≤ 1048576 := by
  have h := loop_bounds t { dict := [] } (by simp) (by simp) (by simp)
  unfold parseUrlEncoded
  cases hl : loop { dict := [] } t with
  | inl d => rw [hl] at h; exact h
  | inr s =>
    rw [hl] at h
    dsimp only
    split
    · exact h.2.2
    · intro e he
      unfold put Dict.insert at he
      rcases List.mem_append.1 he with he | he
      · exact h.2.2 e he
      · rw [List.mem_singleton] at he
        subst he
        exact ⟨Nat.le_trans (Props.UrlCodec.url_decode_length_le _) h.1,
          Nat.le_trans (Props.UrlCodec.url_decode_length_le _) h.2.1⟩

/-- A name of 1025 bytes is refused, one of 1024 is accepted. -/
theorem name_limit_exact (n : Bytes) (v : Bytes) (hn : ∀ c ∈ n, plain c = true) (hv : ∀ c ∈ v, plain c = true)
    (hlv : v.length ≤ 1048576) (hne : n ≠ []) :
    parseUrlEncoded [] (n ++ [c! "="] ++ v) =
      if n.length ≤ 1024 then (true, [(urlDecode n, urlDecode v)]) else (false, []) := by
  split
  · rename_i hl
    unfold parseUrlEncoded
    rw [List.append_assoc, loop_name n _ _ rfl hn (by simpa using hl), List.singleton_append, loop]
    dsimp only [step]
    rw [if_pos rfl, if_pos rfl]
    dsimp only
    have := loop_value v { inValue := true, name := [] ++ n, value := [], dict := [] } [] rfl hv (by simpa using hlv)
    rw [List.append_nil] at this
    rw [this]
    cases n with
    | nil => exact absurd rfl hne
    | cons a n => rfl
  · rename_i hl
    obtain ⟨w, c, r, hw, hs⟩ : ∃ w c r, w.length = 1024 ∧ n = w ++ c :: r := by
      refine ⟨n.take 1024, n[1024]'(by omega), n.drop 1025, by simp; omega, ?_⟩
      rw [← List.drop_eq_getElem_cons, List.take_append_drop]
    subst hs
    unfold parseUrlEncoded
    rw [List.append_assoc, List.append_assoc, loop_name w _ _ rfl (fun c hc => hn c (List.mem_append_left _ hc)) (by simp [hw]), List.cons_append,
      loop]
    have hc := hn c (by simp)
    unfold plain at hc
    simp only [Bool.and_eq_true, bne_iff_ne, ne_eq, Bool.not_eq_true'] at hc
    obtain ⟨⟨⟨⟨⟨⟨h1, h2⟩, h3⟩, h4⟩, h5⟩, h6⟩, h7⟩ := hc
    have : step { dict := [], name := [] ++ w } c = none := by
      unfold step NAME_MAX
      dsimp only
      rw [if_pos rfl, if_neg h1, if_neg h2, if_neg (by simp [h4, h5, h6]), if_pos (by simp [hw])]
    rw [this]

/-- A value of 1048577 bytes is refused, one of 1048576 is accepted. -/
theorem value_limit_exact (n : Bytes) (v : Bytes) (hn : ∀ c ∈ n, plain c = true) (hv : ∀ c ∈ v, plain c = true)
    (hln : n.length ≤ 1024) (hne : n ≠ []) :
    parseUrlEncoded [] (n ++ [c! "="] ++ v) =
      if v.length ≤ 1048576 then (true, [(urlDecode n, urlDecode v)]) else (false, []) := by
  split
  · rename_i hl
    rw [name_limit_exact n v hn hv hl hne, if_pos hln]
  · rename_i hl
    obtain ⟨w, c, r, hw, hs⟩ : ∃ w c r, w.length = 1048576 ∧ v = w ++ c :: r := by
      refine ⟨v.take 1048576, v[1048576]'(by omega), v.drop 1048577, by simp; omega, ?_⟩
      rw [← List.drop_eq_getElem_cons, List.take_append_drop]
    subst hs
    unfold parseUrlEncoded
    rw [List.append_assoc, loop_name n _ _ rfl hn (by simpa using hln), List.singleton_append, loop]
    dsimp only [step]
    rw [if_pos rfl, if_pos rfl]
    dsimp only
    rw [loop_value w { inValue := true, name := [] ++ n, value := [], dict := [] } _ rfl
      (fun c hc => hv c (List.mem_append_left _ hc)) (by simp [hw]), loop]
    have hc := hv c (by simp)
    unfold plain at hc
    simp only [Bool.and_eq_true, bne_iff_ne, ne_eq, Bool.not_eq_true'] at hc
    obtain ⟨⟨⟨⟨⟨⟨h1, h2⟩, h3⟩, h4⟩, h5⟩, h6⟩, h7⟩ := hc
    have : step { inValue := true, name := [] ++ n, value := [] ++ w, dict := [] } c = none := by
      unfold step VALUE_MAX
      dsimp only
      rw [if_neg (by simp), if_neg h2, if_neg h3, if_neg (by simp [h4, h5, h6]), if_pos (by simp [hw])]
    rw [this]

example : ∀ c ∈ List.replicate 2000 (c! "a"), plain c = true := by
  intro c hc; rw [List.eq_of_mem_replicate hc]; decide +kernel

end Verif.Props.Query
