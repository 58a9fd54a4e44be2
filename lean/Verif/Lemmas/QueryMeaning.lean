import Verif.Model.Query
import Verif.Spec.Query
import Mathlib.Tactic.Convert
import Mathlib.Tactic.Tauto
import Mathlib.Tactic.SplitIfs
import Mathlib.Data.List.Induction
/-
Lemmas for `Props/QueryMeaning`: cutting texts, and the loop of `parse_url_encoded` against it.
-/
namespace Verif.Query
open Verif Verif.UrlCodec Verif.Spec.Query

theorem split_nil (c : UInt8) : ([] : Bytes).splitOn c = [[]] := List.splitOn_nil c

theorem split_sep (c : UInt8) (t : Bytes) : (c :: t).splitOn c = [] :: t.splitOn c := by
  show List.splitOnP _ _ = _ :: List.splitOnP _ _
  rw [List.splitOnP_cons_eq_if_modifyHead, if_pos (by simp)]

theorem split_other {c x : UInt8} (hx : x ≠ c) {t h : Bytes} {r : List Bytes} (e : t.splitOn c = h :: r) :
    (x :: t).splitOn c = (x :: h) :: r := by
  have e' : List.splitOnP (· == c) t = h :: r := e
  show List.splitOnP _ _ = _
  rw [List.splitOnP_cons_eq_if_modifyHead, if_neg (by simpa using hx), e']
  rfl

theorem split_cons (c : UInt8) (t : Bytes) : ∃ h r, t.splitOn c = h :: r := by
  cases e : t.splitOn c with
  | nil => exact absurd e (List.splitOnP_ne_nil _ _)
  | cons h r => exact ⟨h, r, rfl⟩

theorem nameOf_plain {n : Bytes} (h : c! "=" ∉ n) : nameOf n = n := by
  induction n with
  | nil => rfl
  | cons x n ih =>
    have hx : x ≠ c! "=" := fun e => h (e ▸ List.mem_cons_self)
    unfold nameOf at ih ⊢
    rw [List.takeWhile_cons, if_pos (by simpa using hx), ih fun hm => h (List.mem_cons_of_mem _ hm)]

theorem nameOf_value {n : Bytes} (h : c! "=" ∉ n) (v : Bytes) : nameOf (n ++ c! "=" :: v) = n := by
  induction n with
  | nil => rfl
  | cons x n ih =>
    have hx : x ≠ c! "=" := fun e => h (e ▸ List.mem_cons_self)
    unfold nameOf at ih ⊢
    rw [List.cons_append, List.takeWhile_cons, if_pos (by simpa using hx), ih fun hm => h (List.mem_cons_of_mem _ hm)]

theorem valuesOf_plain {n : Bytes} (h : c! "=" ∉ n) : valuesOf n = [[]] := by
  induction n with
  | nil => rfl
  | cons x n ih =>
    have hx : x ≠ c! "=" := fun e => h (e ▸ List.mem_cons_self)
    unfold valuesOf at ih ⊢
    rw [List.dropWhile_cons, if_pos (by simpa using hx), ih fun hm => h (List.mem_cons_of_mem _ hm)]

theorem valuesOf_value {n : Bytes} (h : c! "=" ∉ n) (v : Bytes) : valuesOf (n ++ c! "=" :: v) = v.splitOn (c! ",") := by
  induction n with
  | nil => rfl
  | cons x n ih =>
    have hx : x ≠ c! "=" := fun e => h (e ▸ List.mem_cons_self)
    unfold valuesOf at ih ⊢
    rw [List.cons_append, List.dropWhile_cons, if_pos (by simpa using hx), ih fun hm => h (List.mem_cons_of_mem _ hm)]

/-- Decoding of a pair. -/
def dec (p : Bytes × Bytes) : Bytes × Bytes := (urlDecode p.1, urlDecode p.2)

/-- The limits for one field. -/
def FieldOk (f : Bytes) : Prop := (nameOf f).length ≤ 1024 ∧ ∀ v ∈ valuesOf f, v.length ≤ 1048576

/-- What the end of `parse_url_encoded` makes of the state (/repo/src/http_parser.cpp:980-985). -/
def fin (s : St) : Dict := if s.name.isEmpty then s.dict else put s

/-- The loop, from the given state, adds the given pairs, provided the text is acceptable, otherwise the first of them. -/
def Adds (s : St) (t : Bytes) (E : List (Bytes × Bytes)) (A : Prop) : Prop :=
  match loop s t with
  | .inl d => ¬A ∧ ∃ l, l <+: E ∧ d = s.dict ++ l.map dec
  | .inr s' => A ∧ fin s' = s.dict ++ E.map dec

theorem Adds.stop {s : St} {c : UInt8} {t : Bytes} {E : List (Bytes × Bytes)} {A : Prop} (h : step s c = none) (hA : ¬A) :
    Adds s (c :: t) E A := by
  unfold Adds
  rw [loop, h]
  exact ⟨hA, [], List.nil_prefix, by simp⟩

theorem Adds.go {s s1 : St} {c : UInt8} {t : Bytes} {p E : List (Bytes × Bytes)} {A A' : Prop} (h : step s c = some s1)
    (hd : s1.dict = s.dict ++ p.map dec) (hA : A' ↔ A) (ih : Adds s1 t E A') : Adds s (c :: t) (p ++ E) A := by
  unfold Adds at ih ⊢
  rw [loop, h]
  dsimp only
  split
  · rename_i d e
    rw [e] at ih
    obtain ⟨h1, l, hl, hd'⟩ := ih
    refine ⟨fun hx => h1 (hA.2 hx), p ++ l, (List.prefix_append_right_inj p).2 hl, ?_⟩
    rw [hd', hd, List.map_append, List.append_assoc]
  · rename_i s' e
    rw [e] at ih
    refine ⟨hA.1 ih.1, ?_⟩
    rw [ih.2, hd, List.map_append, List.append_assoc]

theorem ignored_step (s : St) {c : UInt8} (h : c = 0x0d ∨ c = 0x0a ∨ c = 0x09) : step s c = some s := by
  unfold step
  rcases h with rfl | rfl | rfl <;> cases s.inValue <;> simp

theorem loop_kept (t : Bytes) : ∀ s : St, loop s t = loop s (kept t) := by
  induction t with
  | nil => intro s; rfl
  | cons c t ih =>
    intro s
    by_cases hc : c = 0x0d ∨ c = 0x0a ∨ c = 0x09
    · have e : kept (c :: t) = kept t := by
        unfold kept
        rw [List.filter_cons, if_neg]
        rcases hc with rfl | rfl | rfl <;> simp
      rw [e, loop, ignored_step s hc]
      exact ih s
    · have e : kept (c :: t) = c :: kept t := by
        unfold kept
        rw [List.filter_cons, if_pos]
        simp only [not_or] at hc
        simp [hc]
      rw [e, loop, loop]
      cases step s c with
      | none => rfl
      | some s1 => exact ih s1

theorem kept_mem {t : Bytes} {c : UInt8} (h : c ∈ kept t) : ¬(c = 0x0d ∨ c = 0x0a ∨ c = 0x09) := by
  have := (List.mem_filter.1 h).2
  simp only [Bool.not_eq_true', Bool.or_eq_false_iff, beq_eq_false_iff_ne, ne_eq] at this
  tauto

/-- The limits for the rest of a text. -/
def RestOk (r : List Bytes) (t : Bytes) : Prop := (∀ f ∈ r, FieldOk f) ∧ ∀ c ∈ t, isControl c = false

theorem restOk_cons {r : List Bytes} {c : UInt8} {t : Bytes} (h : isControl c = false) : RestOk r t ↔ RestOk r (c :: t) := by
  unfold RestOk
  simp [h]

theorem adds (t : Bytes) : (∀ c ∈ t, ¬(c = 0x0d ∨ c = 0x0a ∨ c = 0x09)) → ∀ (s : St) (h : Bytes) (r : List Bytes),
    t.splitOn (c! "&") = h :: r →
    (s.inValue = false → s.value = [] → c! "=" ∉ s.name → s.name.length ≤ 1024 →
      Adds s t (pairsOf (s.name ++ h) ++ r.flatMap pairsOf) (FieldOk (s.name ++ h) ∧ RestOk r t)) ∧
    (s.inValue = true → s.value.length ≤ 1048576 → ∀ (v : Bytes) (vs : List Bytes), h.splitOn (c! ",") = v :: vs →
      Adds s t ((if s.name = [] then [] else ((s.value ++ v) :: vs).map fun v => (s.name, v)) ++ r.flatMap pairsOf)
        (((s.value ++ v).length ≤ 1048576 ∧ ∀ v ∈ vs, v.length ≤ 1048576) ∧ RestOk r t)) := by
  induction t with
  | nil =>
    intro _ s h r e
    rw [split_nil] at e
    cases e
    constructor
    · intro h1 h2 h3 h4
      refine ⟨⟨?_, nofun, nofun⟩, ?_⟩
      · rw [List.append_nil]
        exact ⟨by rw [nameOf_plain h3]; exact h4, by rw [valuesOf_plain h3]; simp⟩
      · rw [List.append_nil]
        unfold fin pairsOf
        rw [nameOf_plain h3, valuesOf_plain h3]
        cases hn : s.name with
        | nil => simp
        | cons a n => simp [put, Dict.insert, hn, h2, dec]
    · intro h1 h2 v vs e
      rw [split_nil] at e
      cases e
      refine ⟨⟨⟨by rw [List.append_nil]; exact h2, nofun⟩, nofun, nofun⟩, ?_⟩
      unfold fin
      cases hn : s.name with
      | nil => simp
      | cons a n => simp [put, Dict.insert, hn, dec]
  | cons c t ih =>
    intro hk s h r e
    have ih := ih fun c hc => hk c (List.mem_cons_of_mem _ hc)
    have hc := hk c List.mem_cons_self
    obtain ⟨h', r', e'⟩ := split_cons (c! "&") t
    have hig : (c = 0x0d || c = 0x0a || c = 0x09) = false := by simpa [not_or, and_assoc] using hc
    have hcmma : isControl (c! "&") = false ∧ isControl (c! "=") = false ∧ isControl (c! ",") = false := by decide +kernel
    constructor
    · intro h1 h2 h3 h4
      by_cases heq : c = c! "="
      · subst heq
        rw [split_other (by decide) e'] at e
        cases e
        obtain ⟨v, vs, ev⟩ := split_cons (c! ",") h'
        have := (ih { s with inValue := true } h' r e').2 rfl (by simp [h2]) v vs ev
        refine Adds.go (p := []) (A' := FieldOk (s.name ++ c! "=" :: h') ∧ RestOk r t) (s1 := { s with inValue := true })
          (by simp [step, h1]) (by simp) ?_ ?_
        · rw [← restOk_cons hcmma.2.1]
        · convert this using 1
          · unfold pairsOf
            rw [nameOf_value h3, valuesOf_value h3, ev]
            simp [h2]
          · unfold FieldOk
            rw [nameOf_value h3, valuesOf_value h3, ev]
            simp [h2, h4]
      · by_cases ham : c = c! "&"
        · subst ham
          rw [split_sep, e'] at e
          cases e
          have hA : FieldOk s.name := ⟨by rw [nameOf_plain h3]; exact h4, by rw [valuesOf_plain h3]; simp⟩
          by_cases hn : s.name = []
          · have := (ih s h' r' e').1 h1 h2 h3 h4
            rw [hn] at this ⊢
            refine Adds.go (p := pairsOf []) (s1 := s) (by simp [step, h1, hn]) (by simp [pairsOf, nameOf]) ?_ this
            rw [← restOk_cons hcmma.1]
            rw [hn] at hA
            simp only [List.append_nil, List.nil_append, hA, true_and, RestOk, List.mem_cons, forall_eq_or_imp, and_assoc]
          · have := (ih { s with dict := put s, name := [] } h' r' e').1 h1 h2 (by simp) (by simp)
            refine Adds.go (p := pairsOf (s.name ++ [])) (s1 := { s with dict := put s, name := [] })
              (by simp [step, h1, hn]) ?_ ?_ this
            · simp [pairsOf, nameOf_plain h3, valuesOf_plain h3, hn, put, Dict.insert, dec, h2]
            · rw [← restOk_cons hcmma.1]
              simp only [List.append_nil, List.nil_append, hA, true_and, RestOk, List.mem_cons, forall_eq_or_imp, and_assoc]
        · rw [split_other ham e'] at e
          cases e
          have hst : step s c = if isControl c || NAME_MAX ≤ s.name.length then none else some { s with name := s.name ++ [c] } := by
            unfold step
            rw [if_pos h1, if_neg heq, if_neg ham, hig]
            rfl
          by_cases hno : isControl c = true
          · refine Adds.stop (by rw [hst, hno]; rfl) fun hA => ?_
            have := hA.2.2 c List.mem_cons_self
            rw [hno] at this
            cases this
          · have hno : isControl c = false := by simpa using hno
            by_cases hlen : 1024 ≤ s.name.length
            · refine Adds.stop (by rw [hst, if_pos]; simp [NAME_MAX, hlen]) fun hA => ?_
              have h5 := hA.1.1
              have : (s.name ++ [c]).length ≤ (nameOf (s.name ++ c :: h')).length := by
                have e : s.name ++ c :: h' = (s.name ++ [c]) ++ h' := by simp
                rw [e]
                unfold nameOf
                rw [List.takeWhile_append_of_pos]
                · simp
                · intro x hx
                  rcases List.mem_append.1 hx with hx | hx
                  · have : x ≠ c! "=" := fun e => h3 (e ▸ hx)
                    simpa using this
                  · simpa [List.mem_singleton.1 hx] using heq
              simp only [List.length_append, List.length_cons, List.length_nil] at this
              omega
            · have := (ih { s with name := s.name ++ [c] } h' r e').1 h1 h2
                (by simp only [List.mem_append, List.mem_singleton, not_or]; exact ⟨h3, fun e => heq e.symm⟩)
                (by simp only [List.length_append, List.length_cons, List.length_nil]; omega)
              simp only [List.append_assoc, List.singleton_append] at this
              refine Adds.go (p := []) (s1 := { s with name := s.name ++ [c] }) ?_ (by simp) ?_ this
              · rw [hst, hno, if_neg]
                intro hb
                rcases Bool.or_eq_true_iff.1 hb with hb | hb
                · cases hb
                · exact hlen (of_decide_eq_true hb)
              · rw [← restOk_cons hno]
    · intro h1 h2 v vs ev
      have hd : step s c = if c = c! "&" then
            if s.name.isEmpty then some { s with value := [], inValue := false }
            else some { s with dict := put s, name := [], value := [], inValue := false }
          else if c = c! "," then
            if s.name.isEmpty then some { s with value := [] }
            else some { s with dict := put s, value := [] }
          else if isControl c || VALUE_MAX ≤ s.value.length then none
          else some { s with value := s.value ++ [c] } := by
        unfold step
        rw [if_neg (by simp [h1]), hig]
        rfl
      by_cases ham : c = c! "&"
      · subst ham
        rw [split_sep, e'] at e
        cases e
        rw [split_nil] at ev
        cases ev
        rw [if_pos rfl] at hd
        have iff : (FieldOk ([] ++ h') ∧ RestOk r' t) ↔
            (((s.value ++ []).length ≤ 1048576 ∧ ∀ v ∈ ([] : List Bytes), v.length ≤ 1048576) ∧ RestOk (h' :: r') (c! "&" :: t)) := by
          rw [← restOk_cons hcmma.1]
          simp only [List.append_nil, List.nil_append, h2, true_and, RestOk, List.mem_cons, forall_eq_or_imp, and_assoc,
            List.not_mem_nil, false_implies, implies_true]
        by_cases hn : s.name = []
        · rw [if_pos (by simp [hn])] at hd
          have := (ih { s with value := [], inValue := false } h' r' e').1 rfl rfl (by simp [hn]) (by simp [hn])
          have e1 : s.name ++ h' = [] ++ h' := by rw [hn]
          dsimp only at this
          rw [e1] at this
          rw [if_pos hn]
          exact Adds.go (p := []) hd (by simp) iff this
        · rw [if_neg (by simp [hn])] at hd
          have := (ih { s with dict := put s, name := [], value := [], inValue := false } h' r' e').1 rfl rfl (by simp) (by simp)
          rw [if_neg hn]
          exact Adds.go hd (by simp [put, Dict.insert, dec]) iff this
      · rw [split_other ham e'] at e
        cases e
        rw [if_neg ham] at hd
        obtain ⟨v', vs', ev'⟩ := split_cons (c! ",") h'
        by_cases hcm : c = c! ","
        · subst hcm
          rw [split_sep, ev'] at ev
          cases ev
          rw [if_pos rfl] at hd
          have iff : ((([] ++ v').length ≤ 1048576 ∧ ∀ v ∈ vs', v.length ≤ 1048576) ∧ RestOk r t) ↔
              (((s.value ++ []).length ≤ 1048576 ∧ ∀ v ∈ v' :: vs', v.length ≤ 1048576) ∧ RestOk r (c! "," :: t)) := by
            rw [← restOk_cons hcmma.2.2]
            simp only [List.append_nil, List.nil_append, h2, true_and, List.mem_cons, forall_eq_or_imp]
          by_cases hn : s.name = []
          · rw [if_pos (by simp [hn])] at hd
            have := (ih { s with value := [] } h' r e').2 h1 (by simp) v' vs' ev'
            simp only [if_pos hn] at this ⊢
            exact Adds.go (p := []) hd (by simp) iff this
          · rw [if_neg (by simp [hn])] at hd
            have := (ih { s with dict := put s, value := [] } h' r e').2 h1 (by simp) v' vs' ev'
            simp only [if_neg hn] at this ⊢
            exact Adds.go (p := [(s.name, s.value ++ [])]) hd (by simp [put, Dict.insert, dec]) iff this
        · rw [split_other hcm ev'] at ev
          cases ev
          rw [if_neg hcm] at hd
          by_cases hno : isControl c = true
          · refine Adds.stop (by rw [hd, hno]; rfl) fun hA => ?_
            have := hA.2.2 c List.mem_cons_self
            rw [hno] at this
            cases this
          · have hno : isControl c = false := by simpa using hno
            by_cases hlen : 1048576 ≤ s.value.length
            · refine Adds.stop (by rw [hd, if_pos]; simp [VALUE_MAX, hlen]) fun hA => ?_
              have := hA.1.1
              simp only [List.length_append, List.length_cons] at this
              omega
            · have := (ih { s with value := s.value ++ [c] } h' r e').2 h1
                (by simp only [List.length_append, List.length_cons, List.length_nil]; omega) v' vs ev'
              simp only [List.append_assoc, List.singleton_append] at this
              refine Adds.go (p := []) (s1 := { s with value := s.value ++ [c] }) ?_ (by simp) ?_ this
              · rw [hd, hno, if_neg]
                intro hb
                rcases Bool.or_eq_true_iff.1 hb with hb | hb
                · cases hb
                · exact hlen (of_decide_eq_true hb)
              · rw [← restOk_cons hno]

theorem acceptable_iff {t h : Bytes} {r : List Bytes} (e : (kept t).splitOn (c! "&") = h :: r) :
    Acceptable t ↔ FieldOk h ∧ RestOk r (kept t) := by
  constructor
  · rintro ⟨h1, h2, h3⟩
    unfold fields at h2 h3
    rw [e] at h2 h3
    exact ⟨⟨h2 h List.mem_cons_self, h3 h List.mem_cons_self⟩,
      fun f hf => ⟨h2 f (List.mem_cons_of_mem _ hf), h3 f (List.mem_cons_of_mem _ hf)⟩, h1⟩
  · rintro ⟨h1, h2, h3⟩
    refine ⟨h3, ?_, ?_⟩ <;> unfold fields <;> rw [e] <;> intro f hf <;> rcases List.mem_cons.1 hf with rfl | hf
    · exact h1.1
    · exact (h2 f hf).1
    · exact h1.2
    · exact (h2 f hf).2

/-- The field the text ends in. -/
def lastField (t : Bytes) : Bytes := (t.splitOn (c! "&")).getLast?.getD []

theorem split_snoc_sep (c : UInt8) (t : Bytes) : (t ++ [c]).splitOn c = t.splitOn c ++ [[]] := by
  induction t with
  | nil => simp [split_sep]
  | cons x t ih =>
    obtain ⟨h, r, e⟩ := split_cons c t
    rw [List.cons_append]
    by_cases hx : x = c
    · subst hx
      rw [split_sep, split_sep, ih, List.cons_append]
    · rw [split_other hx e, split_other hx (h := h) (r := r ++ [[]]) (by rw [ih, e]; rfl)]
      rfl

theorem split_snoc_other {c x : UInt8} (hx : x ≠ c) (t : Bytes) :
    ∃ (l : List Bytes) (h : Bytes), t.splitOn c = l ++ [h] ∧ (t ++ [x]).splitOn c = l ++ [h ++ [x]] := by
  induction t with
  | nil => exact ⟨[], [], split_nil c, split_other hx (split_nil c)⟩
  | cons y t ih =>
    obtain ⟨l, h, e1, e2⟩ := ih
    rw [List.cons_append]
    by_cases hy : y = c
    · subst hy
      exact ⟨[] :: l, h, by rw [split_sep, e1]; rfl, by rw [split_sep, e2]; rfl⟩
    · cases l with
      | nil => exact ⟨[], y :: h, split_other hy e1, split_other hy e2⟩
      | cons a l => exact ⟨(y :: a) :: l, h, split_other hy e1, split_other hy e2⟩

theorem lastField_sep (t : Bytes) : lastField (t ++ [c! "&"]) = [] := by
  unfold lastField
  rw [split_snoc_sep]
  simp

theorem lastField_other {x : UInt8} (hx : x ≠ c! "&") (t : Bytes) : lastField (t ++ [x]) = lastField t ++ [x] := by
  obtain ⟨l, h, e1, e2⟩ := split_snoc_other hx t
  unfold lastField
  rw [e1, e2]
  simp

theorem loop_append (u w : Bytes) : ∀ s : St, loop s (u ++ w) = match loop s u with
    | .inl d => .inl d
    | .inr s' => loop s' w := by
  induction u with
  | nil => intro s; rfl
  | cons c u ih =>
    intro s
    rw [List.cons_append, loop, loop]
    cases step s c with
    | none => rfl
    | some s1 => exact ih s1

theorem nameOf_done {f : Bytes} (h : c! "=" ∈ f) (x : Bytes) : nameOf (f ++ x) = nameOf f := by
  obtain ⟨a, b, rfl, ha⟩ := List.eq_append_cons_of_mem h
  rw [List.append_assoc, List.cons_append, nameOf_value ha, nameOf_value ha]

/-- What the loop knows of the field it is in. -/
theorem loop_name (u : Bytes) (hu : ∀ c ∈ u, ¬(c = 0x0d ∨ c = 0x0a ∨ c = 0x09)) (d : Dict) (s : St)
    (h : loop { dict := d } u = .inr s) :
    s.name = nameOf (lastField u) ∧ (s.inValue = true ↔ c! "=" ∈ lastField u) := by
  induction u using List.reverseRecOn generalizing s with
  | nil =>
    cases h
    simp [lastField, nameOf]
  | append_singleton u c ih =>
    rw [loop_append] at h
    cases e : loop { dict := d } u with
    | inl d' => rw [e] at h; cases h
    | inr s1 =>
      obtain ⟨i1, i2⟩ := ih (fun c hc => hu c (List.mem_append_left _ hc)) s1 e
      have hc := hu c (by simp)
      have hig : (c = 0x0d || c = 0x0a || c = 0x09) = false := by simpa [not_or, and_assoc] using hc
      rw [e] at h
      dsimp only at h
      rw [loop] at h
      by_cases ham : c = c! "&"
      · subst ham
        rw [lastField_sep]
        unfold step at h
        cases hv : s1.inValue <;> cases hn : s1.name <;> simp [hv, hn, loop] at h <;> subst h <;> simp [nameOf, hv, hn]
      · rw [lastField_other ham]
        by_cases hin : c! "=" ∈ lastField u
        · have hv := i2.2 hin
          rw [nameOf_done hin, ← i1]
          unfold step at h
          rw [if_neg (by simp [hv]), if_neg ham, hig] at h
          split_ifs at h <;> simp [loop] at h <;> subst h <;> simp [hv, hin]
        · have hv : s1.inValue = false := by
            cases hv : s1.inValue with
            | false => rfl
            | true => exact absurd (i2.1 hv) hin
          rw [nameOf_plain hin] at i1
          unfold step at h
          rw [if_pos hv] at h
          by_cases heq : c = c! "="
          · subst heq
            rw [if_pos rfl] at h
            simp [loop] at h
            subst h
            rw [nameOf_value hin]
            simp [i1]
          · rw [if_neg heq, if_neg ham, hig, if_neg nofun] at h
            have hin' : c! "=" ∉ lastField u ++ [c] := by
              simp only [List.mem_append, List.mem_singleton, not_or]
              exact ⟨hin, fun e => heq e.symm⟩
            rw [nameOf_plain hin']
            split_ifs at h
            simp [loop] at h
            subst h
            exact ⟨by rw [← i1], by simp [hv, hin']⟩

/-- Where the loop stops. -/
theorem loop_stops (t : Bytes) : ∀ (s : St) (d : Dict), loop s t = .inl d →
    ∃ u c w s1, t = u ++ c :: w ∧ loop s u = .inr s1 ∧ step s1 c = none ∧ d = s1.dict := by
  induction t with
  | nil => intro s d h; cases h
  | cons c t ih =>
    intro s d h
    rw [loop] at h
    cases e : step s c with
    | none =>
      rw [e] at h
      cases h
      exact ⟨[], c, t, s, rfl, rfl, e, rfl⟩
    | some s2 =>
      rw [e] at h
      obtain ⟨u, c', w, s1, rfl, h1, h2, h3⟩ := ih s2 d h
      exact ⟨c :: u, c', w, s1, rfl, by rw [loop, e]; exact h1, h2, h3⟩

end Verif.Query
