import Verif.Model.ForwardedFor
import Verif.Lemmas.Digits
/-
C24: X-Forwarded-For.
-/
namespace Verif.Props.ForwardedFor
open Verif Verif.ForwardedFor

/-- An octet of a dotted address: one to three digits. -/
def Octet (w : Bytes) : Prop := 1 ≤ w.length ∧ w.length ≤ 3 ∧ ∀ c ∈ w, isDigit c = true

/-- A dotted address. -/
structure QuadOk (q : Quad) : Prop where
  a : Octet q.a
  b : Octet q.b
  c : Octet q.c
  d : Octet q.d

/-- Private and local networks: 10/8, 127/8, 192.168/16, 172.16/12, by the first two octets. -/
def Private (a b : Nat) : Prop := a = 10 ∨ a = 127 ∨ (a = 192 ∧ b = 168) ∨ (a = 172 ∧ 16 ≤ b ∧ b ≤ 31)

instance (a b : Nat) : Decidable (Private a b) := by unfold Private; infer_instance

/-- The usual notation of an address. -/
def dotted (a b c d : Nat) : Bytes := toDec a ++ b! "." ++ toDec b ++ b! "." ++ toDec c ++ b! "." ++ toDec d

/-! ### The matcher agrees with the regular expression -/

theorem octet_spec (k : Nat) (s : Bytes) : s = (octet k s).1 ++ (octet k s).2 ∧ (octet k s).1.length ≤ k ∧
    (∀ c ∈ (octet k s).1, isDigit c = true) ∧
    ((octet k s).1.length = k ∨ ∀ c, (octet k s).2.head? = some c → isDigit c = false) := by
  induction k generalizing s with
  | zero => cases s <;> simp [octet]
  | succ k ih =>
    cases s with
    | nil => simp [octet]
    | cons c r =>
      obtain ⟨h1, h2, h3, h4⟩ := ih r
      unfold octet
      split
      · rename_i hc
        refine ⟨?_, ?_, ?_, ?_⟩
        · rw [List.cons_append, ← h1]
        · simpa using h2
        · intro x hx
          rcases List.mem_cons.1 hx with rfl | hx
          · exact hc
          · exact h3 x hx
        · rcases h4 with h4 | h4
          · left; simpa using h4
          · right; exact h4
      · rename_i hc
        refine ⟨rfl, by simp, by simp, .inr ?_⟩
        intro x hx
        cases hx
        simpa using hc

/-- Digits followed by something that is not a digit are all taken. -/
theorem octet_exact (w rest : Bytes) (hw : ∀ c ∈ w, isDigit c = true) (k : Nat) (hk : w.length ≤ k)
    (hr : w.length = k ∨ ∀ c, rest.head? = some c → isDigit c = false) : octet k (w ++ rest) = (w, rest) := by
  induction w generalizing k with
  | nil =>
    cases k with
    | zero => rfl
    | succ k =>
      cases rest with
      | nil => rfl
      | cons c r =>
        have : isDigit c = false := by
          rcases hr with hr | hr
          · simp at hr
          · exact hr c rfl
        simp [octet, this]
  | cons c w ih =>
    cases k with
    | zero => simp at hk
    | succ k =>
      have h1 := ih (fun x hx => hw x (List.mem_cons_of_mem _ hx)) k (by simpa using hk)
        (by rcases hr with hr | hr
            · left; simpa using hr
            · right; exact hr)
      rw [List.cons_append, octet, if_pos (hw c List.mem_cons_self), h1]

theorem octetDot_some {s d r : Bytes} (h : octetDot s = some (d, r)) : s = d ++ b! "." ++ r ∧ Octet d := by
  obtain ⟨h1, h2, h3, h4⟩ := octet_spec 3 s
  unfold octetDot at h
  generalize octet 3 s = x at h h1 h2 h3 h4
  obtain ⟨w, t⟩ := x
  cases t with
  | nil => cases h
  | cons c t =>
    dsimp only at h
    split at h
    · rename_i hc
      cases h
      simp only [Bool.and_eq_true, Bool.not_eq_true', decide_eq_true_eq] at hc
      obtain ⟨hne, rfl⟩ := hc
      refine ⟨by simpa using h1, ?_, h2, h3⟩
      cases d with
      | nil => cases hne
      | cons _ _ => simp
    · cases h

theorem octetDot_of {d r : Bytes} (h : Octet d) : octetDot (d ++ b! "." ++ r) = some (d, r) := by
  obtain ⟨h1, h2, h3⟩ := h
  unfold octetDot
  rw [List.append_assoc, octet_exact d _ h3 3 h2 (.inr (by intro c hc; cases hc; decide))]
  cases d with
  | nil => simp at h1
  | cons _ _ => rfl

/-- A match is a dotted address at the start of the text, with as many digits in the last octet as possible. -/
theorem matchAt_some {s : Bytes} {q : Quad} {rest : Bytes} (h : matchAt s = some (q, rest)) :
    s = q.text ++ rest ∧ QuadOk q ∧ (q.d.length = 3 ∨ ∀ c, rest.head? = some c → isDigit c = false) := by
  unfold matchAt at h
  simp only [Option.bind_eq_bind, Option.bind_eq_some_iff] at h
  obtain ⟨⟨a, s1⟩, ha, ⟨b, s2⟩, hb, ⟨c, s3⟩, hc, h⟩ := h
  obtain ⟨e1, o1⟩ := octetDot_some ha
  obtain ⟨e2, o2⟩ := octetDot_some hb
  obtain ⟨e3, o3⟩ := octetDot_some hc
  obtain ⟨h1, h2, h3, h4⟩ := octet_spec 3 s3
  generalize octet 3 s3 = x at h h1 h2 h3 h4
  obtain ⟨w, t⟩ := x
  dsimp only at h
  split at h
  · cases h
  · rename_i hne
    cases h
    refine ⟨?_, ⟨o1, o2, o3, ?_, h2, h3⟩, h4⟩
    · dsimp only at e2 e3 h1
      rw [e1, e2, e3, h1]; simp [Quad.text]
    · cases w with
      | nil => exact absurd rfl hne
      | cons _ _ => simp

/-- A dotted address at the start of the text is matched; the match may only be longer in the last octet. -/
theorem matchAt_of (q : Quad) (h : QuadOk q) (rest : Bytes)
    (hr : q.d.length = 3 ∨ ∀ c, rest.head? = some c → isDigit c = false) :
    matchAt (q.text ++ rest) = some (q, rest) := by
  obtain ⟨ha, hb, hc, hd⟩ := h
  have e : q.text ++ rest = q.a ++ b! "." ++ (q.b ++ b! "." ++ (q.c ++ b! "." ++ (q.d ++ rest))) := by
    simp [Quad.text]
  unfold matchAt
  rw [e]
  simp only [Option.bind_eq_bind]
  rw [octetDot_of ha, Option.bind_some]
  simp only
  rw [octetDot_of hb, Option.bind_some]
  simp only
  rw [octetDot_of hc, Option.bind_some]
  simp only
  rw [octet_exact q.d rest hd.2.2 3 hd.2.1 hr]
  dsimp only
  have : q.d.isEmpty = false := by
    cases hh : q.d with
    | nil => have := hd.1; rw [hh] at this; simp at this
    | cons _ _ => rfl
  rw [this]
  rfl

/-- No match: no dotted address is a prefix of the text. -/
theorem matchAt_none {s : Bytes} (h : matchAt s = none) (q : Quad) (hq : QuadOk q) : ¬ q.text <+: s := by
  rintro ⟨t, rfl⟩
  -- take the last octet as long as possible
  obtain ⟨h1, h2, h3, h4⟩ := octet_spec (3 - q.d.length) t
  have hd := hq.d
  have hq' : QuadOk { q with d := q.d ++ (octet (3 - q.d.length) t).1 } := by
    refine ⟨hq.a, hq.b, hq.c, ?_, ?_, ?_⟩
    · have := hd.1
      simp only [List.length_append]; omega
    · have := hd.2.1
      simp only [List.length_append]; omega
    · intro c hc
      rcases List.mem_append.1 hc with hc | hc
      · exact hd.2.2 c hc
      · exact h3 c hc
  have := matchAt_of _ hq' (octet (3 - q.d.length) t).2 (by
    rcases h4 with h4 | h4
    · left; have := hd.2.1; simp only [List.length_append]; omega
    · right; exact h4)
  have e : Quad.text { q with d := q.d ++ (octet (3 - q.d.length) t).1 } ++ (octet (3 - q.d.length) t).2 =
      q.text ++ t := by
    conv_rhs => rw [h1]
    simp [Quad.text]
  rw [e, h] at this
  cases this

theorem search_some {s : Bytes} {q : Quad} {rest : Bytes} (h : search s = some (q, rest)) :
    ∃ before, s = before ++ q.text ++ rest ∧ QuadOk q ∧
      ∀ i < before.length, ∀ q', QuadOk q' → ¬ q'.text <+: s.drop i := by
  induction s with
  | nil => cases h
  | cons c r ih =>
    unfold search at h
    split at h
    · rename_i m hm
      cases h
      obtain ⟨h1, h2, -⟩ := matchAt_some hm
      exact ⟨[], by simpa using h1, h2, fun i hi => absurd hi (Nat.not_lt_zero _)⟩
    · rename_i hm
      obtain ⟨b, h1, h2, h3⟩ := ih h
      refine ⟨c :: b, by rw [h1]; simp, h2, ?_⟩
      intro i hi q' hq'
      cases i with
      | zero => exact matchAt_none hm q' hq'
      | succ i => exact h3 i (by simpa using hi) q' hq'

theorem text_pos (q : Quad) : 3 ≤ q.text.length := by simp [Quad.text]; omega

/-! ### The loop -/

theorem loop_total (fuel : Nat) (s : Bytes) (h : s.length < fuel) : loop fuel s ≠ none := by
  induction fuel generalizing s with
  | zero => omega
  | succ fuel ih =>
    unfold loop
    cases hs : search s with
    | none => simp
    | some m =>
      obtain ⟨q, rest⟩ := m
      dsimp only
      split
      · obtain ⟨b, h1, -⟩ := search_some hs
        apply ih
        have := text_pos q
        have := congrArg List.length h1
        simp only [List.length_append] at this
        omega
      · simp

/-- The function always returns. -/
theorem total (header : Bytes) : parseForwardedFor header ≠ none := by
  unfold parseForwardedFor
  split
  · simp
  · have := loop_total (header.length + 1) header (by omega)
    cases h : loop (header.length + 1) header with
    | none => exact absurd h this
    | some x => simp

theorem loop_sound (fuel : Nat) (s : Bytes) (q : Quad) (h : loop fuel s = some (some q)) :
    q.text <:+: s ∧ QuadOk q ∧ isPrivate q = false := by
  induction fuel generalizing s with
  | zero => cases h
  | succ fuel ih =>
    unfold loop at h
    cases hs : search s with
    | none => rw [hs] at h; cases h
    | some m =>
      obtain ⟨q', rest⟩ := m
      rw [hs] at h
      dsimp only at h
      obtain ⟨b, h1, h2, -⟩ := search_some hs
      split at h
      · obtain ⟨i1, i2⟩ := ih rest h
        refine ⟨i1.trans ?_, i2⟩
        rw [h1]
        exact (List.suffix_append _ _).isInfix
      · rename_i hp
        cases h
        refine ⟨?_, h2, by simpa using hp⟩
        rw [h1]
        exact List.infix_append _ _ _

/-! ### Numbers -/

theorem toDec_inj {m n : Nat} (h : toDec m = toDec n) : m = n := by
  rw [← decVal_toDec m, ← decVal_toDec n, h]

theorem second_172 : ∀ b : Fin 1000, second172 (toDec b.val) = decide (16 ≤ b.val ∧ b.val ≤ 31) := by decide +kernel

theorem length_toDec : ∀ b : Fin 1000, 1 ≤ (toDec b.val).length ∧ (toDec b.val).length ≤ 3 := by decide +kernel

theorem octet_toDec (n : Nat) (h : n < 1000) : Octet (toDec n) :=
  ⟨(length_toDec ⟨n, h⟩).1, (length_toDec ⟨n, h⟩).2, toDec_isDigit n⟩

/-- The octets of an address in the usual notation. -/
def quad (a b c d : Nat) : Quad := ⟨toDec a, toDec b, toDec c, toDec d⟩

theorem isPrivate_iff (a b c d : Nat) (hb : b < 1000) : isPrivate (quad a b c d) = decide (Private a b) := by
  have e10 : (toDec a = b! "10") ↔ a = 10 :=
    ⟨fun h => toDec_inj (h.trans (by decide +kernel)), by rintro rfl; decide +kernel⟩
  have e127 : (toDec a = b! "127") ↔ a = 127 :=
    ⟨fun h => toDec_inj (h.trans (by decide +kernel)), by rintro rfl; decide +kernel⟩
  have e192 : (toDec a = b! "192") ↔ a = 192 :=
    ⟨fun h => toDec_inj (h.trans (by decide +kernel)), by rintro rfl; decide +kernel⟩
  have e172 : (toDec a = b! "172") ↔ a = 172 :=
    ⟨fun h => toDec_inj (h.trans (by decide +kernel)), by rintro rfl; decide +kernel⟩
  have e168 : (toDec b = b! "168") ↔ b = 168 :=
    ⟨fun h => toDec_inj (h.trans (by decide +kernel)), by rintro rfl; decide +kernel⟩
  have e2 := second_172 ⟨b, hb⟩
  dsimp only at e2
  unfold isPrivate quad
  dsimp only
  rw [e2, Bool.eq_iff_iff]
  simp only [Bool.or_eq_true, Bool.and_eq_true, decide_eq_true_eq, e10, e127, e192, e172, e168]
  unfold Private
  tauto

/-- The text determines the octets. -/
theorem text_inj {q q' : Quad} (hq : QuadOk q) (hq' : QuadOk q') (h : q.text = q'.text) : q = q' := by
  have hnil : ∀ c, ([] : Bytes).head? = some c → isDigit c = false := by intro c hc; cases hc
  have h1 := matchAt_of q hq [] (.inr hnil)
  have h2 := matchAt_of q' hq' [] (.inr hnil)
  rw [h, h2] at h1
  cases h1
  rfl

/-- **C24 (sound).** A returned address occurs in the header, has the form of a dotted address, and if it is an
    address in the usual notation (no leading zeros), it is outside the private networks. -/
theorem returned_address_public_partial (header ip : Bytes) (h : parseForwardedFor header = some (some ip)) :
    ip <:+: header ∧ (∃ q, QuadOk q ∧ ip = q.text) ∧
    ∀ a b c d, a < 1000 → b < 1000 → c < 1000 → d < 1000 → ip = dotted a b c d → ¬ Private a b := by
  unfold parseForwardedFor at h
  split at h
  · cases h
  · cases hl : loop (header.length + 1) header with
    | none => rw [hl] at h; cases h
    | some x =>
      cases x with
      | none => rw [hl] at h; cases h
      | some q =>
        rw [hl] at h
        cases h
        obtain ⟨h1, h2, h3⟩ := loop_sound _ _ _ hl
        refine ⟨h1, ⟨q, h2, rfl⟩, ?_⟩
        intro a b c d ha hb hc hd e
        have hq : q = quad a b c d :=
          text_inj h2 ⟨octet_toDec a ha, octet_toDec b hb, octet_toDec c hc, octet_toDec d hd⟩ e
        rw [hq, isPrivate_iff a b c d hb] at h3
        exact of_decide_eq_false h3

/-- An address with text in front of it. -/
structure Entry where
  before : Bytes
  a : Nat
  b : Nat
  c : Nat
  d : Nat
  deriving Repr, DecidableEq

def Entry.ip (e : Entry) : Bytes := dotted e.a e.b e.c e.d

/-- The header value. -/
def headerText (es : List Entry) (trail : Bytes) : Bytes := (es.flatMap fun e => e.before ++ e.ip) ++ trail

/-- Octets of at most three digits; the text in front contains no digits. -/
structure Entry.Ok (e : Entry) : Prop where
  small : e.a < 1000 ∧ e.b < 1000 ∧ e.c < 1000 ∧ e.d < 1000
  sep : ∀ c ∈ e.before, isDigit c = false

theorem search_skip (w rest : Bytes) (h : ∀ c ∈ w, isDigit c = false) : search (w ++ rest) = search rest := by
  induction w with
  | nil => rfl
  | cons c w ih =>
    have hm : matchAt (c :: (w ++ rest)) = none := by
      cases hh : matchAt (c :: (w ++ rest)) with
      | none => rfl
      | some m =>
        obtain ⟨q, t⟩ := m
        obtain ⟨h1, h2, -⟩ := matchAt_some hh
        obtain ⟨x, y, hxy⟩ : ∃ x y, q.a = x :: y := by
          cases hq : q.a with
          | nil => have := h2.a.1; rw [hq] at this; simp at this
          | cons x y => exact ⟨x, y, rfl⟩
        have hx := h2.a.2.2 x (by rw [hxy]; exact List.mem_cons_self)
        have : c = x := by
          simp only [Quad.text, hxy, List.cons_append, List.append_assoc, List.cons.injEq] at h1
          exact h1.1
        rw [this] at h
        rw [h x List.mem_cons_self] at hx
        cases hx
    rw [List.cons_append, search, hm]
    exact ih (fun x hx => h x (List.mem_cons_of_mem _ hx))

theorem search_nothing (w : Bytes) (h : ∀ c ∈ w, isDigit c = false) : search w = none := by
  have := search_skip w [] h
  rw [List.append_nil] at this
  rw [this]; rfl

theorem search_at (q : Quad) (h : QuadOk q) (rest : Bytes)
    (hr : ∀ c, rest.head? = some c → isDigit c = false) : search (q.text ++ rest) = some (q, rest) := by
  have hm := matchAt_of q h rest (.inr hr)
  cases hq : q.text ++ rest with
  | nil =>
    have := text_pos q
    have := congrArg List.length hq
    simp only [List.length_append, List.length_nil] at this
    omega
  | cons c r =>
    rw [hq] at hm
    rw [search, hm]

/-- **C24 (first).** For a header that lists addresses in the usual notation, separated by text without digits, the
    first address outside the private networks is returned, or none if there is no such address. -/
theorem first_public_exact (es : List Entry) (trail : Bytes) (hne : headerText es trail ≠ [])
    (hok : ∀ e ∈ es, e.Ok) (hsep : ∀ e ∈ es.tail, e.before ≠ []) (htrail : ∀ c ∈ trail, isDigit c = false) :
    parseForwardedFor (headerText es trail) =
      some ((es.find? fun e => ¬ Private e.a e.b).map Entry.ip) := by
  have key : ∀ (fuel : Nat) (es : List Entry), (∀ e ∈ es, e.Ok) → (∀ e ∈ es.tail, e.before ≠ []) →
      es.length < fuel → loop fuel (headerText es trail) =
        some ((es.find? fun e => ¬ Private e.a e.b).map fun e => quad e.a e.b e.c e.d) := by
    intro fuel
    induction fuel with
    | zero => intro es _ _ h; omega
    | succ fuel ih =>
      intro es hok hsep hf
      cases es with
      | nil =>
        unfold loop headerText
        rw [List.flatMap_nil, List.nil_append, search_nothing trail htrail]
        rfl
      | cons e es =>
        have he := hok e List.mem_cons_self
        have hq : QuadOk (quad e.a e.b e.c e.d) :=
          ⟨octet_toDec _ he.small.1, octet_toDec _ he.small.2.1, octet_toDec _ he.small.2.2.1,
            octet_toDec _ he.small.2.2.2⟩
        have ht : headerText (e :: es) trail = e.before ++ ((quad e.a e.b e.c e.d).text ++ headerText es trail) := by
          simp [headerText, Entry.ip, dotted, quad, Quad.text]
        have hr : ∀ c, (headerText es trail).head? = some c → isDigit c = false := by
          intro c hc
          cases es with
          | nil =>
            rw [show headerText [] trail = trail from rfl] at hc
            exact htrail c (List.mem_of_mem_head? hc)
          | cons e' es =>
            have hb := hsep e' List.mem_cons_self
            have ho := (hok e' (by simp)).sep
            cases hbb : e'.before with
            | nil => exact absurd hbb hb
            | cons x y =>
              simp only [headerText, List.flatMap_cons, hbb, List.cons_append, List.head?_cons,
                Option.some.injEq] at hc
              exact ho c (by rw [hbb, hc]; exact List.mem_cons_self)
        rw [ht, loop, search_skip _ _ he.sep, search_at _ hq _ hr]
        dsimp only
        rw [isPrivate_iff _ _ _ _ he.small.2.1, List.find?_cons]
        by_cases hp : Private e.a e.b
        · simp only [hp, decide_true, if_true, not_true_eq_false, decide_false]
          exact ih es (fun x hx => hok x (List.mem_cons_of_mem _ hx))
            (fun x hx => hsep x (List.mem_of_mem_tail hx)) (by simpa using hf)
        · simp only [hp, decide_false, Bool.false_eq_true, if_false, not_false_eq_true, decide_true]
          rfl
  have hlen : es.length ≤ (headerText es trail).length := by
    clear hok hsep hne key
    induction es with
    | nil => exact Nat.zero_le _
    | cons e es ih =>
      have hpos : 1 ≤ e.ip.length := by simp [Entry.ip, dotted]; omega
      have : (headerText (e :: es) trail).length = e.before.length + e.ip.length + (headerText es trail).length := by
        simp only [headerText, List.flatMap_cons, List.length_append]; omega
      rw [List.length_cons]
      omega
  unfold parseForwardedFor
  have : (headerText es trail).isEmpty = false := by
    cases h : headerText es trail with
    | nil => exact absurd h hne
    | cons _ _ => rfl
  rw [this, if_neg (by simp), key _ es hok hsep (by omega)]
  simp only [Option.map_some, Option.map_map]
  rfl

/-- `unknown, 10.0.0.1, 172.20.1.1, 8.8.8.8, 9.9.9.9`. -/
def sample : List Entry :=
  [⟨b! "unknown, ", 10, 0, 0, 1⟩, ⟨b! ", ", 172, 20, 1, 1⟩, ⟨b! ", ", 8, 8, 8, 8⟩, ⟨b! ",", 9, 9, 9, 9⟩]
example : ∀ e ∈ sample, e.Ok := by
  intro e he
  simp only [sample, List.mem_cons, List.not_mem_nil, or_false] at he
  rcases he with rfl | rfl | rfl | rfl <;> exact ⟨by decide, by decide +kernel⟩
example : ∀ e ∈ sample.tail, e.before ≠ [] := by decide
example : parseForwardedFor (headerText sample []) = some (some (b! "8.8.8.8")) := by decide +kernel

/-- **C24 fails for octets with leading zeros**: 10.0.0.1 written as 010.0.0.1 is returned. -/
theorem leading_zero_returned : parseForwardedFor (b! "010.0.0.1") = some (some (b! "010.0.0.1")) := by decide +kernel

/-- Part of a longer number sequence may be returned: here an address that is not an entry of the list. -/
theorem part_of_number_returned :
    parseForwardedFor (b! "2001.2.3.4") = some (some (b! "001.2.3.4")) ∧
    parseForwardedFor (b! "10.0.0.1.2.3.4") = some none ∧
    parseForwardedFor (b! "10.0.0.1.2.3.4.5") = some (some (b! "2.3.4.5")) := by decide +kernel

end Verif.Props.ForwardedFor
