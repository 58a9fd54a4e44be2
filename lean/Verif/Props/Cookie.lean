import Verif.Model.Cookie
import Verif.Spec.Cookie
import Mathlib.Tactic.Common
/-
C21: parsing of Cookie (and Set-Cookie) headers.
-/
namespace Verif.Props.Cookie
open Verif Verif.Cookie Verif.Spec.Cookie

theorem isAttribute_eq (n : Bytes) (b : Bool) : isAttribute n b = (n.isEmpty || isAttr b n) := by
  unfold isAttribute isAttr
  rw [Bool.or_assoc]
  congr 2

theorem control_eq : ∀ c : UInt8, isControl c = ctl c := by decide +kernel

theorem loop_pads (b : Bool) (k : Nat) (s : St) (rest : Bytes) (h : s.st = .name) :
    loop b s (List.replicate k (c! " ") ++ rest) = loop b s rest := by
  induction k with
  | zero => rfl
  | succ k ih =>
    rw [List.replicate_succ, List.cons_append, loop]
    have : step b s (c! " ") = some s := by
      unfold step
      rw [h]
      simp
    rw [this]
    exact ih

theorem loop_name (b : Bool) (w : Bytes) (s : St) (rest : Bytes) (h : s.st = .name)
    (hw : ∀ c ∈ w, c ∉ b! "=;, " ∧ ctl c = false) (hl : s.name.length + w.length ≤ 1024) :
    loop b s (w ++ rest) = loop b { s with name := s.name ++ w } rest := by
  induction w generalizing s with
  | nil => simp
  | cons c w ih =>
    rw [List.length_cons] at hl
    have hc := hw c List.mem_cons_self
    have : step b s c = some { s with name := s.name ++ [c] } := by
      simp only [List.mem_cons, List.not_mem_nil, or_false, not_or] at hc
      obtain ⟨⟨h1, h2, h3, h4⟩, h5⟩ := hc
      unfold step NAME_MAX
      rw [h]
      dsimp only
      rw [if_neg h1, if_neg (by simp [h2, h3]), if_neg h4, control_eq, h5, if_neg (by simp; omega)]
    rw [List.cons_append, loop, this]
    dsimp only
    rw [ih _ (by exact h) (fun c hc => hw c (List.mem_cons_of_mem _ hc)) (by simp; omega)]
    simp

theorem loop_plain (b : Bool) (w : Bytes) (s : St) (rest : Bytes) (h : s.st = .value) (hq : s.quote = 0)
    (hw : ∀ c ∈ w, c ∉ b! ";," ∧ ctl c = false) (hh : s.value = [] → ∀ c, w.head? = some c → c ∉ b! " '\"")
    (hl : s.value.length + w.length ≤ 1048576) :
    loop b s (w ++ rest) = loop b { s with value := s.value ++ w } rest := by
  induction w generalizing s with
  | nil => simp
  | cons c w ih =>
    rw [List.length_cons] at hl
    have hc := hw c List.mem_cons_self
    have : step b s c = some { s with value := s.value ++ [c] } := by
      simp only [List.mem_cons, List.not_mem_nil, or_false, not_or] at hc
      obtain ⟨⟨h1, h2⟩, h5⟩ := hc
      unfold step VALUE_MAX
      rw [h]
      dsimp only
      rw [if_pos hq, if_neg (by simp [h1, h2])]
      cases hv : s.value with
      | nil =>
        have hh' := hh hv c rfl
        simp only [List.mem_cons, List.not_mem_nil, or_false, not_or] at hh'
        rw [if_neg (by simp [hh'.2.1, hh'.2.2]), if_pos (by simp [hh'.1]), control_eq, h5, if_neg (by simp)]
      | cons a v =>
        rw [hv] at hl
        rw [List.length_cons] at hl ⊢
        split
        · rw [if_neg (by simp), if_neg (by omega)]
        · rw [if_pos (by simp), control_eq, h5, if_neg (by simp; omega)]
    rw [List.cons_append, loop, this]
    dsimp only
    rw [ih _ (by exact h) (by exact hq) (fun c hc => hw c (List.mem_cons_of_mem _ hc)) (by simp) (by simp; omega)]
    simp

theorem loop_quoted (b : Bool) (w : Bytes) (s : St) (rest : Bytes) (h : s.st = .value) (hq : s.quote ≠ 0)
    (hw : s.quote ∉ w) (hl : s.value.length + w.length ≤ 1048576) :
    loop b s (w ++ rest) = loop b { s with value := s.value ++ w } rest := by
  induction w generalizing s with
  | nil => simp
  | cons c w ih =>
    rw [List.length_cons] at hl
    rw [List.mem_cons, not_or] at hw
    have : step b s c = some { s with value := s.value ++ [c] } := by
      unfold step VALUE_MAX
      rw [h]
      dsimp only
      rw [if_neg hq, if_neg (fun h => hw.1 h.symm), if_neg (by omega)]
    rw [List.cons_append, loop, this]
    dsimp only
    rw [ih _ (by exact h) (by exact hq) (by exact hw.2) (by simp; omega)]
    simp

/-- The pair a cookie stands for, unless its name is that of an attribute. -/
def meant (b : Bool) (i : Item) : Dict := if isAttr b i.name then [] else [(i.name, i.value.meaning)]

/-- A state between two cookies. `pending` is the pair not yet stored. -/
theorem put_meant (b : Bool) (s : St) (i : Item) (d : Dict) (hn : s.name = i.name) (hv : s.value = i.value.meaning)
    (hd : s.dict = d) (hne : i.name ≠ []) : put b s = d ++ meant b i := by
  unfold put meant
  rw [isAttribute_eq, hn, hv, hd]
  have : i.name.isEmpty = false := by
    cases h : i.name with
    | nil => exact absurd h hne
    | cons _ _ => rfl
  rw [this, Bool.false_or]
  split
  · rw [List.append_nil]
  · rfl

/-- After the text of one cookie: either the separator or the end of the text stores it. -/
theorem loop_item (b : Bool) (i : Item) (hi : i.Ok) (d : Dict) (q : UInt8) (rest : Bytes) :
    ∃ s', loop b { dict := d, quote := q } (i.text ++ rest) = loop b s' rest ∧
      put b s' = d ++ meant b i ∧
      ∃ q', step b s' i.sep = some { dict := d ++ meant b i, quote := q' } := by
  obtain ⟨⟨hne, hmax, hchar⟩, hval, hsep⟩ := hi
  have hsep' : i.sep = c! ";" ∨ i.sep = c! "," := by simpa using hsep
  have hsepb : ((decide (i.sep = c! ";")) || (decide (i.sep = c! ","))) = true := by
    rcases hsep' with h | h <;> simp [h]
  have hsepe : i.sep ≠ c! "=" := by rcases hsep' with h | h <;> rw [h] <;> decide
  have hempty : i.name.isEmpty = false := by
    cases h : i.name with
    | nil => exact absurd h hne
    | cons _ _ => rfl
  have step1 : ∀ t, loop b { dict := d, quote := q } (List.replicate i.pad (c! " ") ++ i.name ++ t) =
      loop b { dict := d, quote := q, name := i.name } t := by
    intro t
    rw [List.append_assoc, loop_pads _ _ _ _ rfl, loop_name b i.name _ _ rfl hchar (by simpa using hmax)]
    rfl
  have step2 : ∀ t, loop b { dict := d, quote := q, name := i.name } (c! "=" :: t) =
      loop b { dict := d, quote := 0, name := i.name, st := .value } t := by
    intro t
    rw [loop]
    rfl
  unfold Item.text
  rw [List.append_assoc, step1]
  cases hv : i.value with
  | bare =>
    have hp : put b { dict := d, quote := q, name := i.name } = d ++ meant b i :=
      put_meant b _ i d rfl (by rw [hv]; rfl) rfl hne
    refine ⟨_, rfl, hp, q, ?_⟩
    unfold step
    dsimp only
    rw [if_neg hsepe, if_pos hsepb, hempty, if_neg (by simp), hp]
  | plain v =>
    rw [hv] at hval
    have hp : put b { dict := d, quote := 0, name := i.name, st := .value, value := v } = d ++ meant b i :=
      put_meant b _ i d rfl (by rw [hv]; rfl) rfl hne
    refine ⟨{ dict := d, quote := 0, name := i.name, st := .value, value := v }, ?_, hp, 0, ?_⟩
    · dsimp only [Written.text]
      rw [List.cons_append, step2,
        loop_plain b v _ rest rfl rfl hval.2.1 (fun _ => hval.2.2) (by simpa using hval.1)]
      rfl
    · unfold step
      dsimp only
      rw [if_pos rfl, if_pos hsepb, hp]
  | quoted qc v =>
    rw [hv] at hval
    obtain ⟨h1, h2, h3⟩ := hval
    have h2' : qc = c! "'" ∨ qc = c! "\"" := by simpa using h2
    have hq0 : qc ≠ 0 := by rcases h2' with h | h <;> rw [h] <;> decide
    have hp : put b { dict := d, quote := qc, name := i.name, st := .value, value := v } = d ++ meant b i :=
      put_meant b _ i d rfl (by rw [hv]; rfl) rfl hne
    refine ⟨{ dict := d ++ meant b i, quote := qc, st := .ignore }, ?_, ?_, qc, ?_⟩
    · dsimp only [Written.text]
      rw [List.cons_append, step2, List.cons_append, loop]
      have : step b { dict := d, quote := 0, name := i.name, st := .value } qc =
          some { dict := d, quote := qc, name := i.name, st := .value } := by
        unfold step
        dsimp only
        rw [if_pos rfl, if_neg (by rcases h2' with h | h <;> rw [h] <;> decide),
          if_pos (by rcases h2' with h | h <;> rw [h] <;> decide), if_pos (by rfl)]
      rw [this]
      dsimp only
      rw [List.append_assoc, loop_quoted b v _ _ rfl (by exact hq0) (by exact h3) (by simpa using h1)]
      dsimp only
      rw [List.nil_append, List.singleton_append, loop]
      have : step b { dict := d, quote := qc, name := i.name, st := .value, value := v } qc =
          some { dict := d ++ meant b i, quote := qc, st := .ignore } := by
        rw [← hp]
        unfold step
        dsimp only
        rw [if_neg hq0, if_pos rfl]
      rw [this]
    · simp [put, isAttribute]
    · unfold step
      dsimp only
      rw [if_pos hsepb]

theorem parse_render (b : Bool) (is : List Item) (h : ∀ i ∈ is, i.Ok) (d : Dict) (q : UInt8) :
    ∃ s', loop b { dict := d, quote := q } (render is) = .inr s' ∧ put b s' = d ++ is.flatMap (meant b) := by
  induction is generalizing d q with
  | nil => exact ⟨_, rfl, by simp [put, isAttribute]⟩
  | cons i r ih =>
    have hi := h i List.mem_cons_self
    cases r with
    | nil =>
      obtain ⟨s', h1, h2, -⟩ := loop_item b i hi d q []
      rw [List.append_nil] at h1
      exact ⟨s', h1, by simpa using h2⟩
    | cons j r =>
      obtain ⟨s', h1, h2, q', h3⟩ := loop_item b i hi d q (i.sep :: render (j :: r))
      obtain ⟨s'', h4, h5⟩ := ih (fun x hx => h x (List.mem_cons_of_mem _ hx)) (d ++ meant b i) q'
      refine ⟨s'', ?_, ?_⟩
      · have e : render (i :: j :: r) = i.text ++ i.sep :: render (j :: r) := by
          rw [render]
          intro hh; cases hh
        rw [e, h1, loop, h3]
        exact h4
      · rw [h5]; simp

/-- **C21.** A cookie header is parsed into exactly the listed pairs, in order: spaces in front of names are
    ignored, quoted values are unquoted, attributes are left out. -/
theorem cookies_exact (setCookie : Bool) (is : List Item) (h : ∀ i ∈ is, i.Ok) (d : Dict) :
    parseCookieHeader d (render is) setCookie = (true, d ++
      (is.filter fun i => !isAttr setCookie i.name).map fun i => (i.name, i.value.meaning)) := by
  obtain ⟨s', h1, h2⟩ := parse_render setCookie is h d 0
  have e : is.flatMap (meant setCookie) =
      (is.filter fun i => !isAttr setCookie i.name).map fun i => (i.name, i.value.meaning) := by
    clear h h1 h2
    induction is with
    | nil => rfl
    | cons i r ih =>
      rw [List.flatMap_cons, ih, List.filter_cons]
      unfold meant
      cases isAttr setCookie i.name <;> simp
  rw [← e, ← h2]
  unfold parseCookieHeader
  rw [h1]

/-- `$Version=1; a=b c; d="x;y" , e; f=''`. -/
def sample : List Item :=
  [⟨0, b! "$Version", .plain (b! "1"), c! ";"⟩, ⟨1, b! "a", .plain (b! "b c"), c! ";"⟩,
   ⟨2, b! "d", .quoted (c! "\"") (b! "x;y"), c! ","⟩, ⟨1, b! "e", .bare, c! ";"⟩,
   ⟨0, b! "f", .quoted (c! "'") [], c! ";"⟩]
example : ∀ i ∈ sample, i.Ok := by
  intro i hi
  simp only [sample, List.mem_cons, List.not_mem_nil, or_false] at hi
  rcases hi with rfl | rfl | rfl | rfl | rfl <;>
    exact ⟨⟨by decide, by decide +kernel, by decide +kernel⟩, by simp [Written.Ok]; try decide +kernel, by decide +kernel⟩
example : render sample = b! "$Version=1; a=b c;  d=\"x;y\", e;f=''" := by decide +kernel
example : (parseCookieHeader [] (render sample) false).2 =
    [(b! "a", b! "b c"), (b! "d", b! "x;y"), (b! "e", []), (b! "f", [])] := by decide +kernel

/-! ### Arbitrary text -/

/-- Bounds on what is stored. -/
def Stored (b : Bool) (e : Bytes × Bytes) : Prop :=
  e.1 ≠ [] ∧ isAttr b e.1 = false ∧ e.1.length ≤ 1024 ∧ e.2.length ≤ 1048576

theorem put_stored (b : Bool) (s : St) (hn : s.name.length ≤ 1024) (hv : s.value.length ≤ 1048576)
    (hd : ∀ e ∈ s.dict, Stored b e) : ∀ e ∈ put b s, Stored b e := by
  intro e he
  unfold put Dict.insert at he
  split at he
  · exact hd e he
  · rename_i h
    rcases List.mem_append.1 he with he | he
    · exact hd e he
    · rw [List.mem_singleton] at he
      subst he
      rw [isAttribute_eq, Bool.or_eq_true, not_or] at h
      refine ⟨?_, by simpa using h.2, hn, hv⟩
      intro h0
      exact h.1 (by rw [show s.name = [] from h0]; rfl)

theorem step_bounds (b : Bool) (s s' : St) (c : UInt8) (h : step b s c = some s') (hn : s.name.length ≤ 1024)
    (hv : s.value.length ≤ 1048576) (hd : ∀ e ∈ s.dict, Stored b e) :
    s'.name.length ≤ 1024 ∧ s'.value.length ≤ 1048576 ∧ ∀ e ∈ s'.dict, Stored b e := by
  have hput := put_stored b s hn hv hd
  unfold step NAME_MAX VALUE_MAX at h
  repeat' split at h
  all_goals first
    | (cases h; done)
    | (cases h
       refine ⟨?_, ?_, ?_⟩ <;> first
         | assumption
         | (simp only [List.length_nil]; omega)
         | (simp only [List.length_append, List.length_singleton]
            rename_i hh
            simp only [Bool.or_eq_true, decide_eq_true_eq, not_or, Nat.not_le] at hh
            omega))

/-- **C21 (limits).** Whatever text is parsed, and whether or not parsing succeeds, every stored name is
    non-empty and not an attribute, and names and values respect the limits of 1024 and 1048576 bytes. -/
theorem stored_bounded (setCookie : Bool) (t : Bytes) :
    ∀ e ∈ (parseCookieHeader [] t setCookie).2, Stored setCookie e := by
  have key : ∀ (t : Bytes) (s : St), s.name.length ≤ 1024 → s.value.length ≤ 1048576 →
      (∀ e ∈ s.dict, Stored setCookie e) →
      ∀ e ∈ (match loop setCookie s t with | .inl d => d | .inr s => put setCookie s), Stored setCookie e := by
    intro t
    induction t with
    | nil => intro s hn hv hd; exact put_stored _ s hn hv hd
    | cons c t ih =>
      intro s hn hv hd
      unfold loop
      cases h : step setCookie s c with
      | none => exact hd
      | some s' =>
        obtain ⟨a, b, d⟩ := step_bounds _ s s' c h hn hv hd
        exact ih s' a b d
  have := key t { dict := [] } (by simp) (by simp) (by simp)
  unfold parseCookieHeader
  cases hl : loop setCookie { dict := [] } t with
  | inl d => rw [hl] at this; exact this
  | inr s => rw [hl] at this; exact this

/-- An attribute whose value contains a comma, as in the usual date format of `Expires`, is cut at the comma, and
    the rest is taken for a cookie. -/
theorem expires_date_becomes_cookie :
    parseCookieHeader [] (b! "id=7; Expires=Wed, 09 Jun 2021 10:18:14 GMT") true =
      (true, [(b! "id", b! "7"), (b! "09Jun202110:18:14GMT", [])]) := by decide +kernel

end Verif.Props.Cookie
