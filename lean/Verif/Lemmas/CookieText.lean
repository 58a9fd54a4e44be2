import Verif.Props.Cookie
import Verif.Spec.CookieText
/-
Lemmas for `Props/CookieText`: the loop of `parse_cookie_header` over the parts of an entry, whether they are accepted or not.
-/
namespace Verif.Cookie
open Verif Verif.Spec.Cookie

theorem sep_iff (c : UInt8) : isSep c = true ↔ (c = c! ";" ∨ c = c! ",") := by simp [isSep]
theorem quote_iff (c : UInt8) : isQuote c = true ↔ (c = c! "'" ∨ c = c! "\"") := by simp [isQuote]

theorem sep_false {c : UInt8} (h : isSep c = false) : (c = c! ";" || c = c! ",") = false := by
  unfold isSep at h
  simpa using h

theorem loop_cons (b : Bool) (s : St) (c : UInt8) (r : Bytes) : loop b s (c :: r) = match step b s c with
    | none => .inl s.dict
    | some s' => loop b s' r := by
  rw [loop]
  cases step b s c <;> rfl

/-- A name that is accepted. -/
def NameFits (w name : Bytes) : Prop := (∀ c ∈ w, ctl c = false) ∧ (name ++ w.filter (· != c! " ")).length ≤ 1024

theorem over_name (b : Bool) (rest w : Bytes) : ∀ s : St, s.st = .name → s.name.length ≤ 1024 → NameText w →
    (NameFits w s.name → loop b s (w ++ rest) = loop b { s with name := s.name ++ w.filter (· != c! " ") } rest) ∧
    (¬NameFits w s.name → loop b s (w ++ rest) = .inl s.dict) := by
  induction w with
  | nil =>
    intro s h1 h2 _
    exact ⟨fun _ => by simp, fun h => absurd ⟨nofun, by simpa using h2⟩ h⟩
  | cons c w ih =>
    intro s h1 h2 hw
    obtain ⟨hc1, hc2⟩ := hw c List.mem_cons_self
    have hw' : NameText w := fun d hd => hw d (List.mem_cons_of_mem _ hd)
    have hst : step b s c = if c = c! " " then some s else if isControl c || NAME_MAX ≤ s.name.length then none
        else some { s with name := s.name ++ [c] } := by
      unfold step
      rw [h1]
      dsimp only
      rw [if_neg hc1, sep_false hc2]
      rfl
    rw [List.cons_append, loop_cons, hst]
    by_cases hsp : c = c! " "
    · rw [if_pos hsp]
      dsimp only
      have e1 : (c :: w).filter (· != c! " ") = w.filter (· != c! " ") := by
        rw [List.filter_cons, if_neg (by simp [hsp])]
      have e2 : NameFits (c :: w) s.name ↔ NameFits w s.name := by
        unfold NameFits
        rw [e1]
        have : ctl c = false := by rw [hsp]; decide
        simp [this]
      rw [e1, e2]
      exact ih s h1 h2 hw'
    · rw [if_neg hsp]
      have e1 : (c :: w).filter (· != c! " ") = c :: w.filter (· != c! " ") := by
        rw [List.filter_cons, if_pos (by simpa using hsp)]
      have e2 : NameFits (c :: w) s.name ↔ ctl c = false ∧ NameFits w (s.name ++ [c]) := by
        unfold NameFits
        rw [e1]
        simp [and_assoc]
      by_cases hno : isControl c = true
      · rw [if_pos (by simp [hno])]
        refine ⟨fun h => ?_, fun _ => rfl⟩
        have := (e2.1 h).1
        rw [← Props.Cookie.control_eq, hno] at this
        cases this
      · have hno : isControl c = false := by simpa using hno
        have hmax : NAME_MAX = 1024 := rfl
        by_cases hlen : NAME_MAX ≤ s.name.length
        · rw [if_pos (Bool.or_eq_true_iff.2 (.inr (decide_eq_true hlen)))]
          refine ⟨fun h => ?_, fun _ => rfl⟩
          have := h.2
          rw [e1] at this
          simp only [List.length_append, List.length_cons] at this
          omega
        · rw [if_neg]
          · dsimp only
            obtain ⟨g1, g2⟩ := ih { s with name := s.name ++ [c] } h1 (by simp; omega) hw'
            have hc : ctl c = false := by rw [← Props.Cookie.control_eq]; exact hno
            refine ⟨fun h => ?_, fun h => ?_⟩
            · rw [g1 (e2.1 h).2, e1]
              simp
            · exact g2 fun hx => h (e2.2 ⟨hc, hx⟩)
          · intro hb
            rcases Bool.or_eq_true_iff.1 hb with hb | hb
            · rw [hno] at hb
              cases hb
            · exact hlen (of_decide_eq_true hb)

theorem over_spaces (b : Bool) (rest w : Bytes) (s : St) (h1 : s.st = .value) (h2 : s.quote = 0) (h3 : s.value = []) (hw : Spaces w) :
    loop b s (w ++ rest) = loop b s rest := by
  induction w with
  | nil => rfl
  | cons c w ih =>
    have hst : step b s c = some s := by
      rw [hw c List.mem_cons_self]
      unfold step
      simp [h1, h2, h3]
    rw [List.cons_append, loop_cons, hst]
    exact ih fun d hd => hw d (List.mem_cons_of_mem _ hd)

/-- A value that is accepted. -/
def ValueFits (w value : Bytes) : Prop := (∀ c ∈ w, ctl c = false) ∧ (value ++ w).length ≤ 1048576

theorem over_plain (b : Bool) (rest w : Bytes) : ∀ s : St, s.st = .value → s.quote = 0 → s.value.length ≤ 1048576 →
    (∀ c ∈ w, isSep c = false) → (s.value ≠ [] ∨ ∀ c ∈ w.head?, c ≠ c! " " ∧ isQuote c = false) →
    (ValueFits w s.value → loop b s (w ++ rest) = loop b { s with value := s.value ++ w } rest) ∧
    (¬ValueFits w s.value → loop b s (w ++ rest) = .inl s.dict) := by
  induction w with
  | nil =>
    intro s h1 hq h2 _ _
    exact ⟨fun _ => by simp, fun h => absurd ⟨nofun, by simpa using h2⟩ h⟩
  | cons c w ih =>
    intro s h1 hq h2 hw hh
    have hc := hw c List.mem_cons_self
    have hst : step b s c = if isControl c || VALUE_MAX ≤ s.value.length then none else some { s with value := s.value ++ [c] } := by
      unfold step
      rw [h1]
      dsimp only
      rw [if_pos hq, sep_false hc]
      by_cases hqc : isQuote c = true
      · have hne : s.value ≠ [] := hh.resolve_right fun h => by
          have := (h c (by simp)).2
          rw [hqc] at this
          cases this
        have hctl : isControl c = false := by
          rcases (quote_iff c).1 hqc with rfl | rfl <;> decide
        have hqb : (c = c! "'" || c = c! "\"") = true := by simpa using (quote_iff c).1 hqc
        rw [hqb, hctl]
        simp [hne]
      · have hqb : (c = c! "'" || c = c! "\"") = false := by
          have : isQuote c = false := by simpa using hqc
          unfold isQuote at this
          simpa using this
        rw [hqb]
        have : (c ≠ c! " " || !s.value.isEmpty) = true := by
          rcases hh with h | h
          · simp [h]
          · simp [(h c (by simp)).1]
        rw [this]
        simp
    rw [List.cons_append, loop_cons, hst]
    have e2 : ValueFits (c :: w) s.value ↔ ctl c = false ∧ ValueFits w (s.value ++ [c]) := by
      unfold ValueFits
      simp [and_assoc]
    by_cases hno : isControl c = true
    · rw [if_pos (by simp [hno])]
      refine ⟨fun h => ?_, fun _ => rfl⟩
      have := (e2.1 h).1
      rw [← Props.Cookie.control_eq, hno] at this
      cases this
    · have hno : isControl c = false := by simpa using hno
      have hmax : VALUE_MAX = 1048576 := rfl
      by_cases hlen : VALUE_MAX ≤ s.value.length
      · rw [if_pos (Bool.or_eq_true_iff.2 (.inr (decide_eq_true hlen)))]
        refine ⟨fun h => ?_, fun _ => rfl⟩
        have := h.2
        simp only [List.length_append, List.length_cons] at this
        omega
      · rw [if_neg]
        · dsimp only
          obtain ⟨g1, g2⟩ := ih { s with value := s.value ++ [c] } h1 hq (by simp; omega)
            (fun d hd => hw d (List.mem_cons_of_mem _ hd)) (.inl (by simp))
          have hc : ctl c = false := by rw [← Props.Cookie.control_eq]; exact hno
          refine ⟨fun h => ?_, fun h => ?_⟩
          · rw [g1 (e2.1 h).2]
            simp
          · exact g2 fun hx => h (e2.2 ⟨hc, hx⟩)
        · intro hb
          rcases Bool.or_eq_true_iff.1 hb with hb | hb
          · rw [hno] at hb
            cases hb
          · exact hlen (of_decide_eq_true hb)

theorem over_quoted (b : Bool) (rest w : Bytes) : ∀ s : St, s.st = .value → s.quote ≠ 0 → s.value.length ≤ 1048576 → s.quote ∉ w →
    ((s.value ++ w).length ≤ 1048576 → loop b s (w ++ rest) = loop b { s with value := s.value ++ w } rest) ∧
    (¬(s.value ++ w).length ≤ 1048576 → loop b s (w ++ rest) = .inl s.dict) := by
  induction w with
  | nil =>
    intro s h1 hq h2 _
    exact ⟨fun _ => by simp, fun h => absurd (by simpa using h2) h⟩
  | cons c w ih =>
    intro s h1 hq h2 hw
    have hc : c ≠ s.quote := fun e => hw (e ▸ List.mem_cons_self)
    have hst : step b s c = if VALUE_MAX ≤ s.value.length then none else some { s with value := s.value ++ [c] } := by
      unfold step
      rw [h1]
      dsimp only
      rw [if_neg hq, if_neg hc]
    rw [List.cons_append, loop_cons, hst]
    have hmax : VALUE_MAX = 1048576 := rfl
    by_cases hlen : VALUE_MAX ≤ s.value.length
    · rw [if_pos hlen]
      refine ⟨fun h => ?_, fun _ => rfl⟩
      simp only [List.length_append, List.length_cons] at h
      omega
    · rw [if_neg hlen]
      dsimp only
      obtain ⟨g1, g2⟩ := ih { s with value := s.value ++ [c] } h1 hq (by simp; omega) fun h => hw (List.mem_cons_of_mem _ h)
      simp only [List.append_assoc, List.singleton_append] at g1 g2
      exact ⟨g1, g2⟩

theorem over_passed (b : Bool) (rest w : Bytes) (s : St) (h1 : s.st = .ignore) (hw : Passed w) : loop b s (w ++ rest) = loop b s rest := by
  induction w with
  | nil => rfl
  | cons c w ih =>
    have hst : step b s c = some s := by
      unfold step
      rw [h1]
      dsimp only
      rw [sep_false (hw c List.mem_cons_self)]
      rfl
    rw [List.cons_append, loop_cons, hst]
    exact ih fun d hd => hw d (List.mem_cons_of_mem _ hd)

/-- The loop, from the given state, adds the cookies of the entries, up to the first that is not acceptable. -/
def Adds (b : Bool) (s : St) (t : Bytes) (l : List Entry) : Prop :=
  match loop b s t with
  | .inl d => ∃ a e r, l = a ++ e :: r ∧ (∀ x ∈ a, x.Ok) ∧ ¬e.Ok ∧ d = s.dict ++ a.flatMap (Entry.tells b)
  | .inr s' => (∀ e ∈ l, e.Ok) ∧ put b s' = s.dict ++ l.flatMap (Entry.tells b)

theorem Adds.stop {b : Bool} {s : St} {t : Bytes} {e : Entry} {l : List Entry} {d : Dict} (h : loop b s t = .inl d) (hd : d = s.dict)
    (hA : ¬e.Ok) : Adds b s t (e :: l) := by
  unfold Adds
  rw [h]
  exact ⟨[], e, l, rfl, nofun, hA, by simp [hd]⟩

theorem Adds.done {b : Bool} {s s' : St} {t : Bytes} {e : Entry} (h : loop b s t = .inr s')
    (hd : put b s' = s.dict ++ e.tells b) (hA : e.Ok) : Adds b s t [e] := by
  unfold Adds
  rw [h]
  exact ⟨by simpa using hA, by simpa using hd⟩

theorem Adds.go {b : Bool} {s s1 : St} {t t1 : Bytes} {e : Entry} {l : List Entry} (h : loop b s t = loop b s1 t1)
    (hd : s1.dict = s.dict ++ e.tells b) (hA : e.Ok) (ih : Adds b s1 t1 l) : Adds b s t (e :: l) := by
  unfold Adds at ih ⊢
  rw [h]
  split
  · rename_i d he
    rw [he] at ih
    obtain ⟨a, x, r, rfl, h1, h2, rfl⟩ := ih
    exact ⟨e :: a, x, r, rfl, by simpa [hA] using h1, h2, by simp [hd]⟩
  · rename_i s' he
    rw [he] at ih
    exact ⟨by simpa [hA] using ih.1, by simp [ih.2, hd]⟩

/-- What is stored. -/
theorem put_tells (b : Bool) (s : St) (e : Entry) (hn : s.name = e.name) (hv : s.value = e.value) :
    put b s = s.dict ++ e.tells b := by
  unfold put Entry.tells
  rw [Props.Cookie.isAttribute_eq, hn, hv]
  by_cases h : e.name = [] ∨ isAttr b e.name = true
  · rw [if_pos h, if_pos (by simpa using h), List.append_nil]
  · rw [if_neg h, if_neg (by simpa using h)]
    rfl

/-- A state in which an entry begins. -/
def start (q : UInt8) (d : Dict) : St := { quote := q, dict := d }

/-- The rest after a value without quotes. -/
theorem after_plain (b : Bool) (q : UInt8) (d : Dict) {n sp v rest : Bytes} (hn : NameText n) (hp : Spaces sp) (hv : Unquoted v) :
    (Entry.Ok ⟨n, v, false⟩ → loop b (start q d) (n ++ c! "=" :: (sp ++ (v ++ rest))) =
      loop b { st := .value, name := Entry.name ⟨n, v, false⟩, value := v, quote := 0, dict := d } rest) ∧
    (¬Entry.Ok ⟨n, v, false⟩ → loop b (start q d) (n ++ c! "=" :: (sp ++ (v ++ rest))) = .inl d) := by
  obtain ⟨a1, a2⟩ := over_name b (c! "=" :: (sp ++ (v ++ rest))) n (start q d) rfl (by simp [start]) hn
  have heq : ∀ nm, loop b { start q d with name := nm } (c! "=" :: (sp ++ (v ++ rest))) =
      loop b { st := .value, name := nm, quote := 0, dict := d } (v ++ rest) := by
    intro nm
    rw [loop_cons]
    have : step b { start q d with name := nm } (c! "=") = some { st := .value, name := nm, quote := 0, dict := d } := by
      simp [step, start]
    rw [this]
    exact over_spaces b _ sp _ rfl rfl rfl hp
  obtain ⟨g1, g2⟩ := over_plain b rest v { st := .value, name := Entry.name ⟨n, v, false⟩, quote := 0, dict := d } rfl rfl (by simp) hv.1 (.inr hv.2)
  have iff : Entry.Ok ⟨n, v, false⟩ ↔ NameFits n [] ∧ ValueFits v [] := by
    constructor
    · rintro ⟨h1, h2, h3, h4⟩
      exact ⟨⟨h1, by simpa [Entry.name] using h2⟩, ⟨h3.resolve_left (by simp), by simpa using h4⟩⟩
    · rintro ⟨⟨h1, h2⟩, h3, h4⟩
      exact ⟨h1, by simpa [Entry.name] using h2, .inr h3, by simpa using h4⟩
  rw [iff]
  constructor
  · rintro ⟨h1, h2⟩
    rw [a1 h1, heq]
    have := g1 h2
    simpa [start, Entry.name] using this
  · intro h
    by_cases h1 : NameFits n []
    · rw [a1 h1, heq]
      have := g2 fun h2 => h ⟨h1, h2⟩
      simpa [start, Entry.name] using this
    · exact a2 h1

/-- The rest after the text in quotes. -/
theorem after_quoted (b : Bool) (q0 : UInt8) (d : Dict) {n sp v rest : Bytes} {q : UInt8} (hn : NameText n) (hp : Spaces sp)
    (hq : isQuote q = true) (hv : q ∉ v) :
    (Entry.Ok ⟨n, v, true⟩ → loop b (start q0 d) (n ++ c! "=" :: (sp ++ q :: (v ++ rest))) =
      loop b { st := .value, name := Entry.name ⟨n, v, true⟩, value := v, quote := q, dict := d } rest) ∧
    (¬Entry.Ok ⟨n, v, true⟩ → loop b (start q0 d) (n ++ c! "=" :: (sp ++ q :: (v ++ rest))) = .inl d) := by
  obtain ⟨a1, a2⟩ := over_name b (c! "=" :: (sp ++ q :: (v ++ rest))) n (start q0 d) rfl (by simp [start]) hn
  have hq0 : q ≠ 0 := by
    rcases (quote_iff q).1 hq with rfl | rfl <;> decide
  have heq : ∀ nm, loop b { start q0 d with name := nm } (c! "=" :: (sp ++ q :: (v ++ rest))) =
      loop b { st := .value, name := nm, quote := q, dict := d } (v ++ rest) := by
    intro nm
    rw [loop_cons]
    have : step b { start q0 d with name := nm } (c! "=") = some { st := .value, name := nm, quote := 0, dict := d } := by
      simp [step, start]
    rw [this]
    dsimp only
    rw [over_spaces b _ sp _ rfl rfl rfl hp, loop_cons]
    have : step b { st := .value, name := nm, quote := 0, dict := d } q = some { st := .value, name := nm, quote := q, dict := d } := by
      rcases (quote_iff q).1 hq with rfl | rfl <;> simp [step]
    rw [this]
  obtain ⟨g1, g2⟩ := over_quoted b rest v { st := .value, name := Entry.name ⟨n, v, true⟩, quote := q, dict := d } rfl hq0 (by simp) hv
  have iff : Entry.Ok ⟨n, v, true⟩ ↔ NameFits n [] ∧ ([] ++ v).length ≤ 1048576 := by
    constructor
    · rintro ⟨h1, h2, h3, h4⟩
      exact ⟨⟨h1, by simpa [Entry.name] using h2⟩, by simpa using h4⟩
    · rintro ⟨⟨h1, h2⟩, h4⟩
      exact ⟨h1, by simpa [Entry.name] using h2, .inl rfl, by simpa using h4⟩
  rw [iff]
  constructor
  · rintro ⟨h1, h2⟩
    rw [a1 h1, heq]
    have := g1 h2
    simpa [start, Entry.name] using this
  · intro h
    by_cases h1 : NameFits n []
    · rw [a1 h1, heq]
      have := g2 fun h2 => h ⟨h1, h2⟩
      simpa [start, Entry.name] using this
    · exact a2 h1

theorem after_name (b : Bool) (q : UInt8) (d : Dict) {n rest : Bytes} (hn : NameText n) :
    (Entry.Ok ⟨n, [], false⟩ → loop b (start q d) (n ++ rest) = loop b { start q d with name := Entry.name ⟨n, [], false⟩ } rest) ∧
    (¬Entry.Ok ⟨n, [], false⟩ → loop b (start q d) (n ++ rest) = .inl d) := by
  obtain ⟨a1, a2⟩ := over_name b rest n (start q d) rfl (by simp [start]) hn
  have iff : Entry.Ok ⟨n, [], false⟩ ↔ NameFits n [] := by
    constructor
    · rintro ⟨h1, h2, _, _⟩
      exact ⟨h1, by simpa [Entry.name] using h2⟩
    · rintro ⟨h1, h2⟩
      exact ⟨h1, by simpa [Entry.name] using h2, .inr nofun, by simp⟩
  rw [iff]
  exact ⟨fun h => by rw [a1 h]; simp [start, Entry.name], a2⟩

theorem adds {t : Bytes} {l : List Entry} (b : Bool) (h : Reads t l) : ∀ (q : UInt8) (d : Dict),
    Adds b (start q d) t l := by
  induction h with
  | @lastName n hn =>
    intro q d
    obtain ⟨h1, h2⟩ := after_name b q d (rest := []) hn
    rw [List.append_nil] at h1 h2
    by_cases ho : Entry.Ok ⟨n, [], false⟩
    · exact .done (h1 ho) (by rw [put_tells b _ ⟨n, [], false⟩ rfl rfl]) ho
    · exact .stop (h2 ho) rfl ho
  | @bareName n sep r l hn hs h ih =>
    intro q d
    obtain ⟨h1, h2⟩ := after_name b q d (rest := sep :: r) hn
    by_cases ho : Entry.Ok ⟨n, [], false⟩
    · have e : step b { start q d with name := Entry.name ⟨n, [], false⟩ } sep = some (start q (d ++ Entry.tells b ⟨n, [], false⟩)) := by
        have hne : (sep = c! "=") = False := by
          rcases (sep_iff sep).1 hs with rfl | rfl <;> simp
        have hse : (sep = c! ";" || sep = c! ",") = true := by simpa using (sep_iff sep).1 hs
        unfold step
        simp only [start, hne, hse, if_false, if_true]
        by_cases he : Entry.name ⟨n, [], false⟩ = []
        · simp [he, Entry.tells]
        · simp only [List.isEmpty_iff, he, if_false]
          rw [put_tells b _ ⟨n, [], false⟩ rfl rfl]
      exact .go (by rw [h1 ho, loop_cons, e]; rfl) rfl ho (ih q _)
    · exact .stop (h2 ho) rfl ho
  | @lastPlain n sp v hn hp hv =>
    intro q d
    obtain ⟨h1, h2⟩ := after_plain b q d (rest := []) hn hp hv
    rw [List.append_nil] at h1 h2
    by_cases ho : Entry.Ok ⟨n, v, false⟩
    · exact .done (h1 ho) (by rw [put_tells b _ ⟨n, v, false⟩ rfl rfl]; rfl) ho
    · exact .stop (h2 ho) rfl ho
  | @plain n sp v sep r l hn hp hv hs h ih =>
    intro q d
    obtain ⟨h1, h2⟩ := after_plain b q d (rest := sep :: r) hn hp hv
    by_cases ho : Entry.Ok ⟨n, v, false⟩
    · have e : step b { st := .value, name := Entry.name ⟨n, v, false⟩, value := v, quote := 0, dict := d } sep =
          some (start 0 (d ++ Entry.tells b ⟨n, v, false⟩)) := by
        have hse : (sep = c! ";" || sep = c! ",") = true := by simpa using (sep_iff sep).1 hs
        unfold step
        simp only [hse, if_true]
        rw [put_tells b _ ⟨n, v, false⟩ rfl rfl]
        rfl
      exact .go (by rw [h1 ho, loop_cons, e]; rfl) rfl ho (ih 0 _)
    · exact .stop (h2 ho) rfl ho
  | @openQuote n sp q v hn hp hq hv =>
    intro q0 d
    obtain ⟨h1, h2⟩ := after_quoted b q0 d (rest := []) hn hp hq hv
    rw [List.append_nil] at h1 h2
    by_cases ho : Entry.Ok ⟨n, v, true⟩
    · exact .done (h1 ho) (by rw [put_tells b _ ⟨n, v, true⟩ rfl rfl]; rfl) ho
    · exact .stop (h2 ho) rfl ho
  | @lastQuoted n sp q v x hn hp hq hv hx =>
    intro q0 d
    obtain ⟨h1, h2⟩ := after_quoted b q0 d (rest := q :: x) hn hp hq hv
    have hq0 : q ≠ 0 := by
      rcases (quote_iff q).1 hq with rfl | rfl <;> decide
    by_cases ho : Entry.Ok ⟨n, v, true⟩
    · have e : step b { st := .value, name := Entry.name ⟨n, v, true⟩, value := v, quote := q, dict := d } q =
          some { st := .ignore, quote := q, dict := d ++ Entry.tells b ⟨n, v, true⟩ } := by
        unfold step
        simp only [hq0, if_false, if_true]
        rw [put_tells b _ ⟨n, v, true⟩ rfl rfl]
      have e2 := over_passed b [] x { st := .ignore, quote := q, dict := d ++ Entry.tells b ⟨n, v, true⟩ } rfl hx
      rw [List.append_nil] at e2
      refine .done (by rw [h1 ho, loop_cons, e]; exact e2) ?_ ho
      rw [put_tells b _ ⟨[], [], false⟩ rfl rfl]
      simp [start, Entry.tells, Entry.name]
    · exact .stop (h2 ho) rfl ho
  | @quoted n sp q v x sep r l hn hp hq hv hx hs h ih =>
    intro q0 d
    obtain ⟨h1, h2⟩ := after_quoted b q0 d (rest := q :: (x ++ sep :: r)) hn hp hq hv
    have hq0 : q ≠ 0 := by
      rcases (quote_iff q).1 hq with rfl | rfl <;> decide
    by_cases ho : Entry.Ok ⟨n, v, true⟩
    · have e : step b { st := .value, name := Entry.name ⟨n, v, true⟩, value := v, quote := q, dict := d } q =
          some { st := .ignore, quote := q, dict := d ++ Entry.tells b ⟨n, v, true⟩ } := by
        unfold step
        simp only [hq0, if_false, if_true]
        rw [put_tells b _ ⟨n, v, true⟩ rfl rfl]
      have e2 := over_passed b (sep :: r) x { st := .ignore, quote := q, dict := d ++ Entry.tells b ⟨n, v, true⟩ } rfl hx
      have e3 : step b { st := .ignore, quote := q, dict := d ++ Entry.tells b ⟨n, v, true⟩ } sep = some (start q (d ++ Entry.tells b ⟨n, v, true⟩)) := by
        have hse : (sep = c! ";" || sep = c! ",") = true := by simpa using (sep_iff sep).1 hs
        unfold step
        simp only [hse, if_true]
        rfl
      exact .go (by rw [h1 ho, loop_cons, e]; dsimp only; rw [e2, loop_cons, e3]; rfl) rfl ho (ih q _)
    · exact .stop (h2 ho) rfl ho

/-- Cutting a text at the first character with a property. -/
theorem cut (p : UInt8 → Bool) (t : Bytes) : (∃ a, t = a ∧ ∀ c ∈ a, p c = false) ∨
    ∃ a c r, t = a ++ c :: r ∧ (∀ d ∈ a, p d = false) ∧ p c = true := by
  induction t with
  | nil => exact .inl ⟨[], rfl, nofun⟩
  | cons x t ih =>
    by_cases hx : p x = true
    · exact .inr ⟨[], x, t, rfl, nofun, hx⟩
    · have hx : p x = false := by simpa using hx
      rcases ih with ⟨a, rfl, h⟩ | ⟨a, c, r, rfl, h1, h2⟩
      · exact .inl ⟨_, rfl, by simpa [hx] using h⟩
      · exact .inr ⟨x :: a, c, r, rfl, by simpa [hx] using h1, h2⟩

theorem reads_all (k : Nat) : ∀ t : Bytes, t.length ≤ k → ∃ l, Reads t l := by
  induction k with
  | zero =>
    intro t ht
    obtain rfl : t = [] := List.length_eq_zero_iff.1 (by omega)
    exact ⟨_, .lastName nofun⟩
  | succ k ih =>
    intro t ht
    rcases cut (fun c => c == c! "=" || isSep c) t with ⟨n, rfl, hn⟩ | ⟨n, c, r, rfl, hn, hc⟩
    · exact ⟨_, .lastName fun c hc => by simpa using hn c hc⟩
    have hn : NameText n := fun c hc => by simpa using hn c hc
    simp only [List.length_append, List.length_cons] at ht
    by_cases hs : isSep c = true
    · obtain ⟨l, hl⟩ := ih r (by omega)
      exact ⟨_, .bareName hn hs hl⟩
    obtain rfl : c = c! "=" := by simpa [hs] using hc
    -- the value
    obtain ⟨sp, r', rfl, hsp, hr⟩ : ∃ sp r', r = sp ++ r' ∧ Spaces sp ∧ ∀ c ∈ r'.head?, c ≠ c! " " := by
      rcases cut (fun c => c != c! " ") r with ⟨sp, rfl, h⟩ | ⟨sp, c, r2, rfl, h1, h2⟩
      · exact ⟨r, [], (List.append_nil r).symm, fun c hc => by simpa using h c hc, nofun⟩
      · exact ⟨sp, c :: r2, rfl, fun c hc => by simpa using h1 c hc, by simpa using h2⟩
    simp only [List.length_append] at ht
    have unq : (∀ c ∈ r'.head?, isQuote c = false) → ∃ l, Reads (n ++ c! "=" :: (sp ++ r')) l := by
      intro hq
      rcases cut isSep r' with ⟨v, rfl, hv⟩ | ⟨v, c, r2, rfl, hv, hc⟩
      · exact ⟨_, .lastPlain hn hsp ⟨hv, fun c hc => ⟨hr c hc, hq c hc⟩⟩⟩
      · simp only [List.length_append, List.length_cons] at ht
        obtain ⟨l, hl⟩ := ih r2 (by omega)
        refine ⟨_, .plain hn hsp ⟨hv, fun d hd => ?_⟩ hc hl⟩
        cases v with
        | nil => cases hd
        | cons y v =>
          obtain rfl : y = d := by simpa using hd
          exact ⟨hr y (by simp), hq y (by simp)⟩
    cases r' with
    | nil => exact unq nofun
    | cons q r2 =>
      by_cases hq : isQuote q = true
      · rcases cut (fun c => c == q) r2 with ⟨v, rfl, hv⟩ | ⟨v, c, r3, rfl, hv, hc⟩
        · exact ⟨_, .openQuote hn hsp hq fun h => by simpa using hv q h⟩
        · obtain rfl : c = q := by simpa using hc
          have hv : c ∉ v := fun h => by simpa using hv c h
          rcases cut isSep r3 with ⟨x, rfl, hx⟩ | ⟨x, d, r4, rfl, hx, hd⟩
          · exact ⟨_, .lastQuoted hn hsp hq hv hx⟩
          · simp only [List.length_append, List.length_cons] at ht
            obtain ⟨l, hl⟩ := ih r4 (by omega)
            exact ⟨_, .quoted hn hsp hq hv hx hd hl⟩
      · exact unq (by simpa using hq)

end Verif.Cookie
