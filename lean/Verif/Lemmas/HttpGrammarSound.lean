import Verif.Lemmas.HttpForward
import Verif.Spec.HttpGrammar
import Mathlib.Tactic.Common
/-
What the header machine has read when it is in a given state: every accepted head is in the grammar.
-/
namespace Verif.Http.Text

/-- The first line as the parser has stored it. -/
def headOf (cfg : Cfg) (s : S) : Head :=
  if cfg.isRequest then .request s.method s.resource s.query s.msg.verMajor s.msg.verMinor
  else .response s.msg.verMajor s.msg.verMinor s.statusCode s.statusMessage

theorem old_headOf (cfg : Cfg) (s : S) : old (headOf cfg s) = (cfg.isRequest && s.msg.verMajor == 0) := by
  unfold headOf
  cases cfg.isRequest <;> rfl

/-! ### After the first line -/

/-- At the end of a line, before the line end. -/
def Content (o : Bool) (hs0 : Dict) (s : S) (t : Bytes) : Prop :=
  ∃ hs f g, Fields o hs f ∧ Gap o g ∧ t = f ++ g ∧ s.msg.headers = hs0 ++ hs

/-- At the beginning of a header. -/
def Begun (o : Bool) (hs0 : Dict) (s : S) (t : Bytes) : Prop :=
  ∃ u le ws, Content o hs0 s u ∧ LineEnd o le ∧ (∀ c ∈ ws, isBlank c = true) ∧ t = u ++ le ++ ws

/-- After a line end of two characters. -/
def Full (o : Bool) (hs0 : Dict) (s : S) (t : Bytes) : Prop :=
  ∃ u le, Content o hs0 s u ∧ LineEnd o le ∧ le.length = 2 ∧ t = u ++ le

/-- The states after the first line: `t` is what has been read of the lines. -/
def Sect (o : Bool) (hs0 : Dict) (s : S) (t : Bytes) : Prop :=
  match s.hs with
  | .expNewline => ∃ u, Content o hs0 s u ∧ t = u ++ [CR]
  | .expCr => ∃ u, Content o hs0 s u ∧ t = u ++ [LF]
  | .headerWs => ∃ u le ws, Content o hs0 s u ∧ LineEnd o le ∧ ws ≠ [] ∧ (∀ c ∈ ws, isBlank c = true) ∧ t = u ++ le ++ ws
  | .headerStart => Full o hs0 s t
  | .headerName => ∃ u, Begun o hs0 s u ∧ Token s.headerName ∧ t = u ++ s.headerName
  | .spaceBeforeValue => ∃ u, Begun o hs0 s u ∧ Token s.headerName ∧ s.headerValue = [] ∧ t = u ++ s.headerName ++ b! ":"
  | .headerValue => ∃ u sep, Begun o hs0 s u ∧ HeaderOk (s.headerName, s.headerValue) ∧
      (sep = b! ": " ∨ sep = b! ":" ∧ s.headerValue ≠ [] ∧ ∀ c ∈ s.headerValue.head?, badToken c = false) ∧
      t = u ++ s.headerName ++ sep ++ s.headerValue
  | .expFinalNewline => ∃ u, Full o hs0 s u ∧ t = u ++ [CR]
  | .expFinalCr => ∃ u, Full o hs0 s u ∧ t = u ++ [LF]
  | _ => False

/-- What a byte does after the first line. -/
def SectNext (cfg : Cfg) (o : Bool) (hs0 : Dict) (s : S) (t : Bytes) (c : UInt8) : HRes → Prop
  | .more s' => Sect o hs0 s' (t ++ [c]) ∧ headOf cfg s' = headOf cfg s
  | .done s' true => headOf cfg s' = headOf cfg s ∧ ∃ hs, s'.msg.headers = hs0 ++ hs ∧ ∀ rest, Lines o hs (t ++ [c]) rest
  | .done s' false => headOf cfg s' = headOf cfg s ∧ ∃ hs, s'.msg.headers = hs0 ++ hs ∧ ∀ rest, Lines o hs t (c :: rest)
  | .fail _ _ => True

theorem begun_of_content {o : Bool} {hs0 : Dict} {s : S} {u le : Bytes} (h : Content o hs0 s u) (hl : LineEnd o le) :
    Begun o hs0 s (u ++ le) := ⟨u, le, [], h, hl, by simp, by simp⟩

theorem begun_blank {o : Bool} {hs0 : Dict} {s : S} {u le ws : Bytes} (h : Content o hs0 s u) (hl : LineEnd o le)
    (hw : ∀ c ∈ ws, isBlank c = true) : Begun o hs0 s (u ++ le ++ ws) := ⟨u, le, ws, h, hl, hw, rfl⟩

theorem content_blank {o : Bool} {hs0 : Dict} {s : S} {u le ws : Bytes} (h : Content o hs0 s u) (hl : LineEnd o le)
    (hne : ws ≠ []) (hw : ∀ c ∈ ws, isBlank c = true) : Content o hs0 s (u ++ le ++ ws) := by
  obtain ⟨hs, f, g, hf, hg, rfl, hh⟩ := h
  exact ⟨hs, f, g ++ le ++ ws, hf, .line hg hl hne hw, by simp, hh⟩

theorem content_field {o : Bool} {hs0 : Dict} {s s' : S} {u f : Bytes} {e : Bytes × Bytes} (h : Begun o hs0 s u)
    (hf : Field e f) (hh : s'.msg.headers = s.msg.headers ++ [e]) : Content o hs0 s' (u ++ f) := by
  obtain ⟨u', le, ws, ⟨hs, f', g, hf', hg, rfl, hh'⟩, hl, hw, rfl⟩ := h
  exact ⟨hs ++ [e], _, [], .snoc hf' hg hl hw hf, .nil, by simp, by rw [hh, hh']; simp⟩

theorem lines_empty {o : Bool} {hs0 : Dict} {s : S} {u le e : Bytes} (h : Content o hs0 s u) (hl : LineEnd o le) :
    ∃ hs, s.msg.headers = hs0 ++ hs ∧ ∀ rest, EmptyLine le e rest → Lines o hs (u ++ le ++ e) rest := by
  obtain ⟨hs, f, g, hf, hg, rfl, hh⟩ := h
  exact ⟨hs, hh, fun rest he => ⟨f, g ++ le ++ e, by simp, hf, .empty hg hl he⟩⟩

theorem lines_old {o : Bool} {hs0 : Dict} {s : S} {u : Bytes} (h : Content o hs0 s u) (ho : o = true) :
    ∃ hs, s.msg.headers = hs0 ++ hs ∧ ∀ rest, Lines o hs (u ++ [CR, LF]) rest := by
  obtain ⟨hs, f, g, hf, hg, rfl, hh⟩ := h
  exact ⟨hs, hh, fun rest => ⟨f, g ++ [CR, LF], by simp, hf, .old ho hg⟩⟩

theorem token_one {c : UInt8} (h : badToken c = false) : Token [c] := ⟨by simp, by simpa using h, by simp⟩

theorem token_snoc {t : Bytes} {c : UInt8} (ht : Token t) (h : badToken c = false) (hl : t.length < 1024) : Token (t ++ [c]) :=
  ⟨by simp, by
    intro x hx
    rcases List.mem_append.mp hx with hx | hx
    · exact ht.chars x hx
    · rw [List.mem_singleton.mp hx]; exact h, by simp; omega⟩

theorem blank_of {c : UInt8} (h : (c = 0x09 || c = c! " ") = true) : isBlank c = true := by
  simp only [isBlank, Bool.or_eq_true, decide_eq_true_eq] at h ⊢
  exact h.symm

/-- A byte after a line end of which `u ++ le` has been read and that is not the byte of an empty line. -/
theorem sect_line {cfg : Cfg} {o : Bool} {hs0 : Dict} {s : S} {u le : Bytes} (c : UInt8) (h : Content o hs0 s u)
    (hl : LineEnd o le) : SectNext cfg o hs0 s (u ++ le) c
      (if c = 0x09 || c = c! " " then .more { s with hs := .headerWs }
        else if badToken c then .fail s .headerChar else .more (s.startName c)) := by
  by_cases hb : (c = 0x09 || c = c! " ") = true
  · rw [if_pos hb]
    exact ⟨⟨u, le, [c], h, hl, by simp, by simpa using blank_of hb, rfl⟩, rfl⟩
  · rw [if_neg hb]
    by_cases ht : badToken c = true
    · rw [if_pos ht]; trivial
    · rw [if_neg ht]
      exact ⟨⟨_, begun_of_content h hl, token_one (by simpa using ht), rfl⟩, rfl⟩

theorem sect_switch (cfg : Cfg) (o : Bool) (hs0 : Dict) (s : S) (t : Bytes) (c : UInt8)
    (ho : o = (cfg.isRequest && s.msg.verMajor == 0)) (h : Sect o hs0 s t) :
    SectNext cfg o hs0 s t c (hswitch cfg s c) := by
  unfold Sect at h
  unfold hswitch
  cases hh : s.hs <;> rw [hh] at h <;> try exact h.elim
  all_goals simp only
  case expNewline =>
    obtain ⟨u, hc, rfl⟩ := h
    by_cases h1 : c = LF
    · subst h1
      rw [if_pos rfl]
      by_cases hoo : (cfg.isRequest && s.msg.verMajor == 0) = true
      · rw [if_pos hoo]
        obtain ⟨hs, e, hl⟩ := lines_old hc (ho.trans hoo)
        exact ⟨rfl, hs, e, fun rest => by simpa using hl rest⟩
      · rw [if_neg hoo]
        exact ⟨⟨u, [CR, LF], hc, .crlf (by simp [ho, hoo]), rfl, by simp⟩, rfl⟩
    rw [if_neg h1]
    by_cases h2 : c = CR
    · subst h2
      rw [if_pos rfl]
      obtain ⟨hs, e, hl⟩ := lines_empty (e := [CR]) hc .cr
      exact ⟨rfl, hs, e, fun rest => hl rest .cr⟩
    rw [if_neg h2]
    exact sect_line c hc .cr
  case expCr =>
    obtain ⟨u, hc, rfl⟩ := h
    by_cases h1 : c = CR
    · subst h1
      rw [if_pos rfl]
      exact ⟨⟨u, [LF, CR], hc, .lfcr, rfl, by simp⟩, rfl⟩
    rw [if_neg h1]
    by_cases h2 : c = LF
    · subst h2
      rw [if_pos rfl]
      obtain ⟨hs, e, hl⟩ := lines_empty (e := [LF]) hc .lf
      exact ⟨rfl, hs, e, fun rest => hl rest .lf⟩
    rw [if_neg h2]
    exact sect_line c hc .lf
  case headerWs =>
    obtain ⟨u, le, ws, hc, hl, hne, hw, rfl⟩ := h
    have hc' := content_blank hc hl hne hw
    by_cases h1 : c = CR
    · subst h1; rw [if_pos rfl]; exact ⟨⟨_, hc', rfl⟩, rfl⟩
    rw [if_neg h1]
    by_cases h2 : c = LF
    · subst h2; rw [if_pos rfl]; exact ⟨⟨_, hc', rfl⟩, rfl⟩
    rw [if_neg h2]
    by_cases hb : (c = 0x09 || c = c! " ") = true
    · rw [if_pos hb]
      refine ⟨?_, rfl⟩
      unfold Sect
      rw [hh]
      refine ⟨u, le, ws ++ [c], hc, hl, by simp, fun x hx => ?_, by simp⟩
      rcases List.mem_append.mp hx with hx | hx
      · exact hw x hx
      · rw [List.mem_singleton.mp hx]; exact blank_of hb
    rw [if_neg hb]
    by_cases ht : badToken c = true
    · rw [if_pos ht]; trivial
    · rw [if_neg ht]
      exact ⟨⟨_, begun_blank hc hl hw, token_one (by simpa using ht), rfl⟩, rfl⟩
  case headerStart =>
    obtain ⟨u, le, hc, hl, h2, rfl⟩ := h
    by_cases h1 : c = CR
    · subst h1; rw [if_pos rfl]; exact ⟨⟨_, ⟨u, le, hc, hl, h2, rfl⟩, rfl⟩, rfl⟩
    rw [if_neg h1]
    by_cases h3 : c = LF
    · subst h3; rw [if_pos rfl]; exact ⟨⟨_, ⟨u, le, hc, hl, h2, rfl⟩, rfl⟩, rfl⟩
    rw [if_neg h3]
    exact sect_line c hc hl
  case headerName =>
    obtain ⟨u, hb, ht, rfl⟩ := h
    by_cases h1 : c = c! ":"
    · subst h1; rw [if_pos rfl]; exact ⟨⟨u, hb, ht, rfl, rfl⟩, rfl⟩
    rw [if_neg h1]
    by_cases hbt : badToken c = true
    · rw [if_pos hbt]; trivial
    rw [if_neg hbt]
    by_cases hsz : HEADER_NAME_MAX ≤ s.headerName.length
    · rw [if_pos hsz]; trivial
    rw [if_neg hsz]
    refine ⟨?_, rfl⟩
    exact ⟨u, hb, token_snoc ht (by simpa using hbt) (by simp only [HEADER_NAME_MAX] at hsz; omega), by simp⟩
  case spaceBeforeValue =>
    obtain ⟨u, hb, ht, hv, rfl⟩ := h
    have hok : HeaderOk (s.headerName, []) := ⟨ht, by simp, by simp⟩
    have hfield : ∀ s' : S, s'.msg.headers = s.msg.headers ++ [(s.headerName, s.headerValue)] →
        Content o hs0 s' (u ++ s.headerName ++ b! ":") := by
      intro s' hs'
      rw [hv] at hs'
      rw [List.append_assoc]
      exact content_field hb ⟨hok, .inr ⟨by simp, by simp⟩⟩ hs'
    by_cases h1 : c = c! " "
    · subst h1; rw [if_pos rfl]
      exact ⟨⟨u, b! ": ", hb, by rw [hv]; exact hok, .inl rfl, by simp [hv]⟩, rfl⟩
    rw [if_neg h1]
    by_cases h2 : c = CR
    · subst h2; rw [if_pos rfl]; exact ⟨⟨_, hfield _ rfl, rfl⟩, rfl⟩
    rw [if_neg h2]
    by_cases h3 : c = LF
    · subst h3; rw [if_pos rfl]; exact ⟨⟨_, hfield _ rfl, rfl⟩, rfl⟩
    rw [if_neg h3]
    by_cases hbt : badToken c = true
    · rw [if_pos hbt]; trivial
    rw [if_neg hbt]
    have hbt' : badToken c = false := by simpa using hbt
    have hcc : valueChar c := by
      refine .inr ?_
      simp only [badToken, Bool.or_eq_false_iff] at hbt'
      exact hbt'.1.2
    refine ⟨⟨u, b! ":", hb, ⟨ht, ?_, ?_⟩, .inr ⟨rfl, by simp, ?_⟩, by simp [hv]⟩, rfl⟩
    · rw [hv]; simpa using hcc
    · rw [hv]; simp
    · rw [hv]; simpa using hbt'
  case headerValue =>
    obtain ⟨u, sep, hb, hok, hsep, rfl⟩ := h
    have hfield : ∀ s' : S, s'.msg.headers = s.msg.headers ++ [(s.headerName, s.headerValue)] →
        Content o hs0 s' (u ++ s.headerName ++ sep ++ s.headerValue) := by
      intro s' hs'
      have : u ++ s.headerName ++ sep ++ s.headerValue = u ++ (s.headerName ++ sep ++ s.headerValue) := by simp
      rw [this]
      refine content_field hb ⟨hok, ?_⟩ hs'
      rcases hsep with rfl | ⟨rfl, _, h⟩
      · exact .inl rfl
      · exact .inr ⟨rfl, h⟩
    by_cases h2 : c = CR
    · subst h2; rw [if_pos rfl]; exact ⟨⟨_, hfield _ rfl, rfl⟩, rfl⟩
    rw [if_neg h2]
    by_cases h3 : c = LF
    · subst h3; rw [if_pos rfl]; exact ⟨⟨_, hfield _ rfl, rfl⟩, rfl⟩
    rw [if_neg h3]
    by_cases hct : (c ≠ 0x09 && isControl c) = true
    · rw [if_pos hct]; trivial
    rw [if_neg hct]
    by_cases hsz : HEADER_VALUE_MAX ≤ s.headerValue.length
    · rw [if_pos hsz]; trivial
    rw [if_neg hsz]
    refine ⟨?_, rfl⟩
    have hcc : valueChar c := by
      unfold valueChar
      by_cases h9 : c = 0x09
      · exact .inl h9
      · refine .inr ?_
        simpa [h9] using hct
    refine ⟨u, sep, hb, ⟨hok.name, fun x hx => ?_, ?_⟩, ?_, by simp⟩
    · rcases List.mem_append.mp hx with hx | hx
      · exact hok.value x hx
      · rw [List.mem_singleton.mp hx]; exact hcc
    · simp only [HEADER_VALUE_MAX] at hsz
      simp only [List.length_append, List.length_singleton]
      omega
    · rcases hsep with rfl | ⟨rfl, hne, h⟩
      · exact .inl rfl
      · refine .inr ⟨rfl, by simp, fun x hx => h x ?_⟩
        obtain ⟨a, l, e⟩ := List.exists_cons_of_ne_nil hne
        rw [e] at hx ⊢
        simpa using hx
  case expFinalNewline =>
    obtain ⟨_, ⟨u, le, hc, hl, h2, rfl⟩, rfl⟩ := h
    by_cases h1 : c = LF
    · subst h1
      simp only [BEq.rfl]
      obtain ⟨hs, e, hx⟩ := lines_empty (e := [CR, LF]) hc hl
      exact ⟨rfl, hs, e, fun rest => by simpa using hx rest (.crlf h2)⟩
    · have : (c == LF) = false := by simp [h1]
      rw [this]
      obtain ⟨hs, e, hx⟩ := lines_empty (e := [CR]) hc hl
      exact ⟨rfl, hs, e, fun rest => hx _ (.cr1 h2 h1)⟩
  case expFinalCr =>
    obtain ⟨_, ⟨u, le, hc, hl, h2, rfl⟩, rfl⟩ := h
    by_cases h1 : c = CR
    · subst h1
      simp only [BEq.rfl]
      obtain ⟨hs, e, hx⟩ := lines_empty (e := [LF, CR]) hc hl
      exact ⟨rfl, hs, e, fun rest => by simpa using hx rest (.lfcr h2)⟩
    · have : (c == CR) = false := by simp [h1]
      rw [this]
      obtain ⟨hs, e, hx⟩ := lines_empty (e := [LF]) hc hl
      exact ⟨rfl, hs, e, fun rest => hx _ (.lf1 h2 h1)⟩

/-! ### The first line -/

/-- Everything of a request line up to the query. -/
def Target (s : S) (t : Bytes) : Prop :=
  ∃ pre q, (∀ c ∈ pre, c = c! " " ∨ c = CR ∨ c = LF) ∧ Token s.method ∧ (∀ c ∈ s.resource, uriChar c) ∧
    s.resource.length ≤ 262144 ∧ (∀ c ∈ s.query, queryChar c) ∧ s.query.length ≤ 1048576 ∧
    (q = [] ∧ s.query = [] ∨ q = b! "?" ++ s.query) ∧ t = pre ++ s.method ++ b! " " ++ s.resource ++ q

/-- What is before a version. -/
def Before (cfg : Cfg) (s : S) (t : Bytes) : Prop :=
  (cfg.isRequest = true ∧ ∃ u, Target s u ∧ t = u ++ b! " ") ∨ (cfg.isRequest = false ∧ t = [])

/-- The first letter of a version. -/
def Letter (cfg : Cfg) (c : UInt8) : Prop := c = c! "H" ∨ (cfg.isRequest = true ∧ (c = CR ∨ c = LF))

/-- What the parser has read in the states of the first line. -/
def First (cfg : Cfg) (s : S) (t : Bytes) : Prop :=
  match s.hs with
  | .methodStart => cfg.isRequest = true ∧ s.query = [] ∧ ∀ c ∈ t, c = c! " " ∨ c = CR ∨ c = LF
  | .method => cfg.isRequest = true ∧ s.query = [] ∧
      ∃ pre, (∀ c ∈ pre, c = c! " " ∨ c = CR ∨ c = LF) ∧ Token s.method ∧ t = pre ++ s.method
  | .uriStem => cfg.isRequest = true ∧ s.query = [] ∧
      ∃ pre, (∀ c ∈ pre, c = c! " " ∨ c = CR ∨ c = LF) ∧ Token s.method ∧ (∀ c ∈ s.resource, uriChar c) ∧
        s.resource.length ≤ 262144 ∧ t = pre ++ s.method ++ b! " " ++ s.resource
  | .uriQuery => cfg.isRequest = true ∧
      ∃ pre, (∀ c ∈ pre, c = c! " " ∨ c = CR ∨ c = LF) ∧ Token s.method ∧ (∀ c ∈ s.resource, uriChar c) ∧
        s.resource.length ≤ 262144 ∧ (∀ c ∈ s.query, queryChar c) ∧ s.query.length ≤ 1048576 ∧
        t = pre ++ s.method ++ b! " " ++ s.resource ++ b! "?" ++ s.query
  | .verH => Before cfg s t
  | .verT1 => ∃ p c, Before cfg s p ∧ Letter cfg c ∧ t = p ++ [c]
  | .verT2 => ∃ p c, Before cfg s p ∧ Letter cfg c ∧ t = p ++ [c] ++ b! "T"
  | .verP => ∃ p c, Before cfg s p ∧ Letter cfg c ∧ t = p ++ [c] ++ b! "TT"
  | .verSlash => ∃ p c, Before cfg s p ∧ Letter cfg c ∧ t = p ++ [c] ++ b! "TTP"
  | .verMajorStart => ∃ p c, Before cfg s p ∧ Letter cfg c ∧ t = p ++ [c] ++ b! "TTP/"
  | .verMajor => ∃ p c a, Before cfg s p ∧ Letter cfg c ∧ Number s.msg.verMajor a ∧ t = p ++ [c] ++ b! "TTP/" ++ a
  | .verMinorStart => ∃ p c a, Before cfg s p ∧ Letter cfg c ∧ Number s.msg.verMajor a ∧
      t = p ++ [c] ++ b! "TTP/" ++ a ++ b! "."
  | .verMinor => ∃ p v, Before cfg s p ∧ Version cfg.isRequest s.msg.verMajor s.msg.verMinor v ∧ t = p ++ v
  | .statusCodeStart => cfg.isRequest = false ∧ ∃ v, Version false s.msg.verMajor s.msg.verMinor v ∧ t = v ++ b! " "
  | .statusCode => cfg.isRequest = false ∧ ∃ v n, Version false s.msg.verMajor s.msg.verMinor v ∧ Number s.statusCode n ∧
      t = v ++ b! " " ++ n
  | .statusMessage => cfg.isRequest = false ∧ ∃ v n, Version false s.msg.verMajor s.msg.verMinor v ∧ Number s.statusCode n ∧
      (∀ c ∈ s.statusMessage, textChar c) ∧ s.statusMessage.length ≤ 1024 ∧ t = v ++ b! " " ++ n ++ b! " " ++ s.statusMessage
  | _ => False

/-- What has been read of a head. -/
def At (cfg : Cfg) (hs0 : Dict) (s : S) (t : Bytes) : Prop :=
  (First cfg s t ∧ s.msg.headers = hs0) ∨ ∃ f l, t = f ++ l ∧ FirstLine (headOf cfg s) f ∧ Sect (old (headOf cfg s)) hs0 s l

/-- What a byte does in a head. -/
def Next (cfg : Cfg) (hs0 : Dict) (t : Bytes) (c : UInt8) : HRes → Prop
  | .more s' => At cfg hs0 s' (t ++ [c])
  | .done s' true => ∃ hs, s'.msg.headers = hs0 ++ hs ∧ ∀ rest, MessageHead (headOf cfg s') hs (t ++ [c]) rest
  | .done s' false => ∃ hs, s'.msg.headers = hs0 ++ hs ∧ ∀ rest, MessageHead (headOf cfg s') hs t (c :: rest)
  | .fail _ _ => True

theorem at_cr {cfg : Cfg} {hs0 : Dict} {s : S} {t : Bytes} (hf : FirstLine (headOf cfg s) t) (hh : s.msg.headers = hs0)
    (hs : s.hs = .expNewline) : At cfg hs0 s (t ++ [CR]) := by
  refine .inr ⟨t, [CR], rfl, hf, ?_⟩
  unfold Sect
  rw [hs]
  exact ⟨[], ⟨[], [], [], .nil, .nil, rfl, by simp [hh]⟩, rfl⟩

theorem at_lf {cfg : Cfg} {hs0 : Dict} {s : S} {t : Bytes} (hf : FirstLine (headOf cfg s) t) (hh : s.msg.headers = hs0)
    (hs : s.hs = .expCr) : At cfg hs0 s (t ++ [LF]) := by
  refine .inr ⟨t, [LF], rfl, hf, ?_⟩
  unfold Sect
  rw [hs]
  exact ⟨[], ⟨[], [], [], .nil, .nil, rfl, by simp [hh]⟩, rfl⟩

theorem number_one {c : UInt8} (h : isDigit c = true) : Number (digitVal c) [c] := by
  refine ⟨by simp, by simpa using h, ?_⟩
  have := digitVal_lt h
  simp only [decVal, List.foldl_cons, List.foldl_nil]
  omega

theorem number_snoc {n : Nat} {t : Bytes} {c : UInt8} (ht : Number n t) (h : isDigit c = true) :
    Number ((n * 10 + digitVal c) % 65536) (t ++ [c]) := by
  obtain ⟨h1, h2, h3⟩ := ht
  refine ⟨by simp, fun x hx => ?_, ?_⟩
  · rcases List.mem_append.mp hx with hx | hx
    · exact h2 x hx
    · rw [List.mem_singleton.mp hx]; exact h
  · rw [h3]
    simp only [decVal, List.foldl_append, List.foldl_cons, List.foldl_nil]
    omega

theorem forall_snoc {P : UInt8 → Prop} {t : Bytes} {c : UInt8} (ht : ∀ x ∈ t, P x) (h : P c) : ∀ x ∈ t ++ [c], P x := by
  intro x hx
  rcases List.mem_append.mp hx with hx | hx
  · exact ht x hx
  · rw [List.mem_singleton.mp hx]; exact h

theorem version_start {cfg : Cfg} {c d : UInt8} {a : Bytes} {n : Nat} (hl : Letter cfg c) (hn : Number n a) (hd : isDigit d = true) :
    Version cfg.isRequest n (digitVal d) ([c] ++ b! "TTP/" ++ a ++ b! "." ++ [d]) := by
  have hne : d ≠ c! " " := digit_ne hd (by decide)
  refine ⟨c, a, [d], rfl, hl, hn, ?_, by simpa using hne, fun _ => by simpa using fun h => hne h.symm⟩
  have : List.filter (fun x => decide (x ≠ c! " ")) [d] = [d] := by simp [hne]
  rw [this]
  exact number_one hd

theorem version_digit {r : Bool} {n k : Nat} {v : Bytes} {d : UInt8} (h : Version r n k v) (hd : isDigit d = true) :
    Version r n ((k * 10 + digitVal d) % 65536) (v ++ [d]) := by
  obtain ⟨c, a, b, rfl, hc, hn, hm, hh, hs⟩ := h
  have hne : d ≠ c! " " := digit_ne hd (by decide)
  refine ⟨c, a, b ++ [d], by simp, hc, hn, ?_, ?_, fun hr => ?_⟩
  · have : List.filter (fun x => decide (x ≠ c! " ")) (b ++ [d]) = b.filter (fun x => decide (x ≠ c! " ")) ++ [d] := by
      simp [hne]
    rw [this]
    exact number_snoc hm hd
  · cases b with
    | nil => simpa using hne
    | cons x b => simpa using hh
  · have := hs hr
    simp only [List.mem_append, List.mem_singleton, not_or]
    exact ⟨this, fun h => hne h.symm⟩

theorem version_space {n k : Nat} {v : Bytes} (h : Version true n k v) : Version true n k (v ++ b! " ") := by
  obtain ⟨c, a, b, rfl, hc, hn, hm, hh, hs⟩ := h
  refine ⟨c, a, b ++ b! " ", by simp, hc, hn, ?_, ?_, fun hr => by cases hr⟩
  · have : List.filter (fun x => decide (x ≠ c! " ")) (b ++ b! " ") = b.filter (fun x => decide (x ≠ c! " ")) := by
      simp
    rw [this]
    exact hm
  · cases b with
    | nil => exact absurd rfl hm.1
    | cons x b => simpa using hh

theorem firstLine_request {cfg : Cfg} {s : S} {t v : Bytes} (hr : cfg.isRequest = true) (h : Target s t)
    (hv : v = [] ∧ s.msg.verMajor = 0 ∧ s.msg.verMinor = 0 ∨
      ∃ x, v = b! " " ++ x ∧ Version true s.msg.verMajor s.msg.verMinor x) : FirstLine (headOf cfg s) (t ++ v) := by
  obtain ⟨pre, q, h1, h2, h3, h4, h5, h6, h7, rfl⟩ := h
  unfold headOf
  rw [if_pos hr]
  exact .request h1 h2 h3 h4 h5 h6 h7 hv

theorem firstLine_response {cfg : Cfg} {s : S} {v n x : Bytes} (hr : cfg.isRequest = false)
    (h1 : Version false s.msg.verMajor s.msg.verMinor v) (h2 : Number s.statusCode n)
    (h3 : ∀ c ∈ s.statusMessage, textChar c) (h4 : s.statusMessage.length ≤ 1024)
    (h5 : x = [] ∧ s.statusMessage = [] ∨ x = b! " " ++ s.statusMessage) :
    FirstLine (headOf cfg s) (v ++ b! " " ++ n ++ x) := by
  unfold headOf
  rw [if_neg (by simp [hr])]
  exact .response h1 h2 h3 h4 h5

theorem first_switch (cfg : Cfg) (hs0 : Dict) (s : S) (t : Bytes) (c : UInt8) (h : First cfg s t) (hh0 : s.msg.headers = hs0) :
    Next cfg hs0 t c (hswitch cfg s c) := by
  unfold First at h
  unfold hswitch
  cases hh : s.hs <;> rw [hh] at h <;> try exact h.elim
  all_goals simp only
  case methodStart =>
    obtain ⟨hr, hq, hp⟩ := h
    by_cases h1 : (c = c! " " || c = CR || c = LF) = true
    · rw [if_pos h1]
      refine .inl ⟨?_, hh0⟩
      unfold First
      rw [hh]
      refine ⟨hr, hq, forall_snoc hp ?_⟩
      simpa [or_assoc] using h1
    rw [if_neg h1]
    by_cases hb : badToken c = true
    · rw [if_pos hb]; trivial
    rw [if_neg hb]
    exact .inl ⟨⟨hr, hq, t, hp, token_one (by simpa using hb), rfl⟩, hh0⟩
  case method =>
    obtain ⟨hr, hq, pre, hp, ht, rfl⟩ := h
    by_cases h1 : c = c! " "
    · subst h1; rw [if_pos rfl]
      exact .inl ⟨⟨hr, hq, pre, hp, ht, by simp, by simp, by simp⟩, hh0⟩
    rw [if_neg h1]
    by_cases hb : badToken c = true
    · rw [if_pos hb]; trivial
    rw [if_neg hb]
    by_cases hsz : METHOD_MAX ≤ s.method.length
    · rw [if_pos hsz]; trivial
    rw [if_neg hsz]
    exact .inl ⟨⟨hr, hq, pre, hp, token_snoc ht (by simpa using hb) (by simp only [METHOD_MAX] at hsz; omega), by simp⟩, hh0⟩
  case uriStem =>
    obtain ⟨hr, hq, pre, hp, ht, hu, hl, rfl⟩ := h
    have tg : ∀ s' : S, s'.method = s.method → s'.resource = s.resource → s'.query = s.query →
        Target s' (pre ++ s.method ++ b! " " ++ s.resource) := by
      intro s' e1 e2 e3
      unfold Target
      rw [e1, e2, e3]
      exact ⟨pre, [], hp, ht, hu, hl, by simp [hq], by simp [hq], .inl ⟨rfl, hq⟩, by simp⟩
    by_cases h1 : c = c! " "
    · subst h1; rw [if_pos rfl]
      exact .inl ⟨.inl ⟨hr, _, tg _ rfl rfl rfl, rfl⟩, hh0⟩
    rw [if_neg h1]
    by_cases h2 : c = c! "?"
    · subst h2; rw [if_pos rfl]
      exact .inl ⟨⟨hr, pre, hp, ht, hu, hl, by simp, by simp, by simp⟩, hh0⟩
    rw [if_neg h2]
    by_cases h3 : c = CR
    · subst h3; rw [if_pos rfl]
      refine at_cr ?_ hh0 rfl
      have := firstLine_request (s := { s.noVersion with hs := .expNewline }) (v := []) hr (tg _ rfl rfl rfl) (.inl ⟨rfl, rfl, rfl⟩)
      rwa [List.append_nil] at this
    rw [if_neg h3]
    by_cases h4 : c = LF
    · subst h4; rw [if_pos rfl]
      refine at_lf ?_ hh0 rfl
      have := firstLine_request (s := { s.noVersion with hs := .expCr }) (v := []) hr (tg _ rfl rfl rfl) (.inl ⟨rfl, rfl, rfl⟩)
      rwa [List.append_nil] at this
    rw [if_neg h4]
    by_cases hc : isControl c = true
    · rw [if_pos hc]; trivial
    rw [if_neg hc]
    by_cases hsz : RESOURCE_MAX ≤ s.resource.length
    · rw [if_pos hsz]; trivial
    rw [if_neg hsz]
    refine .inl ⟨⟨hr, hq, pre, hp, ht, forall_snoc hu ⟨h1, h2, by simpa using hc⟩, ?_, by simp⟩, hh0⟩
    simp only [RESOURCE_MAX] at hsz
    simp only [List.length_append, List.length_singleton]
    omega
  case uriQuery =>
    obtain ⟨hr, pre, hp, ht, hu, hl, hq, hql, rfl⟩ := h
    have tg : ∀ s' : S, s'.method = s.method → s'.resource = s.resource → s'.query = s.query →
        Target s' (pre ++ s.method ++ b! " " ++ s.resource ++ b! "?" ++ s.query) := by
      intro s' e1 e2 e3
      unfold Target
      rw [e1, e2, e3]
      exact ⟨pre, b! "?" ++ s.query, hp, ht, hu, hl, hq, hql, .inr rfl, by simp⟩
    by_cases h1 : c = c! " "
    · subst h1; rw [if_pos rfl]
      exact .inl ⟨.inl ⟨hr, _, tg _ rfl rfl rfl, rfl⟩, hh0⟩
    rw [if_neg h1]
    by_cases h3 : c = CR
    · subst h3; rw [if_pos rfl]
      refine at_cr ?_ hh0 rfl
      have := firstLine_request (s := { s.noVersion with hs := .expNewline }) (v := []) hr (tg _ rfl rfl rfl) (.inl ⟨rfl, rfl, rfl⟩)
      rwa [List.append_nil] at this
    rw [if_neg h3]
    by_cases h4 : c = LF
    · subst h4; rw [if_pos rfl]
      refine at_lf ?_ hh0 rfl
      have := firstLine_request (s := { s.noVersion with hs := .expCr }) (v := []) hr (tg _ rfl rfl rfl) (.inl ⟨rfl, rfl, rfl⟩)
      rwa [List.append_nil] at this
    rw [if_neg h4]
    by_cases hc : isControl c = true
    · rw [if_pos hc]; trivial
    rw [if_neg hc]
    by_cases hsz : QUERY_STRING_MAX ≤ s.query.length
    · rw [if_pos hsz]; trivial
    rw [if_neg hsz]
    refine .inl ⟨⟨hr, pre, hp, ht, hu, hl, forall_snoc hq ⟨h1, by simpa using hc⟩, ?_, by simp⟩, hh0⟩
    simp only [QUERY_STRING_MAX] at hsz
    simp only [List.length_append, List.length_singleton]
    omega
  case verH =>
    by_cases h1 : (c = CR || c = LF) = true
    · rw [if_pos h1]
      by_cases hr : cfg.isRequest = true
      · rw [if_pos hr]
        refine .inl ⟨⟨t, c, h, .inr ⟨hr, by simpa using h1⟩, rfl⟩, hh0⟩
      · rw [if_neg hr]; trivial
    rw [if_neg h1]
    by_cases h2 : c = c! "H"
    · subst h2; rw [if_pos rfl]
      exact .inl ⟨⟨t, _, h, .inl rfl, rfl⟩, hh0⟩
    · rw [if_neg h2]; trivial
  case verT1 =>
    obtain ⟨p, d, hb, hl, rfl⟩ := h
    by_cases h2 : c = c! "T"
    · subst h2; rw [if_pos rfl]; exact .inl ⟨⟨p, d, hb, hl, by simp⟩, hh0⟩
    · rw [if_neg h2]; trivial
  case verT2 =>
    obtain ⟨p, d, hb, hl, rfl⟩ := h
    by_cases h2 : c = c! "T"
    · subst h2; rw [if_pos rfl]; exact .inl ⟨⟨p, d, hb, hl, by simp⟩, hh0⟩
    · rw [if_neg h2]; trivial
  case verP =>
    obtain ⟨p, d, hb, hl, rfl⟩ := h
    by_cases h2 : c = c! "P"
    · subst h2; rw [if_pos rfl]; exact .inl ⟨⟨p, d, hb, hl, by simp⟩, hh0⟩
    · rw [if_neg h2]; trivial
  case verSlash =>
    obtain ⟨p, d, hb, hl, rfl⟩ := h
    by_cases h2 : c = c! "/"
    · subst h2; rw [if_pos rfl]; exact .inl ⟨⟨p, d, hb, hl, by simp⟩, hh0⟩
    · rw [if_neg h2]; trivial
  case verMajorStart =>
    obtain ⟨p, d, hb, hl, rfl⟩ := h
    by_cases h2 : isDigit c = true
    · rw [if_pos h2]; exact .inl ⟨⟨p, d, [c], hb, hl, number_one h2, rfl⟩, hh0⟩
    · rw [if_neg h2]; trivial
  case verMajor =>
    obtain ⟨p, d, a, hb, hl, hn, rfl⟩ := h
    by_cases h1 : c = c! "."
    · subst h1; rw [if_pos rfl]; exact .inl ⟨⟨p, d, a, hb, hl, hn, rfl⟩, hh0⟩
    rw [if_neg h1]
    by_cases h2 : isDigit c = true
    · rw [if_pos h2]; exact .inl ⟨⟨p, d, a ++ [c], hb, hl, number_snoc hn h2, by simp⟩, hh0⟩
    · rw [if_neg h2]; trivial
  case verMinorStart =>
    obtain ⟨p, d, a, hb, hl, hn, rfl⟩ := h
    by_cases h2 : isDigit c = true
    · rw [if_pos h2]
      exact .inl ⟨⟨p, _, hb, version_start hl hn h2, by simp⟩, hh0⟩
    · rw [if_neg h2]; trivial
  case verMinor =>
    obtain ⟨p, v, hb, hv, rfl⟩ := h
    have fl : ∀ s' : S, s'.method = s.method → s'.resource = s.resource → s'.query = s.query →
        s'.msg.verMajor = s.msg.verMajor → s'.msg.verMinor = s.msg.verMinor →
        cfg.isRequest = true → FirstLine (headOf cfg s') (p ++ v) := by
      intro s' e1 e2 e3 e4 e5 hr
      rcases hb with ⟨_, u, hu, rfl⟩ | ⟨h', _⟩
      · rw [List.append_assoc]
        rw [hr] at hv
        refine firstLine_request hr ?_ (.inr ⟨v, rfl, by rw [e4, e5]; exact hv⟩)
        unfold Target at hu ⊢
        rw [e1, e2, e3]
        exact hu
      · rw [hr] at h'; cases h'
    by_cases h1 : c = c! " "
    · subst h1
      rw [if_pos rfl]
      by_cases hr : cfg.isRequest = true
      · rw [if_pos hr]
        refine .inl ⟨?_, hh0⟩
        unfold First
        rw [hh]
        refine ⟨p, v ++ b! " ", hb, ?_, by simp⟩
        rw [hr] at hv ⊢
        exact version_space hv
      · rw [if_neg hr]
        have hr' : cfg.isRequest = false := by simpa using hr
        rw [hr'] at hv
        rcases hb with ⟨h', _⟩ | ⟨_, rfl⟩
        · exact absurd h' hr
        exact .inl ⟨⟨hr', v, hv, by simp⟩, hh0⟩
    rw [if_neg h1]
    by_cases h3 : c = CR
    · subst h3; rw [if_pos rfl]
      by_cases hr : cfg.isRequest = true
      · rw [if_pos hr]
        exact at_cr (fl _ rfl rfl rfl rfl rfl hr) hh0 rfl
      · rw [if_neg hr]; trivial
    rw [if_neg h3]
    by_cases h4 : c = LF
    · subst h4; rw [if_pos rfl]
      by_cases hr : cfg.isRequest = true
      · rw [if_pos hr]
        exact at_lf (fl _ rfl rfl rfl rfl rfl hr) hh0 rfl
      · rw [if_neg hr]; trivial
    rw [if_neg h4]
    by_cases h2 : isDigit c = true
    · rw [if_pos h2]
      refine .inl ⟨?_, hh0⟩
      exact ⟨p, v ++ [c], hb, version_digit hv h2, by simp⟩
    · rw [if_neg h2]; trivial
  case statusCodeStart =>
    obtain ⟨hr, v, hv, rfl⟩ := h
    by_cases h2 : isDigit c = true
    · rw [if_pos h2]; exact .inl ⟨⟨hr, v, [c], hv, number_one h2, rfl⟩, hh0⟩
    · rw [if_neg h2]; trivial
  case statusCode =>
    obtain ⟨hr, v, n, hv, hn, rfl⟩ := h
    by_cases h1 : c = c! " "
    · subst h1; rw [if_pos rfl]; exact .inl ⟨⟨hr, v, n, hv, hn, by simp, by simp, by simp⟩, hh0⟩
    rw [if_neg h1]
    by_cases h2 : isDigit c = true
    · rw [if_pos h2]; exact .inl ⟨⟨hr, v, n ++ [c], hv, number_snoc hn h2, by simp⟩, hh0⟩
    rw [if_neg h2]
    by_cases h3 : c = CR
    · subst h3; rw [if_pos rfl]
      refine at_cr ?_ hh0 rfl
      have := firstLine_response (s := { s with statusMessage := [], hs := .expNewline }) (x := []) hr hv hn (by simp) (by simp)
        (.inl ⟨rfl, rfl⟩)
      rwa [List.append_nil] at this
    rw [if_neg h3]
    by_cases h4 : c = LF
    · subst h4; rw [if_pos rfl]
      refine at_lf ?_ hh0 rfl
      have := firstLine_response (s := { s with statusMessage := [], hs := .expCr }) (x := []) hr hv hn (by simp) (by simp)
        (.inl ⟨rfl, rfl⟩)
      rwa [List.append_nil] at this
    rw [if_neg h4]; trivial
  case statusMessage =>
    obtain ⟨hr, v, n, hv, hn, hc, hl, rfl⟩ := h
    have fl : ∀ s' : S, s'.msg.verMajor = s.msg.verMajor → s'.msg.verMinor = s.msg.verMinor → s'.statusCode = s.statusCode →
        s'.statusMessage = s.statusMessage → FirstLine (headOf cfg s') (v ++ b! " " ++ n ++ b! " " ++ s.statusMessage) := by
      intro s' e1 e2 e3 e4
      rw [List.append_assoc (v ++ b! " " ++ n)]
      refine firstLine_response hr ?_ ?_ ?_ ?_ (.inr ?_)
      · rw [e1, e2]; exact hv
      · rw [e3]; exact hn
      · rw [e4]; exact hc
      · rw [e4]; exact hl
      · rw [e4]
    by_cases h3 : c = CR
    · subst h3; rw [if_pos rfl]
      exact at_cr (fl _ rfl rfl rfl rfl) hh0 rfl
    rw [if_neg h3]
    by_cases h4 : c = LF
    · subst h4; rw [if_pos rfl]
      exact at_lf (fl _ rfl rfl rfl rfl) hh0 rfl
    rw [if_neg h4]
    by_cases hct : isControl c = true
    · rw [if_pos hct]; trivial
    rw [if_neg hct]
    by_cases hsz : STATUS_MESSAGE_MAX ≤ s.statusMessage.length
    · rw [if_pos hsz]; trivial
    rw [if_neg hsz]
    refine .inl ⟨⟨hr, v, n, hv, hn, forall_snoc hc (by simpa [textChar] using hct), ?_, by simp⟩, hh0⟩
    simp only [STATUS_MESSAGE_MAX] at hsz
    simp only [List.length_append, List.length_singleton]
    omega

/-- One byte of a head. -/
theorem at_step (cfg : Cfg) (hs0 : Dict) (s : S) (t : Bytes) (c : UInt8) (h : At cfg hs0 s t) :
    Next cfg hs0 t c (hstep cfg s c) := by
  rw [hstep_raw]
  have h : At cfg hs0 { s with raw := rawAdd cfg s.raw [c] } t := h
  generalize ({ s with raw := rawAdd cfg s.raw [c] } : S) = s at h
  rcases h with ⟨h, hh⟩ | ⟨f, l, rfl, hf, h⟩
  · exact first_switch cfg hs0 s t c h hh
  · have := sect_switch cfg _ hs0 s l c (old_headOf cfg s) h
    unfold SectNext at this
    unfold Next
    split at this
    · obtain ⟨h1, h2⟩ := this
      refine .inr ⟨f, l ++ [c], by simp, ?_, ?_⟩
      · rw [h2]; exact hf
      · rw [h2]; exact h1
    · obtain ⟨h1, hs, h2, h3⟩ := this
      refine ⟨hs, h2, fun rest => ⟨f, l ++ [c], by simp, ?_, ?_⟩⟩
      · rw [h1]; exact hf
      · rw [h1]; exact h3 rest
    · obtain ⟨h1, hs, h2, h3⟩ := this
      refine ⟨hs, h2, fun rest => ⟨f, l, rfl, ?_, ?_⟩⟩
      · rw [h1]; exact hf
      · rw [h1]; exact h3 rest
    · trivial

/-- The head machine accepts only texts of the grammar, and what it has stored is what was written. -/
theorem run_sound (cfg : Cfg) (hs0 : Dict) (buf : Bytes) : ∀ (s : S) (t : Bytes) (s' : S) (rest : Bytes), At cfg hs0 s t →
    run (hstep cfg) s buf = (.yes, s', rest) →
    ∃ hs u, s'.msg.headers = hs0 ++ hs ∧ t ++ buf = u ++ rest ∧ MessageHead (headOf cfg s') hs u rest := by
  induction buf with
  | nil => intro s t s' rest _ h; simp [run] at h
  | cons c buf ih =>
    intro s t s' rest hat h
    have hn := at_step cfg hs0 s t c hat
    simp only [run] at h
    cases hst : hstep cfg s c with
    | more s1 =>
      rw [hst] at h hn
      obtain ⟨hs, u, e1, e2, e3⟩ := ih s1 (t ++ [c]) s' rest hn h
      exact ⟨hs, u, e1, by rw [← e2]; simp, e3⟩
    | done s1 k =>
      rw [hst] at h hn
      cases k with
      | true =>
        simp only [Prod.mk.injEq, true_and] at h
        obtain ⟨rfl, rfl⟩ := h
        obtain ⟨hs, e1, e2⟩ := hn
        exact ⟨hs, t ++ [c], e1, by simp, e2 _⟩
      | false =>
        simp only [Prod.mk.injEq, true_and] at h
        obtain ⟨rfl, rfl⟩ := h
        obtain ⟨hs, e1, e2⟩ := hn
        exact ⟨hs, t, e1, by simp, e2 _⟩
    | fail s1 e =>
      rw [hst] at h
      simp at h

end Verif.Http.Text
