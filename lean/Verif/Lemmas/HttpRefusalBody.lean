import Verif.Spec.HttpRefusalBody
import Verif.Lemmas.HttpRefusalRun
import Verif.Lemmas.HttpFramingRun
/-
Lemmas for C100: what the chunk machine has read when it refuses a byte, and that it can always be satisfied before.
-/
set_option linter.unnecessarySeqFocus false

namespace Verif.Http.Text

/-! ### What is refused -/

theorem cat_fail {cfg : Cfg} {s0 s s' : S} {t : Bytes} {c : UInt8} {e : Err} (h : CAt cfg s0 s t) (hf : cbyte cfg s c = .fail s' e) :
    e = .chunkChar ∧ ChunkCause t c := by
  obtain ⟨data, z, a, b, x, rfl, hr, hi⟩ := h
  have hcs : (cst cfg s0 data z a b x).cs = x := rfl
  have blank : ∀ {x : UInt8}, ¬ (x = c! " " || x = 0x09) = true → isBlank x = false := by decide +kernel
  have pad : ∀ {x : UInt8}, ¬ (x = c! " " || x = 0x09 || x = CR || x = LF) = true → isBlank x = false ∧ x ≠ CR ∧ x ≠ LF := by
    decide +kernel
  unfold cbyte cstep at hf
  simp only [hcs] at hf
  cases x with
  | sizeStart =>
    obtain ⟨ds, p, pd, h1, h2, rfl, rfl⟩ := hi
    simp only at hf
    split_ifs at hf with h3 h4 <;> cases hf
    obtain ⟨h5, h6, h7⟩ := pad h4
    exact ⟨rfl, .sizeFirst h1 h2 (by simpa using h3) h5 h6 h7⟩
  | size =>
    obtain ⟨ds, p, pd, h1, h2, h3, rfl, rfl⟩ := hi
    simp only at hf
    split_ifs at hf with h4 h5 h6 h7 <;> cases hf
    refine ⟨rfl, ?_⟩
    rw [← List.append_assoc]
    exact .size h1 h2 h3 (by simpa using h4) (blank h6) h5 h7
  | ignoredText => simp only at hf; split_ifs at hf <;> cases hf
  | expCrAfterSize =>
    obtain ⟨ds, p, pd, x, h1, h2, h3, h4, h5, rfl, rfl⟩ := hi
    simp only at hf
    split_ifs at hf with h6 h7 <;> cases hf
    refine ⟨rfl, ?_⟩
    rw [← List.append_assoc, ← List.append_assoc]
    exact .afterSize h1 h2 h3 h5 h4 (blank h7) h6
  | expLfAfterSize =>
    obtain ⟨ds, p, pd, x, h1, h2, h3, h4, rfl, rfl⟩ := hi
    simp only at hf
    split_ifs at hf with h6 h7 <;> cases hf
    refine ⟨rfl, ?_⟩
    rw [← List.append_assoc, ← List.append_assoc, ← List.append_assoc]
    exact .sizeEnd h1 h2 h3 h4 h6
  | chunk => simp only at hf; split_ifs at hf <;> cases hf
  | expCrAfterChunk =>
    obtain ⟨ds, p, line, d, h1, h2, h3, rfl, rfl⟩ := hi
    simp only at hf
    split_ifs at hf with h6 <;> cases hf
    exact ⟨rfl, .data h1 h2 h3 h6⟩
  | expLfAfterChunk =>
    obtain ⟨ds, p, line, d, h1, h2, h3, rfl, rfl⟩ := hi
    simp only at hf
    split_ifs at hf with h6 <;> cases hf
    exact ⟨rfl, .dataEnd h1 h2 h3 h6⟩
  | expFinalCrOrFooters => simp only at hf; split_ifs at hf <;> cases hf
  | expFinalLf =>
    obtain ⟨ds, p, line, h1, h2, rfl, rfl⟩ := hi
    simp only at hf
    split_ifs at hf with h6 <;> cases hf
    exact ⟨rfl, .last h1 h2 h6⟩

/-! ### The machine can be satisfied -/

theorem hexValue_zero : hexValue (b! "0") = 0 := by decide

theorem line0 : SizeLine 0 (b! "0" ++ [CR, LF]) := by
  have := SizeLine.mk (pad := []) (d := b! "0") (x := []) (by simp) (by decide) (by decide +kernel) (.blanks (by simp))
  rw [hexValue_zero] at this
  simpa using this

/-- A text of chunks and the beginning of a line with a size. -/
theorem viable_line {handler old : Bool} {ds : List Bytes} {p line t : Bytes} (n : Nat) (h : Chunks ds p) (hl : SizeLine n line)
    (ht : t <+: p ++ line) : BodyViable handler old t := by
  obtain ⟨y, hy⟩ := ht
  by_cases hn : n = 0
  · subst hn
    exact ⟨ds, [], _, [], .mk h hl .empty, y ++ [CR, LF], by rw [List.append_nil, ← hy]; simp⟩
  · have hd : (List.replicate n (0 : UInt8)).length = n := by simp
    have h' := Chunks.snoc (d := List.replicate n 0) h (by intro e; rw [e] at hd; exact hn hd.symm) (by rw [hd]; exact hl)
    exact ⟨_, [], _, [], .mk h' line0 .empty, y ++ (List.replicate n 0 ++ [CR, LF] ++ (b! "0" ++ [CR, LF]) ++ [CR, LF]), by
      rw [List.append_nil, ← List.append_assoc, hy]; simp⟩

theorem viable_chunks {handler old : Bool} {ds : List Bytes} {p t : Bytes} (h : Chunks ds p) (ht : t <+: p) : BodyViable handler old t :=
  viable_line 0 h line0 (ht.trans (List.prefix_append _ _))

theorem viable_data {handler old : Bool} {ds : List Bytes} {p line d : Bytes} {n : Nat} (h : Chunks ds p) (hl : SizeLine n line)
    (hd : d.length ≤ n) : BodyViable handler old (p ++ line ++ d) := by
  cases hn : n with
  | zero =>
    have : d = [] := List.length_eq_zero_iff.mp (by omega)
    subst this
    rw [List.append_nil]
    exact viable_line n h hl List.prefix_rfl
  | succ k =>
    have hl' : (d ++ List.replicate (n - d.length) (0 : UInt8)).length = n := by simp; omega
    exact viable_chunks (.snoc (d := d ++ List.replicate (n - d.length) 0) h (by intro e; rw [e] at hl'; simp at hl'; omega)
      (by rw [hl']; exact hl)) ⟨List.replicate (n - d.length) 0 ++ [CR, LF], by simp⟩

theorem viable_prefix {handler old : Bool} {t t' : Bytes} (h : BodyViable handler old t') (hp : t <+: t') : BodyViable handler old t := by
  obtain ⟨ds, tr, w, rest, h1, h2⟩ := h
  exact ⟨ds, tr, w, rest, h1, hp.trans h2⟩

theorem cat_viable {cfg : Cfg} {s0 s : S} {t : Bytes} (handler old : Bool) (h : CAt cfg s0 s t) : BodyViable handler old t := by
  obtain ⟨data, z, a, b, x, rfl, hr, hi⟩ := h
  cases x with
  | sizeStart =>
    obtain ⟨ds, p, pd, h1, h2, rfl, rfl⟩ := hi
    exact viable_line _ h1 (SizeLine.mk h2 (d := b! "0") (by decide) (by decide +kernel) (.blanks (x := []) (by simp)))
      ⟨b! "0" ++ [CR, LF], by simp⟩
  | size =>
    obtain ⟨ds, p, pd, h1, h2, h3, rfl, rfl⟩ := hi
    exact viable_line _ h1 (SizeLine.mk h2 h3.1 h3.2 (.blanks (x := []) (by simp))) ⟨[CR, LF], by simp⟩
  | ignoredText =>
    obtain ⟨ds, p, pd, x, h1, h2, h3, h4, rfl, rfl⟩ := hi
    exact viable_line _ h1 (SizeLine.mk h2 h3.1 h3.2 (.ext h4)) ⟨[CR, LF], by simp⟩
  | expCrAfterSize =>
    obtain ⟨ds, p, pd, x, h1, h2, h3, h4, _, rfl, rfl⟩ := hi
    exact viable_line _ h1 (SizeLine.mk h2 h3.1 h3.2 (.blanks h4)) ⟨[CR, LF], by simp⟩
  | expLfAfterSize =>
    obtain ⟨ds, p, pd, x, h1, h2, h3, h4, rfl, rfl⟩ := hi
    exact viable_line _ h1 (SizeLine.mk h2 h3.1 h3.2 h4) ⟨[LF], by simp⟩
  | chunk =>
    obtain ⟨ds, p, line, d, h1, h2, h3, h4, rfl, rfl⟩ := hi
    have hl : (d ++ List.replicate (b - a) (0 : UInt8)).length = b := by simp; omega
    exact viable_chunks (.snoc (d := d ++ List.replicate (b - a) 0) h1 (by intro e; rw [e] at hl; simp at hl; omega) (by rw [hl]; exact h2))
      ⟨List.replicate (b - a) 0 ++ [CR, LF], by simp⟩
  | expCrAfterChunk =>
    obtain ⟨ds, p, line, d, h1, h2, h3, rfl, rfl⟩ := hi
    exact viable_chunks (.snoc h1 h3 h2) ⟨[CR, LF], by simp⟩
  | expLfAfterChunk =>
    obtain ⟨ds, p, line, d, h1, h2, h3, rfl, rfl⟩ := hi
    exact viable_chunks (.snoc h1 h3 h2) ⟨[LF], by simp⟩
  | expFinalCrOrFooters =>
    obtain ⟨ds, p, line, h1, h2, rfl, rfl⟩ := hi
    exact viable_line 0 h1 h2 (List.prefix_rfl)
  | expFinalLf =>
    obtain ⟨ds, p, line, h1, h2, rfl, rfl⟩ := hi
    exact ⟨ds, [], _, [], .mk h1 h2 .empty, [LF], by simp⟩

/-! ### Every cause is reported -/

theorem steps_skip (cfg : Cfg) (s : S) (hc : s.cs = .sizeStart) {pad : Bytes} (h : Skip pad) : Steps (cbyte cfg) s pad s :=
  steps_stay s pad fun e he => by
    obtain ⟨h1, h2⟩ := pad_not_hex e (h e he)
    simp only [cbyte, cstep, hc, h1, h2, if_true, if_false, Bool.false_eq_true, CRes.toH]

theorem steps_digits (cfg : Cfg) (s : S) (hc : s.cs = .sizeStart) {z : Bytes} (h : HexDigits z) :
    Steps (cbyte cfg) s z { s with chunkSizeStr := z, cs := .size } := by
  obtain ⟨c, l, rfl⟩ := List.exists_cons_of_ne_nil h.1
  have p1 : cbyte cfg s c = .more { s with chunkSizeStr := [c], cs := .size } := by
    simp [cbyte, cstep, hc, h.2 c (by simp), CRes.toH]
  have p2 := Steps.acc (step := cbyte cfg) (fun s t => { s with chunkSizeStr := s.chunkSizeStr ++ t })
    (fun s _ => s.cs = .size) (fun c => isHexDigit c = true) (fun s => by simp) (fun s a b => by simp)
    (fun s c n h1 h2 => ⟨by simp [cbyte, cstep, h1, h2, CRes.toH], h1⟩) l
    { s with chunkSizeStr := [c], cs := .size } rfl (fun x hx' => h.2 x (by simp [hx']))
  exact Steps.cons p1 p2

theorem steps_sizeBlanks (cfg : Cfg) (s : S) (hc : s.cs = .size) {x : Bytes} (hne : x ≠ []) (hb : ∀ c ∈ x, isBlank c = true) :
    Steps (cbyte cfg) s x { s with cs := .expCrAfterSize } := by
  obtain ⟨c, x, rfl⟩ := List.exists_cons_of_ne_nil hne
  obtain ⟨h1, h2, h3⟩ := blank_cond c (hb c (by simp))
  have p1 : cbyte cfg s c = .more { s with cs := .expCrAfterSize } := by
    simp only [cbyte, cstep, hc, h1, h2, h3, if_true, if_false, Bool.false_eq_true, CRes.toH]
  refine Steps.cons p1 (steps_stay _ x fun e he => ?_)
  obtain ⟨_, h2, h3⟩ := blank_cond e (hb e (by simp [he]))
  simp only [cbyte, cstep, h2, h3, if_true, if_false, CRes.toH]

theorem steps_data (cfg : Cfg) (s : S) (hc : s.cs = .sizeStart) {line d : Bytes} (hne : d ≠ [])
    (hl : SizeLine d.length line) (hr : room cfg s d.length) :
    ∃ s', Steps (cbyte cfg) s (line ++ d) s' ∧ s'.cs = .expCrAfterChunk := by
  obtain ⟨z, p1⟩ := steps_sizeLine cfg s hc hl
  have hpos : 0 < d.length := List.length_pos_iff.mpr hne
  rw [if_neg (by omega)] at p1
  refine ⟨dataState cfg { s with chunkSizeStr := z, chunkRead := 0, chunkSize := d.length, cs := .chunk } d, fun rest => ?_, ?_⟩
  · rw [List.append_assoc, p1, run_data cfg d _ _ (by rfl) hne (by simp) (by exact hr)]
  · simp [dataState]

/-- The chunk machine stops at a byte that has a cause. -/
theorem chunkCause_fails (cfg : Cfg) (hh : cfg.handler = true) (s : S) (hc : s.cs = .sizeStart) {t : Bytes} {c : UInt8}
    (h : ChunkCause t c) : ∃ s1, Steps (cbyte cfg) s t s1 ∧ cbyte cfg s1 c = .fail s1 .chunkChar := by
  have room : ∀ s n, room cfg s n := fun s n h => by rw [hh] at h; cases h
  have nblank : ∀ {x : UInt8}, isBlank x = false → ¬ (x = c! " " || x = 0x09) = true := by decide +kernel
  have npad : ∀ {x : UInt8}, isBlank x = false → x ≠ CR → x ≠ LF → ¬ (x = c! " " || x = 0x09 || x = CR || x = LF) = true := by
    decide +kernel
  cases h with
  | sizeFirst h1 h2 h3 h4 h5 h6 =>
    obtain ⟨z, a, b, q⟩ := steps_chunksText cfg s hc h1 (room _ _)
    refine ⟨_, q.trans (steps_skip cfg _ rfl h2), ?_⟩
    simp only [cbyte, cstep, cst, h3, Bool.false_eq_true, if_false, npad h4 h5 h6, CRes.toH]
  | size h1 h2 h3 h4 h5 h6 h7 =>
    obtain ⟨z, a, b, q⟩ := steps_chunksText cfg s hc h1 (room _ _)
    refine ⟨_, (q.trans (steps_skip cfg _ rfl h2)).trans (steps_digits cfg _ rfl h3), ?_⟩
    simp only [cbyte, cstep, cst, h4, Bool.false_eq_true, if_false, nblank h5, h6, h7, CRes.toH]
  | afterSize h1 h2 h3 h4 h5 h6 h7 =>
    obtain ⟨z, a, b, q⟩ := steps_chunksText cfg s hc h1 (room _ _)
    refine ⟨_, ((q.trans (steps_skip cfg _ rfl h2)).trans (steps_digits cfg _ rfl h3)).trans (steps_sizeBlanks cfg _ rfl h4 h5), ?_⟩
    simp only [cbyte, cstep, cst, Bool.false_eq_true, if_false, nblank h6, h7, CRes.toH]
  | sizeEnd h1 h2 h3 h4 h5 =>
    obtain ⟨z, a, b, q⟩ := steps_chunksText cfg s hc h1 (room _ _)
    have := ((q.trans (steps_skip cfg _ rfl h2)).trans (steps_digits cfg _ rfl h3)).trans (steps_sizeTail cfg _ rfl h4)
    rw [← List.append_assoc] at this
    refine ⟨_, this, ?_⟩
    simp only [cbyte, cstep, cst, if_false, h5, CRes.toH]
  | data h1 h2 h3 h4 =>
    obtain ⟨z, a, b, q⟩ := steps_chunksText cfg s hc h1 (room _ _)
    obtain ⟨s', q', e⟩ := steps_data cfg (cst cfg s _ z a b .sizeStart) rfl h3 h2 (room _ _)
    have := q.trans q'
    rw [← List.append_assoc] at this
    exact ⟨s', this, by simp only [cbyte, cstep, e, h4, if_false, CRes.toH]⟩
  | dataEnd h1 h2 h3 h4 =>
    obtain ⟨z, a, b, q⟩ := steps_chunksText cfg s hc h1 (room _ _)
    obtain ⟨s', q', e⟩ := steps_data cfg (cst cfg s _ z a b .sizeStart) rfl h3 h2 (room _ _)
    have := q.trans q'
    rw [← List.append_assoc] at this
    exact ⟨{ s' with cs := .expLfAfterChunk }, this.trans (.one (by simp only [cbyte, cstep, e, if_true, CRes.toH])),
      by simp only [cbyte, cstep, h4, if_false, CRes.toH]⟩
  | last h1 h2 h3 =>
    rename_i ds p line
    obtain ⟨z, q⟩ := steps_lastLine cfg s hc h1 h2 (room _ _)
    refine ⟨_, q.trans (.one (t := { cst cfg s ds.flatten z 0 0 .expFinalCrOrFooters with cs := .expFinalLf }) ?_), ?_⟩
    · simp only [cbyte, cstep, cst, if_true, CRes.toH]
    · simp only [cbyte, cstep, h3, if_false, CRes.toH]

/-! ### Headers and trailers are read alike -/

/-- The states are alike for the machine that reads lines of headers. -/
structure Sim (cfg : Cfg) (s s' : S) : Prop where
  hs : s'.hs = s.hs
  name : s.hs = .headerName → s'.headerName = s.headerName
  value : s.hs = .spaceBeforeValue ∨ s.hs = .headerValue → s'.headerValue = s.headerValue
  old : (cfg.isRequest && s'.msg.verMajor == 0) = (cfg.isRequest && s.msg.verMajor == 0)
  sect : s.hs ∈ [HState.expNewline, .expCr, .headerWs, .headerStart, .headerName, .spaceBeforeValue, .headerValue, .expFinalNewline,
    .expFinalCr]

/-- The same is done. -/
def SimRes (cfg : Cfg) : HRes → HRes → Prop
  | .more s, .more s' => Sim cfg s s'
  | .done _ k, .done _ k' => k' = k
  | .fail _ e, .fail _ e' => e' = e
  | _, _ => False

theorem sim_switch {cfg : Cfg} {s s' : S} (h : Sim cfg s s') (c : UInt8) : SimRes cfg (hswitch cfg s c) (hswitch cfg s' c) := by
  obtain ⟨h1, h2, h3, h4, h5⟩ := h
  unfold hswitch
  simp only [h1, h4]
  cases hh : s.hs <;> rw [hh] at h5 <;> first | (exact absurd h5 (by decide)) | skip
  all_goals simp only
  all_goals try rw [h2 hh]
  all_goals try rw [h3 (.inl hh)]
  all_goals try rw [h3 (.inr hh)]
  all_goals (repeat' split) <;> first
    | rfl
    | exact ⟨by first | rfl | rw [h1, hh], fun hx => by first | rfl | exact h2 hh | cases hx | (rw [hh] at hx; cases hx),
        fun hx => by first | rfl | exact h3 (.inl hh) | exact h3 (.inr hh) | (rcases hx with hx | hx <;> first | cases hx | (rw [hh] at hx; cases hx)),
        h4, by first | exact h5 | (simp [S.startName]; done) | simp [hh]⟩

theorem sim_step {cfg : Cfg} {s s' : S} (h : Sim cfg s s') (c : UInt8) : SimRes cfg (hstep cfg s c) (hstep cfg s' c) := by
  rw [hstep_raw, hstep_raw]
  exact sim_switch (s := { s with raw := rawAdd cfg s.raw [c] }) (s' := { s' with raw := rawAdd cfg s'.raw [c] })
    ⟨h.hs, h.name, h.value, h.old, h.sect⟩ c

/-- A byte that is refused after some bytes is refused after the same bytes from a state that is alike. -/
theorem sim_fails {cfg : Cfg} (u : Bytes) : ∀ {s s' s1 : S} {c : UInt8} {e : Err}, Sim cfg s s' →
    run (hstep cfg) s u = (.more, s1, []) → (∃ x, hstep cfg s1 c = .fail x e) →
    ∃ s1', run (hstep cfg) s' u = (.more, s1', []) ∧ ∃ x, hstep cfg s1' c = .fail x e := by
  induction u with
  | nil =>
    rintro s s' s1 c e hsim h ⟨x, hx⟩
    simp only [run, Prod.mk.injEq, true_and, and_true] at h
    subst h
    have := sim_step hsim c
    rw [hx] at this
    cases h' : hstep cfg s' c with
    | more => rw [h'] at this; exact this.elim
    | done => rw [h'] at this; exact this.elim
    | fail y e' => rw [h'] at this; cases this; exact ⟨s', rfl, y, h'⟩
  | cons a u ih =>
    intro s s' s1 c e hsim h hf
    have := sim_step hsim a
    simp only [run] at h ⊢
    cases h1 : hstep cfg s a with
    | more t =>
      rw [h1] at this h
      cases h' : hstep cfg s' a with
      | more t' => rw [h'] at this; exact ih this h hf
      | done => rw [h'] at this; exact this.elim
      | fail => rw [h'] at this; exact this.elim
    | done t k => rw [h1] at h; cases k <;> simp at h
    | fail t e => rw [h1] at h; simp at h

theorem steps_more {step : S → UInt8 → HRes} {s s' : S} {t : Bytes} (h : Steps step s t s') : run step s t = (.more, s', []) := by
  have := h []
  rw [List.append_nil] at this
  rw [this]; rfl

/-- What is refused after the first line and a line end is refused in the trailers. -/
theorem trailer_fails {cfg : Cfg} {h : Head} {f u : Bytes} {c : UInt8} {e : Err} (hk : cfg.isRequest = h.isRequest)
    (hf : FirstLine h f) (hc : Cause h.isRequest e (f ++ [LF, CR] ++ u) c) {s : S} (hs : s.hs = .headerStart)
    (ho : old h = (cfg.isRequest && s.msg.verMajor == 0)) :
    ∃ s1, run (hstep cfg) s u = (.more, s1, []) ∧ ∃ x, hstep cfg s1 c = .fail x e := by
  rw [← hk] at hc
  obtain ⟨s1, p1, h1⟩ := cause_fails (m := {}) hc
  obtain ⟨s2, p2, r2, _⟩ := steps_firstLine (cfg := cfg) (s := start cfg {}) hf hk rfl rfl
  have ho' := old_stored (s := start cfg {}) hk
  have p3 := p2.trans (steps_lineEnd r2 ho' .lfcr)
  generalize hy : ({ stored (start cfg {}) h with raw := rawAdd cfg s2.raw [LF, CR], hs := afterEnd [LF, CR] } : S) = y at p3
  have hy1 : y.hs = .headerStart := by rw [← hy]; show afterEnd [LF, CR] = _; decide
  have hy2 : y.msg.verMajor = (stored (start cfg {}) h).msg.verMajor := by rw [← hy]
  have hrun : run (hstep cfg) y u = (.more, s1, []) := by rw [← p3 u, steps_more p1]
  refine sim_fails u (s := y) ⟨by rw [hs, hy1], fun hx => ?_, fun hx => ?_, by rw [← ho, hy2]; exact ho', by rw [hy1]; decide⟩ hrun h1
  · rw [hy1] at hx; cases hx
  · rw [hy1] at hx; rcases hx with hx | hx <;> cases hx

/-! ### No body begins so -/

theorem run_prefix {step : S → UInt8 → HRes} {s s1 x : S} {t rest : Bytes} {c : UInt8} {e : Err} (h : run step s t = (.more, s1, []))
    (hf : step s1 c = .fail x e) : run step s (t ++ c :: rest) = (.no, { x with ec := some e }, c :: rest) := by
  rw [run_append, h]
  simp only [cont, run, hf]

theorem cause_not_viable {handler : Bool} {h : Head} {e : Err} {t : Bytes} {c : UInt8} (hc : BodyCause handler h e t c) :
    ¬ BodyViable handler (old h) (t ++ [c]) := by
  rintro ⟨ds', tr, w, rest, hw, y, hy⟩
  generalize hcfg : ({ isRequest := h.isRequest, handler := true } : Cfg) = cfg
  have hh : cfg.handler = true := by rw [← hcfg]
  have hk : cfg.isRequest = h.isRequest := by rw [← hcfg]
  have room : ∀ s n, room cfg s n := fun s n h => by rw [hh] at h; cases h
  generalize hs0 : ({ hs := .headerStart, msg := {}, cs := .sizeStart } : S) = s0
  have hs : s0.cs = .sizeStart := by rw [← hs0]
  cases hw with
  | mk g1 g2 g3 =>
    rename_i p' line' e'
    obtain ⟨z, q⟩ := steps_lastLine cfg s0 hs g1 g2 (room _ _)
    have hyes : (∃ r, e' ++ rest = [CR, LF] ++ r ∧ run (cbyte cfg) s0 (t ++ [c] ++ y) = (.yes, cst cfg s0 ds'.flatten z 0 0 .expFinalLf, r)) ∨
        (∃ a r, e' ++ rest = a :: r ∧ a ≠ CR ∧ run (cbyte cfg) s0 (t ++ [c] ++ y) = (.yes,
          { cst cfg s0 ds'.flatten z 0 0 .expFinalCrOrFooters with ms := .footers, hs := .headerStart }, a :: r)) := by
      rw [hy, List.append_assoc, q]
      cases g3 with
      | empty => exact .inl ⟨rest, rfl, run_empty ..⟩
      | trailers _ g4 _ => exact .inr ⟨_, _, rfl, g4, run_footers _ _ _ _ _ _ g4⟩
      | ignored _ g4 => exact .inr ⟨_, _, rfl, g4, run_footers _ _ _ _ _ _ g4⟩
    cases hc with
    | chunks hc =>
      obtain ⟨s1, p1, h1⟩ := chunkCause_fails cfg hh s0 hs hc
      have := run_prefix (rest := y) (steps_more p1) h1
      rw [List.append_assoc, List.singleton_append, this] at hyes
      rcases hyes with ⟨_, _, e⟩ | ⟨_, _, _, _, e⟩ <;> simp at e
    | trailers i1 i2 i3 i4 i5 i6 i7 =>
      rename_i ds p line f u
      obtain ⟨z', q'⟩ := steps_lastLine cfg s0 hs i2 i3 (room _ _)
      obtain ⟨a, r, har, ha⟩ : ∃ a r, u ++ [c] ++ y = a :: r ∧ a ≠ CR := by
        cases u with
        | nil => exact ⟨c, y, rfl, i5 rfl⟩
        | cons a u => exact ⟨a, u ++ [c] ++ y, rfl, i4 a (by simp)⟩
      have hrun : run (cbyte cfg) s0 (p ++ line ++ u ++ [c] ++ y) = (.yes,
          { cst cfg s0 ds.flatten z' 0 0 .expFinalCrOrFooters with ms := .footers, hs := .headerStart }, u ++ [c] ++ y) := by
        rw [List.append_assoc, List.append_assoc (p ++ line), q', ← List.append_assoc, har, run_footers _ _ _ _ _ _ ha]
      rw [hrun] at hyes
      rcases hyes with ⟨_, _, e⟩ | ⟨a', r', e1, e2, e⟩
      · simp only [Prod.mk.injEq, true_and] at e
        have := congrArg S.cs e.1
        cases this
      · simp only [Prod.mk.injEq, true_and] at e
        rw [← e.2] at e1
        cases g3 with
        | empty =>
          rw [har] at e1
          simp only [List.cons_append, List.cons.injEq] at e1
          exact absurd e1.1.symm ha
        | ignored j1 => rw [i1] at j1; cases j1
        | trailers j1 j2 j3 =>
          obtain ⟨k, hk'⟩ : ∃ k, old h = (cfg.isRequest && k == 0) := by
            cases h with
            | request _ _ _ major _ => exact ⟨major, by rw [hk]; rfl⟩
            | response => exact ⟨0, by rw [hk]; rfl⟩
          generalize hs1 : ({ hs := .headerStart, msg := { verMajor := k } } : S) = s1
          have hst : s1.hs = .headerStart := by rw [← hs1]
          have hold : old h = (cfg.isRequest && s1.msg.verMajor == 0) := by rw [← hs1]; exact hk'
          obtain ⟨_, _, _, _, r1⟩ := run_trailers (cfg := cfg) j3 hst hold
          obtain ⟨s2, r2, x, r3⟩ := trailer_fails hk i6 i7 hst hold
          have r4 := run_prefix (rest := y) r2 r3
          rw [e1, List.append_assoc, List.singleton_append, r4] at r1
          simp at r1

/-! ### One cause at most -/

theorem cause_body_unique {handler : Bool} {h : Head} {e e' : Err} {t : Bytes} {c : UInt8} (hc : BodyCause handler h e t c)
    (hc' : BodyCause handler h e' t c) : e = e' := by
  generalize hcfg : ({ isRequest := h.isRequest, handler := true } : Cfg) = cfg
  have hh : cfg.handler = true := by rw [← hcfg]
  have hk : cfg.isRequest = h.isRequest := by rw [← hcfg]
  have room : ∀ s n, room cfg s n := fun s n h => by rw [hh] at h; cases h
  generalize hs0 : ({ hs := .headerStart, msg := {}, cs := .sizeStart } : S) = s0
  have hs : s0.cs = .sizeStart := by rw [← hs0]
  obtain ⟨k, hk'⟩ : ∃ k, old h = (cfg.isRequest && k == 0) := by
    cases h with
    | request _ _ _ major _ => exact ⟨major, by rw [hk]; rfl⟩
    | response => exact ⟨0, by rw [hk]; rfl⟩
  generalize hs1 : ({ hs := .headerStart, msg := { verMajor := k } } : S) = s1
  have hst : s1.hs = .headerStart := by rw [← hs1]
  have hold : old h = (cfg.isRequest && s1.msg.verMajor == 0) := by rw [← hs1]; exact hk'
  -- what the machines do, for each kind of cause
  have key : ∀ {e}, BodyCause handler h e t c → (e = .chunkChar ∧ (run (cbyte cfg) s0 (t ++ [c])).1 = .no) ∨
      ∃ u, (run (cbyte cfg) s0 (t ++ [c])).1 = .yes ∧ (run (cbyte cfg) s0 (t ++ [c])).2.2 = u ++ [c] ∧
        (run (hstep cfg) s1 (u ++ [c])).2.1.ec = some e := by
    intro e hc
    cases hc with
    | chunks hc =>
      obtain ⟨_, p1, h1⟩ := chunkCause_fails cfg hh s0 hs hc
      exact .inl ⟨rfl, by rw [run_prefix (steps_more p1) h1]⟩
    | trailers i1 i2 i3 i4 i5 i6 i7 =>
      rename_i ds p line f u
      obtain ⟨z', q'⟩ := steps_lastLine cfg s0 hs i2 i3 (room _ _)
      obtain ⟨a, r, har, ha⟩ : ∃ a r, u ++ [c] = a :: r ∧ a ≠ CR := by
        cases u with
        | nil => exact ⟨c, [], rfl, i5 rfl⟩
        | cons a u => exact ⟨a, u ++ [c], rfl, i4 a (by simp)⟩
      obtain ⟨s2, r2, x, r3⟩ := trailer_fails hk i6 i7 hst hold
      refine .inr ⟨u, ?_, ?_, ?_⟩
      · rw [List.append_assoc, q', har, run_footers _ _ _ _ _ _ ha]
      · rw [List.append_assoc, q', har, run_footers _ _ _ _ _ _ ha]
      · rw [run_prefix r2 r3]
  rcases key hc with ⟨rfl, h1⟩ | ⟨u, h1, h2, h3⟩ <;> rcases key hc' with ⟨rfl, h1'⟩ | ⟨u', h1', h2', h3'⟩
  · rfl
  · rw [h1] at h1'; cases h1'
  · rw [h1] at h1'; cases h1'
  · rw [h2] at h2'
    obtain ⟨rfl, _⟩ := List.append_inj' h2' rfl
    rw [h3] at h3'
    exact Option.some.inj h3'

/-! ### The passes of the main loop -/

theorem viable_trailers {handler : Bool} {o : Bool} {cfg : Cfg} {s s' : S} {ds : List Bytes} {p line u r : Bytes} {c : UInt8}
    (hh : handler = false) (h1 : Chunks ds p) (h2 : SizeLine 0 line) (hc : c ≠ CR) (hs : s.hs = .headerStart)
    (ho : o = (cfg.isRequest && s.msg.verMajor == 0)) (hr : run (hstep cfg) s (c :: u) = (.more, s', r)) :
    BodyViable handler o (p ++ line ++ c :: u) := by
  obtain ⟨x, s'', hx⟩ := completes cfg s'
  have hrun : run (hstep cfg) s (c :: u ++ x) = (.yes, s'', []) := by rw [run_append, hr]; exact hx
  obtain ⟨tr, w, e1, e2⟩ := sect_sound cfg o s.msg.headers (c :: u ++ x) s [LF, CR] s'' [] ho (sect_trailers hs) hrun
  rw [List.append_nil] at e1
  subst e1
  exact ⟨ds, tr, p ++ line ++ c :: (u ++ x), [], .mk h1 h2 (.trailers hh hc e2), x, by simp⟩

/-- What comes before a byte with a cause can become a body. -/
theorem body_cause_viable {handler : Bool} {h : Head} {e : Err} {t : Bytes} {c : UInt8} (hc : BodyCause handler h e t c) :
    BodyViable handler (old h) t := by
  cases hc with
  | chunks hc =>
    cases hc with
    | sizeFirst h1 h2 =>
      exact viable_line _ h1 (SizeLine.mk h2 (d := b! "0") (by decide) (by decide +kernel) (.blanks (x := []) (by simp)))
        ⟨b! "0" ++ [CR, LF], by simp⟩
    | size h1 h2 h3 => exact viable_line _ h1 (SizeLine.mk h2 h3.1 h3.2 (.blanks (x := []) (by simp))) ⟨[CR, LF], by simp⟩
    | afterSize h1 h2 h3 _ h4 => exact viable_line _ h1 (SizeLine.mk h2 h3.1 h3.2 (.blanks h4)) ⟨[CR, LF], by simp⟩
    | sizeEnd h1 h2 h3 h4 => exact viable_line _ h1 (SizeLine.mk h2 h3.1 h3.2 h4) ⟨[LF], by simp⟩
    | data h1 h2 h3 => exact viable_chunks (.snoc h1 h3 h2) ⟨[CR, LF], by simp⟩
    | dataEnd h1 h2 h3 => exact viable_chunks (.snoc h1 h3 h2) ⟨[LF], by simp⟩
    | last h1 h2 => exact ⟨_, [], _, [], .mk h1 h2 .empty, [LF], by simp⟩
  | trailers i1 i2 i3 i4 i5 i6 i7 =>
    rename_i ds p line f u
    cases u with
    | nil => rw [List.append_nil]; exact viable_line 0 i2 i3 List.prefix_rfl
    | cons a u =>
      generalize hcfg : ({ isRequest := h.isRequest, handler := true } : Cfg) = cfg
      have hk : cfg.isRequest = h.isRequest := by rw [← hcfg]
      obtain ⟨k, hk'⟩ : ∃ k, old h = (cfg.isRequest && k == 0) := by
        cases h with
        | request _ _ _ major _ => exact ⟨major, by rw [hk]; rfl⟩
        | response => exact ⟨0, by rw [hk]; rfl⟩
      generalize hs1 : ({ hs := .headerStart, msg := { verMajor := k } } : S) = s1
      have hst : s1.hs = .headerStart := by rw [← hs1]
      have hold : old h = (cfg.isRequest && s1.msg.verMajor == 0) := by rw [← hs1]; exact hk'
      obtain ⟨s2, r2, _⟩ := trailer_fails hk i6 i7 hst hold
      exact viable_trailers i1 i2 i3 (i4 a (by simp)) hst hold r2

theorem chunkData_ec (cfg : Cfg) (s : S) (c : UInt8) (t : Bytes) : (chunkData cfg s c t).1.ec = s.ec := by
  unfold chunkData
  (repeat' split) <;> rfl

theorem cbyte_ec {cfg : Cfg} {s s' : S} {c : UInt8} (h : cbyte cfg s c = .more s') : s'.ec = s.ec := by
  have hd := chunkData_ec cfg s c []
  unfold cbyte cstep at h
  split at h
  case h_6 =>
    generalize chunkData cfg s c [] = q at h hd
    obtain ⟨x, k⟩ := q
    simp only at h hd
    split_ifs at h <;> (simp only [CRes.toH, HRes.more.injEq] at h; rw [← h]; exact hd)
  all_goals try dsimp only at h
  all_goals (repeat' split at h) <;> first | (cases h; rfl) | cases h

theorem chunks_more_ec {cfg : Cfg} (buf : Bytes) : ∀ {s s' : S} {rest : Bytes}, run (cbyte cfg) s buf = (.more, s', rest) →
    s'.ec = s.ec := by
  induction buf with
  | nil => intro s s' rest h; simp only [run, Prod.mk.injEq, true_and] at h; rw [h.1]
  | cons c buf ih =>
    intro s s' rest h
    simp only [run] at h
    cases hst : cbyte cfg s c with
    | more s1 => rw [hst] at h; rw [ih h, cbyte_ec hst]
    | done s1 k => rw [hst] at h; cases k <;> simp at h
    | fail s1 e => rw [hst] at h; simp at h

/-- What the chunk machine has read, when it wants more. -/
theorem cat_run {cfg : Cfg} {s0 : S} (buf : Bytes) : ∀ {s s' : S} {t rest : Bytes}, CAt cfg s0 s t →
    run (cbyte cfg) s buf = (.more, s', rest) →
    (Stuck cfg s' ∧ ∃ q, q <+: t ++ buf ∧ Over cfg s0 q) ∨ CAt cfg s0 s' (t ++ buf) := by
  induction buf with
  | nil => intro s s' t rest h hr; simp only [run, Prod.mk.injEq, true_and] at hr; rw [← hr.1]; exact .inr (by simpa using h)
  | cons c buf ih =>
    intro s s' t rest h hr
    have hn := cat_step cfg s0 s t c h
    simp only [run] at hr
    cases hst : cbyte cfg s c with
    | more s1 =>
      rw [hst] at hr hn
      rcases hn with ⟨hstuck, hov⟩ | hn
      · have hr : run (cbyte cfg) s1 buf = (.more, s', rest) := hr
        rw [run_stuck cfg s1 hstuck] at hr
        simp only [Prod.mk.injEq, true_and] at hr
        exact .inl ⟨hr.1 ▸ hstuck, _, ⟨buf, by simp⟩, hov⟩
      · simpa using ih hn hr
    | done s1 k => rw [hst] at hr; cases k <;> simp at hr
    | fail s1 e => rw [hst] at hr; simp at hr

/-- The machine fails nowhere if it is stuck. -/
theorem stuck_no_fail {cfg : Cfg} {s s' : S} {c : UInt8} {e : Err} (h : Stuck cfg s) : cbyte cfg s c ≠ .fail s' e := by
  intro hf
  have := run_stuck cfg s h [c]
  simp only [run, hf] at this
  cases this

/-- More data than there is room for: the machine reads everything and never answers. -/
theorem over_stuck {cfg : Cfg} (hh : cfg.handler = false) {s : S} (hc : s.cs = .sizeStart) (hle : s.msg.chunkCache.length ≤ cfg.maxContent)
    {ds : List Bytes} {p : Bytes} (h : Chunks ds p) : ∀ {line d : Bytes} {n : Nat}, SizeLine n line → d.length ≤ n →
    cfg.maxContent < s.msg.chunkCache.length + (ds.flatten.length + d.length) → ∀ rest,
    ∃ s', Stuck cfg s' ∧ run (cbyte cfg) s (p ++ line ++ d ++ rest) = (.more, s', []) := by
  -- the chunks before fit
  have fits : ∀ {ds : List Bytes} {p line d : Bytes} {n : Nat}, Chunks ds p → SizeLine n line → d.length ≤ n →
      s.msg.chunkCache.length + ds.flatten.length ≤ cfg.maxContent →
      cfg.maxContent < s.msg.chunkCache.length + (ds.flatten.length + d.length) → ∀ rest,
      ∃ s', Stuck cfg s' ∧ run (cbyte cfg) s (p ++ line ++ d ++ rest) = (.more, s', []) := by
    intro ds p line d n h hl hd h1 h2 rest
    obtain ⟨z, a, b, p1⟩ := steps_chunksText cfg s hc h (fun _ => h1)
    obtain ⟨z', p2⟩ := steps_sizeLine cfg (cst cfg s ds.flatten z a b .sizeStart) rfl hl
    rw [if_neg (by omega), cst_start cfg, cst_cst, List.append_nil] at p2
    rw [List.append_assoc, List.append_assoc, p1, p2]
    generalize hS1 : cst cfg s ds.flatten z' 0 n .chunk = s1
    have e1 : s1.cs = .chunk := by rw [← hS1]; rfl
    have e2 : s1.chunkRead = 0 := by rw [← hS1]; rfl
    have e3 : s1.chunkSize = n := by rw [← hS1]; rfl
    have e4 : s1.msg.chunkCache.length = s.msg.chunkCache.length + ds.flatten.length := by
      rw [← hS1]; simp only [cst, absorb, hh, Bool.false_eq_true, if_false, List.length_append]
    generalize hk : cfg.maxContent - s1.msg.chunkCache.length = k
    by_cases hz : k = 0
    · have hst : Stuck cfg s1 := ⟨hh, e1, by omega, by omega⟩
      exact ⟨s1, hst, run_stuck cfg s1 hst _⟩
    · have hlt : (d.take k).length = k := by rw [List.length_take]; omega
      have hne : d.take k ≠ [] := by intro hnil; rw [hnil] at hlt; simp at hlt; omega
      rw [← List.take_append_drop k d, List.append_assoc,
        run_data cfg _ _ s1 e1 hne (by rw [e2, e3, hlt]; omega) (fun _ => by rw [hlt]; omega)]
      have hst : Stuck cfg (dataState cfg s1 (d.take k)) := by
        refine ⟨hh, ?_, ?_, ?_⟩
        · simp only [dataState, e2, e3, hlt]; rw [if_neg (by omega)]
        · simp only [dataState, absorb, hh, Bool.false_eq_true, if_false, List.length_append, hlt]; omega
        · simp only [dataState, absorb, hh, Bool.false_eq_true, if_false, e2, e3, hlt]; omega
      exact ⟨_, hst, run_stuck cfg _ hst _⟩
  induction h with
  | nil =>
    intro line d n hl hd ho rest
    exact fits .nil hl hd (by simpa using hle) ho rest
  | snoc h1 h2 h3 ih =>
    rename_i ds p line' d'
    intro line d n hl hd ho rest
    by_cases hf : s.msg.chunkCache.length + (ds ++ [d']).flatten.length ≤ cfg.maxContent
    · exact fits (.snoc h1 h2 h3) hl hd hf ho rest
    · obtain ⟨s', q1, q2⟩ := ih h3 (Nat.le_refl _) (by
        rw [List.flatten_append, List.length_append] at hf
        simp only [List.flatten_cons, List.flatten_nil, List.append_nil] at hf
        omega) ([CR, LF] ++ (line ++ d ++ rest))
      exact ⟨s', q1, by rw [← q2]; simp⟩

/-- What the header machine has read of the lines, when it wants more. -/
theorem sect_run {cfg : Cfg} {o : Bool} {hs0 : Dict} (buf : Bytes) : ∀ {s s' : S} {t rest : Bytes},
    o = (cfg.isRequest && s.msg.verMajor == 0) → Sect o hs0 s t → run (hstep cfg) s buf = (.more, s', rest) →
    Sect o hs0 s' (t ++ buf) := by
  induction buf with
  | nil => intro s s' t rest _ h hr; simp only [run, Prod.mk.injEq, true_and] at hr; rw [← hr.1]; simpa using h
  | cons c buf ih =>
    intro s s' t rest ho h hr
    have hn := sect_switch cfg o hs0 { s with raw := rawAdd cfg s.raw [c] } t c ho h
    rw [← hstep_raw] at hn
    simp only [run] at hr
    cases hst : hstep cfg s c with
    | more s1 =>
      rw [hst] at hr hn
      obtain ⟨hn, hh⟩ := hn
      have ho1 : o = (cfg.isRequest && s1.msg.verMajor == 0) := by
        rw [ho]
        cases hr : cfg.isRequest with
        | false => rfl
        | true =>
          simp only [headOf, hr, if_true, Head.request.injEq] at hh
          rw [hh.2.2.2.1]
      simpa using ih ho1 hn hr
    | done s1 k => rw [hst] at hr; cases k <;> simp at hr
    | fail s1 e => rw [hst] at hr; simp at hr

theorem hstep_ms {cfg : Cfg} {s s' : S} {c : UInt8} (h : hstep cfg s c = .more s' ∨ ∃ k, hstep cfg s c = .done s' k) : s'.ms = s.ms := by
  rw [hstep_raw] at h
  generalize hy : ({ s with raw := rawAdd cfg s.raw [c] } : S) = y at h
  have : y.ms = s.ms := by rw [← hy]
  rw [← this]
  unfold hswitch at h
  rcases h with h | ⟨k, h⟩ <;> split at h <;> (repeat' split at h) <;> first | (cases h; rfl) | cases h

theorem run_yes_ms {cfg : Cfg} {buf : Bytes} : ∀ {s s' : S} {rest : Bytes}, run (hstep cfg) s buf = (.yes, s', rest) → s'.ms = s.ms := by
  induction buf with
  | nil => intro s s' rest h; simp [run] at h
  | cons c buf ih =>
    intro s s' rest h
    simp only [run] at h
    cases hst : hstep cfg s c with
    | more s1 => rw [hst] at h; rw [ih h, hstep_ms (.inl hst)]
    | done s1 k =>
      rw [hst] at h
      cases k <;> simp only [Prod.mk.injEq, true_and] at h <;> (rw [← h.1]; exact hstep_ms (.inr ⟨_, hst⟩))
    | fail s1 e => rw [hst] at h; simp at h

/-- What the parser makes of the bytes after a head that announces chunks. -/
inductive Fate (cfg : Cfg) (h : Head) (buf : Bytes) : Tri × S × Bytes → Prop
  | complete {s : S} {ds : List Bytes} {tr : Dict} {b rest : Bytes} : buf = b ++ rest → Chunked cfg.handler (old h) ds tr b rest →
      (cfg.handler = false → ds.flatten.length ≤ cfg.maxContent) → Fate cfg h buf (.yes, s, rest)
  | waits {s : S} : s.ec = none → BodyViable cfg.handler (old h) buf → Fate cfg h buf (.more, s, [])
  | full {s : S} : s.ec = none → cfg.handler = false → Overfull cfg.maxContent buf → Fate cfg h buf (.more, s, [])
  | refused {s : S} {t rest : Bytes} {c : UInt8} {e : Err} : buf = t ++ c :: rest → s.ec = some e →
      BodyViable cfg.handler (old h) t → BodyCause cfg.handler h e t c → Fate cfg h buf (.no, s, c :: rest)

theorem runs_end {cfg : Cfg} {s s' : S} {buf rest : Bytes} {rc : Tri} (h : iter cfg s buf = (rc, s', rest)) (hs : rc ≠ .more ∨ rest = []) :
    Runs cfg s buf (rc, s', rest) := by
  have := Runs.stop (cfg := cfg) (s := s) (buf := buf) (by rw [h]; rintro ⟨h1, h2⟩; rcases hs with e | e <;> contradiction)
  rwa [h] at this

theorem runs_fate {cfg : Cfg} {m : Msg} {h : Head} {hs : Dict} {t f : Bytes} {s : S} (hd : HeadDone cfg m h hs t s)
    (hm : Blank m) (hr : cfg.isRequest = h.isRequest) (hmax : cfg.maxContent + 1 < 2 ^ 64) (hf : FirstLine h f) (buf : Bytes) :
    ∃ r, Runs cfg { s with ms := .chunks } buf r ∧ Fate cfg h buf r := by
  have hcache : s.msg.chunkCache = [] := by rw [hd.chunkCache, hm.noCache]
  generalize hs2 : ({ s with ms := .chunks } : S).setL 0 = s2
  have hec : s2.ec = none := by rw [← hs2]; exact hd.ec
  have hcache2 : s2.msg.chunkCache = [] := by rw [← hs2]; exact hcache
  have hat : CAt cfg s2 s2 [] := by
    refine ⟨[], _, _, _, _, cst_nil cfg s2, ?_, ?_⟩
    · intro hh; simp [hcache2]
    · rw [show s2.cs = .sizeStart by rw [← hs2]; exact hd.cs]
      exact ⟨[], [], [], .nil, by simp [Pad], rfl, rfl⟩
  have hi := iter_chunks cfg { s with ms := .chunks } buf rfl
  rw [parseChunks_eq, hs2] at hi
  cases hrun : run (cbyte cfg) s2 buf with
  | mk rc q =>
    obtain ⟨x, r⟩ := q
    rw [hrun] at hi
    cases rc with
    | no =>
      obtain ⟨pre, c, r', s1, s3, e, rfl, rfl, h3, h4, rfl⟩ := run_no buf hrun
      have hat' := cat_run pre hat h3
      simp only [List.nil_append] at hat'
      simp only [count, postC, reduceCtorEq, false_and, if_false, if_true] at hi
      rcases hat' with ⟨hst, _⟩ | hat'
      · exact absurd h4 (stuck_no_fail hst)
      · obtain ⟨rfl, hc⟩ := cat_fail hat' h4
        exact ⟨_, runs_end hi (.inl (by simp)), .refused rfl rfl (cat_viable _ _ hat') (.chunks hc)⟩
    | more =>
      have hrest : r = [] := by
        have := run_more_rest (cbyte cfg) s2 buf (by rw [hrun])
        rw [hrun] at this; exact this
      subst hrest
      have hx : x.ec = none := by rw [chunks_more_ec buf hrun]; exact hec
      have hat' := cat_run buf hat hrun
      simp only [List.nil_append] at hat'
      simp only [count, postC, reduceCtorEq, false_and, if_false] at hi
      refine ⟨_, runs_end hi (.inr rfl), ?_⟩
      rcases hat' with ⟨hst, q, hq, ds, p, line, d, n, o1, o2, o3, rfl, o5⟩ | hat'
      · rw [hcache2] at o5
        exact .full hx hst.handler ⟨ds, p, line, d, n, o1, o2, o3, hq, by simpa using o5⟩
      · exact .waits hx (cat_viable _ _ hat')
    | yes =>
      obtain ⟨ds, p, line, g1, g2, g3, g4⟩ := chunks_sound cfg s2 buf s2 [] x r hat hrun
      simp only [List.nil_append] at g4
      simp only [count, reduceCtorEq, if_false, if_true] at hi
      have done : ∀ {y rest}, Runs cfg { s with ms := .chunks } buf (.yes, y, rest) → 
          ∃ r, Runs cfg { s with ms := .chunks } buf r ∧ Fate cfg h buf r := fun {y rest} hb => by
        obtain ⟨ds, tr, b, e1, e2, e3⟩ := chunked_sound hd hm hr hmax hb
        exact ⟨_, hb, .complete e1 e2 e3⟩
      cases hh : cfg.handler with
      | true =>
        simp only [postC, hh, reduceCtorEq, and_false, if_false] at hi
        exact done (runs_end hi (.inl (by simp)))
      | false =>
        have hle : ds.flatten.length ≤ cfg.maxContent := by have := g3 hh; rw [hcache2] at this; simpa using this
        obtain ⟨z, hst⟩ := steps_lastLine cfg s2 (by rw [← hs2]; exact hd.cs) g1 g2 g3
        rcases g4 with g4 | ⟨g4, c, r', rfl, g5⟩
        · have hx : x = cst cfg s2 ds.flatten z 0 0 .expFinalLf := by
            rw [g4, List.append_assoc (p ++ line), hst, run_empty] at hrun
            simp only [Prod.mk.injEq, true_and, and_true] at hrun
            exact hrun.symm
          have hms : x.ms = .chunks := by rw [hx]; simp [cst, absorb, hh, ← hs2, S.setL]
          have hcc : x.msg.chunkCache = ds.flatten := by rw [hx]; simp [cst, absorb, hh, hcache2]
          simp only [postC, hh, and_self, if_true] at hi
          rw [concat_eq _ (by simp only [S.upd, hcc]; omega)] at hi
          simp only [S.upd, hms, reduceCtorEq, if_false] at hi
          exact done (runs_end hi (.inl (by simp)))
        · have hx : x = { cst cfg s2 ds.flatten z 0 0 .expFinalCrOrFooters with ms := .footers, hs := .headerStart } := by
            rw [g4, hst, run_footers _ _ _ _ _ _ g5] at hrun
            simp only [Prod.mk.injEq, true_and, and_true] at hrun
            exact hrun.symm
          have hms : x.ms = .footers := by rw [hx]
          have hxs : x.hs = .headerStart := by rw [hx]
          have hxe : x.ec = none := by rw [hx]; simp [cst, absorb, hh, hec]
          have hcc : x.msg.chunkCache = ds.flatten := by rw [hx]; simp [cst, absorb, hh, hcache2]
          have hver : x.msg.verMajor = s.msg.verMajor := by rw [hx]; simp [cst, absorb, hh, ← hs2, S.setL]
          simp only [postC, hh, and_self, if_true] at hi
          rw [concat_eq _ (by simp only [S.upd, hcc]; omega)] at hi
          simp only [S.upd, hms, if_true] at hi
          generalize hy : ({ x with ms := .footers, lastRead := buf.length - (c :: r').length, totalRead := x.totalRead + (buf.length - (c :: r').length), contentRead := x.contentRead + (buf.length - (c :: r').length), msg := { x.msg with
            contentLength := x.msg.chunkCache.length, content := x.msg.chunkCache.map some } } : S) = y at hi
          have hy1 : y.ms = .footers := by rw [← hy]
          have hy2 : (y.setL 0).hs = .headerStart := by rw [← hy]; exact hxs
          have hy3 : (y.setL 0).msg.verMajor = s.msg.verMajor := by rw [← hy]; exact hver
          have hy4 : (y.setL 0).ec = none := by rw [← hy]; exact hxe
          have hold : old h = (cfg.isRequest && (y.setL 0).msg.verMajor == 0) := by
            rw [hy3, hr]
            have := hd.stored
            cases h with
            | request => simp only [Head.isRequest, old, Bool.true_and]; rw [this.2.2.2.2.1]
            | response => rfl
          have hi2 := iter_headers cfg y (c :: r') (.inr (.inr hy1))
          have hent : enterH y = y := by unfold enterH; rw [if_neg (by rw [hy1]; simp)]
          rw [hent, parseHeaders_eq] at hi2
          cases hrun2 : run (hstep cfg) (y.setL 0) (c :: r') with
          | mk rc2 q2 =>
            obtain ⟨x2, r2⟩ := q2
            rw [hrun2] at hi2
            cases rc2 with
            | no =>
              simp only [count, postH, reduceCtorEq, false_and, if_false, if_true] at hi2
              obtain ⟨pre, c', r3, s1, s3, e, e1, rfl, h3, h4, rfl⟩ := run_no (c :: r') hrun2
              have hsec := sect_run pre hold (sect_trailers hy2) h3
              have hc : Cause h.isRequest e (f ++ ([LF, CR] ++ pre)) c' := by
                rw [hstep_raw] at h4
                exact sect_fail (s := { s1 with raw := rawAdd cfg s1.raw [c'] }) hf hsec h4
              rw [← List.append_assoc] at hc
              refine ⟨_, runs_next hi (by simp) (runs_end hi2 (.inl (by simp))), ?_⟩
              refine .refused (t := p ++ line ++ pre) (by rw [g4, e1]; simp) rfl ?_ ?_
              · cases pre with
                | nil => rw [List.append_nil]; exact viable_line 0 g1 g2 List.prefix_rfl
                | cons a pre =>
                  simp only [List.cons_append, List.cons.injEq] at e1
                  rw [← e1.1] at h3 ⊢
                  exact viable_trailers hh g1 g2 g5 hy2 hold h3
              · refine .trailers hh g1 g2 ?_ ?_ hf hc
                · cases pre with
                  | nil => simp
                  | cons a pre =>
                    simp only [List.cons_append, List.cons.injEq] at e1
                    simp only [List.head?_cons, Option.mem_def, Option.some.injEq]
                    rintro _ rfl
                    rw [← e1.1]; exact g5
                · rintro rfl
                  simp only [List.nil_append, List.cons.injEq] at e1
                  rw [← e1.1]; exact g5
            | more =>
              have hrest : r2 = [] := by
                have := run_more_rest (hstep cfg) (y.setL 0) (c :: r') (by rw [hrun2])
                rw [hrun2] at this; exact this
              subst hrest
              simp only [count, postH, reduceCtorEq, false_and, if_false] at hi2
              refine ⟨_, runs_next hi (by simp) (runs_end hi2 (.inr rfl)), .waits ?_ ?_⟩
              · exact (run_more_ec (c :: r') hrun2).trans hy4
              · rw [g4]; exact viable_trailers hh g1 g2 g5 hy2 hold hrun2
            | yes =>
              have hx2 : x2.ms = .footers := by
                rw [run_yes_ms hrun2]; exact hy1
              simp only [count, postH, reduceCtorEq, if_false, S.upd, hx2, and_false] at hi2
              exact done (runs_next hi (by simp) (runs_end hi2 (.inl (by simp))))

/-- More data than there is room for: everything is read, and the parser waits. -/
theorem runs_overfull {cfg : Cfg} {m : Msg} {h : Head} {hs : Dict} {t : Bytes} {s : S} (hd : HeadDone cfg m h hs t s)
    (hm : Blank m) (hh : cfg.handler = false) {buf : Bytes} (ho : Overfull cfg.maxContent buf) :
    ∃ s', s'.ec = none ∧ Runs cfg { s with ms := .chunks } buf (.more, s', []) := by
  have hcache : s.msg.chunkCache = [] := by rw [hd.chunkCache, hm.noCache]
  obtain ⟨ds, p, line, d, n, h1, h2, h3, ⟨rest, rfl⟩, h4⟩ := ho
  generalize hs2 : ({ s with ms := .chunks } : S).setL 0 = s2
  have hcache2 : s2.msg.chunkCache = [] := by rw [← hs2]; exact hcache
  obtain ⟨s', _, q⟩ := over_stuck hh (s := s2) (by rw [← hs2]; exact hd.cs) (by simp [hcache2]) h1 h2 h3 (by simp [hcache2]; simpa using h4) rest
  have hi := iter_chunks cfg { s with ms := .chunks } (p ++ line ++ d ++ rest) rfl
  rw [parseChunks_eq, hs2, q] at hi
  simp only [count, postC, reduceCtorEq, false_and, if_false] at hi
  refine ⟨_, ?_, runs_end hi (.inr rfl)⟩
  show s'.ec = none
  rw [chunks_more_ec _ q, ← hs2]
  exact hd.ec

end Verif.Http.Text
