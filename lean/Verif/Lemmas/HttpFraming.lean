import Verif.Spec.HttpFraming
import Verif.Lemmas.HttpGrammar
/-
The chunk machine reads exactly the chunks of the grammar.
-/
namespace Verif.Http.Text

/-! ### Sizes -/

theorem hexVal_of_hex : ∀ c : UInt8, isHexDigit c = true → (hexVal? c).isSome = true ∧ isSpaceC c = false ∧
    c ≠ c! "-" ∧ c ≠ c! "+" ∧ c ≠ c! "x" ∧ c ≠ c! "X" := by
  decide +kernel

theorem hexDigits_value (d : Bytes) (h : ∀ c ∈ d, isHexDigit c = true) : ∀ a,
    hexDigits a d = d.foldl (fun a c => 16 * a + (hexVal? c).getD 0) a := by
  induction d with
  | nil => intro a; rfl
  | cons c d ih =>
    intro a
    obtain ⟨v, hv⟩ := Option.isSome_iff_exists.mp (hexVal_of_hex c (h c (by simp))).1
    simp only [hexDigits, hv, List.foldl_cons, Option.getD_some]
    exact ih (fun x hx => h x (by simp [hx])) _

theorem strtol16_hex (d : Bytes) (hne : d ≠ []) (h : ∀ c ∈ d, isHexDigit c = true) :
    (strtol16 d).toNat = min (hexValue d) (2 ^ 63 - 1) := by
  cases d with
  | nil => exact absurd rfl hne
  | cons c l =>
    obtain ⟨_, h3, h4, h5, _, _⟩ := hexVal_of_hex c (h c (by simp))
    have hdw : (c :: l).dropWhile isSpaceC = c :: l := by simp [h3]
    have hsk : skip0x (c :: l) = c :: l := by
      cases l with
      | nil => simp [skip0x]
      | cons e l =>
        obtain ⟨_, _, _, _, h6, h7⟩ := hexVal_of_hex e (h e (by simp))
        cases l with
        | nil => simp [skip0x]
        | cons f l => simp only [skip0x, h6, h7, or_self, false_and, and_false, if_false]
    unfold strtol16
    rw [hdw]
    simp only [h4, h5, if_false]
    rw [hsk, hexDigits_value _ h]
    simp only [Int.toNat_natCast]
    rfl

/-! ### Completeness -/

theorem blank_cr {c : UInt8} (h : isBlank c = true) : c ≠ CR := by
  rintro rfl; revert h; decide

theorem hex_not_pad : ∀ c : UInt8, isHexDigit c = true → c ≠ CR ∧ isBlank c = false ∧ c ≠ c! ";" ∧ c ≠ LF := by
  decide +kernel

theorem pad_not_hex : ∀ c : UInt8, isBlank c = true ∨ c = CR ∨ c = LF →
    isHexDigit c = false ∧ (c = c! " " || c = 0x09 || c = CR || c = LF) = true := by
  decide +kernel

theorem blank_cond : ∀ c : UInt8, isBlank c = true → isHexDigit c = false ∧ c ≠ CR ∧ (c = c! " " || c = 0x09) = true := by
  decide +kernel

theorem steps_stay {step : S → UInt8 → HRes} (s : S) (t : Bytes) (h : ∀ c ∈ t, step s c = .more s) : Steps step s t s := by
  induction t with
  | nil => exact .nil s
  | cons c t ih => exact .cons (h c (by simp)) (ih fun x hx => h x (by simp [hx]))

/-- What may follow the digits, up to the CR. -/
theorem steps_sizeTail (cfg : Cfg) (s : S) (hc : s.cs = .size) {x : Bytes} (hx : SizeTail x) :
    Steps (cbyte cfg) s (x ++ [CR]) { s with cs := .expLfAfterSize } := by
  have hcr : isHexDigit CR = false := by decide
  cases hx with
  | blanks hb =>
    cases x with
    | nil => exact .one (by simp [cbyte, cstep, hc, hcr, CRes.toH])
    | cons c x =>
      obtain ⟨h1, h2, h3⟩ := blank_cond c (hb c (by simp))
      have p1 : cbyte cfg s c = .more { s with cs := .expCrAfterSize } := by
        simp only [cbyte, cstep, hc, h1, h2, h3, if_true, if_false, Bool.false_eq_true, CRes.toH]
      refine Steps.cons p1 ?_
      refine Steps.trans (steps_stay _ x fun e he => ?_) (.one ?_)
      · obtain ⟨_, h2, h3⟩ := blank_cond e (hb e (by simp [he]))
        simp only [cbyte, cstep, h2, h3, if_true, if_false, CRes.toH]
      · simp [cbyte, cstep, CRes.toH]
  | ext hb =>
    rename_i y
    have p1 : cbyte cfg s (c! ";") = .more { s with cs := .ignoredText } := by
      have h1 : isHexDigit (c! ";") = false := by decide
      simp [cbyte, cstep, hc, h1, CRes.toH, show ¬ (c! ";" = CR) from by decide]
    refine Steps.cons p1 ?_
    refine Steps.trans (steps_stay _ y fun e he => ?_) (.one ?_)
    · have : e ≠ CR := by rintro rfl; exact hb he
      simp [cbyte, cstep, this, CRes.toH]
    · simp [cbyte, cstep, CRes.toH]

/-- The line with the size of a chunk. -/
theorem steps_sizeLine (cfg : Cfg) (s : S) (hc : s.cs = .sizeStart) {n : Nat} {t : Bytes} (ht : SizeLine n t) :
    ∃ z, Steps (cbyte cfg) s t { s with
      chunkSizeStr := z, chunkRead := 0, chunkSize := n, cs := if n = 0 then .expFinalCrOrFooters else .chunk } := by
  cases ht with
  | mk hp hne hx htl =>
    rename_i pad d x
    refine ⟨d, ?_⟩
    have hst := strtol16_hex d hne hx
    generalize min (hexValue d) (2 ^ 63 - 1) = n at hst
    have key : pad ++ d ++ x ++ [CR, LF] = pad ++ (d ++ ((x ++ [CR]) ++ [LF])) := by simp
    rw [key]
    refine Steps.trans (steps_stay s pad fun e he => ?_) ?_
    · obtain ⟨h1, h2⟩ := pad_not_hex e (hp e he)
      simp only [cbyte, cstep, hc, h1, h2, if_true, if_false, Bool.false_eq_true, CRes.toH]
    cases d with
    | nil => exact absurd rfl hne
    | cons c l =>
      have p1 : cbyte cfg s c = .more { s with chunkSizeStr := [c], cs := .size } := by
        simp [cbyte, cstep, hc, hx c (by simp), CRes.toH]
      have p2 := Steps.acc (step := cbyte cfg) (fun s t => { s with chunkSizeStr := s.chunkSizeStr ++ t })
        (fun s _ => s.cs = .size) (fun c => isHexDigit c = true) (fun s => by simp) (fun s a b => by simp)
        (fun s c n h1 h2 => ⟨by simp [cbyte, cstep, h1, h2, CRes.toH], h1⟩) l
        { s with chunkSizeStr := [c], cs := .size } rfl (fun x hx' => hx x (by simp [hx']))
      refine Steps.cons p1 (Steps.trans p2 ?_)
      refine Steps.trans (steps_sizeTail cfg _ (by rfl) htl) (.one ?_)
      simp only [cbyte, cstep, List.cons_append, List.nil_append, hst, if_true]
      by_cases h0 : n = 0 <;> simp [h0, CRes.toH]

/-- The state of the chunk machine after `data`. -/
def cst (cfg : Cfg) (s : S) (data z : Bytes) (a b : Nat) (x : CState) : S :=
  { absorb cfg s data with chunkSizeStr := z, chunkRead := a, chunkSize := b, cs := x }

theorem cst_room {cfg : Cfg} {s : S} {data z : Bytes} {a b : Nat} {x : CState} {n : Nat}
    (h : room cfg s (data.length + n)) : room cfg (cst cfg s data z a b x) n := by
  intro hh
  have := h hh
  simp only [cst, absorb, hh, Bool.false_eq_true, if_false, List.length_append]
  omega

theorem cst_cst (cfg : Cfg) (s : S) (d d' z z' : Bytes) (a b a' b' : Nat) (x x' : CState) :
    cst cfg (cst cfg s d z a b x) d' z' a' b' x' = cst cfg s (d ++ d') z' a' b' x' := by
  cases hh : cfg.handler <;> simp [cst, absorb, hh]

theorem cst_nil (cfg : Cfg) (s : S) : s = cst cfg s [] s.chunkSizeStr s.chunkRead s.chunkSize s.cs := by
  cases hh : cfg.handler <;> simp [cst, absorb, hh]

theorem cst_start (cfg : Cfg) (s : S) (z : Bytes) (a b : Nat) (x : CState) :
    { s with chunkSizeStr := z, chunkRead := a, chunkSize := b, cs := x } = cst cfg s [] z a b x := by
  cases hh : cfg.handler <;> simp [cst, absorb, hh]

theorem room_mono {cfg : Cfg} {s : S} {n k : Nat} (h : room cfg s n) (hk : k ≤ n) : room cfg s k :=
  fun hh => by have := h hh; omega

/-- A chunk of the grammar. -/
theorem steps_chunkText (cfg : Cfg) (s : S) (hc : s.cs = .sizeStart) {line d : Bytes} (hne : d ≠ [])
    (hl : SizeLine d.length line) (hr : room cfg s d.length) :
    ∃ z a b, Steps (cbyte cfg) s (line ++ d ++ [CR, LF]) (cst cfg s d z a b .sizeStart) := by
  obtain ⟨z, p1⟩ := steps_sizeLine cfg s hc hl
  have hpos : 0 < d.length := List.length_pos_iff.mpr hne
  rw [if_neg (by omega)] at p1
  refine ⟨z, d.length, d.length, fun rest => ?_⟩
  rw [show line ++ d ++ [CR, LF] ++ rest = line ++ (d ++ (CR :: LF :: rest)) by simp]
  rw [p1, run_data cfg d _ _ (by rfl) hne (by simp) (by exact hr)]
  have q1 : cbyte cfg (dataState cfg { s with
      chunkSizeStr := z, chunkRead := 0, chunkSize := d.length, cs := .chunk } d) CR =
      .more (cst cfg s d z d.length d.length .expLfAfterChunk) := by
    cases hh : cfg.handler <;> simp [dataState, absorb, hh, cbyte, cstep, cst, CRes.toH]
  have q2 : cbyte cfg (cst cfg s d z d.length d.length .expLfAfterChunk) LF =
      .more (cst cfg s d z d.length d.length .sizeStart) := by
    cases hh : cfg.handler <;> simp [absorb, hh, cbyte, cstep, CRes.toH, cst]
  simp only [run, q1, q2]

theorem steps_chunksText (cfg : Cfg) (s : S) (hc : s.cs = .sizeStart) {ds : List Bytes} {t : Bytes} (h : Chunks ds t)
    (hr : room cfg s ds.flatten.length) : ∃ z a b, Steps (cbyte cfg) s t (cst cfg s ds.flatten z a b .sizeStart) := by
  induction h with
  | nil =>
    refine ⟨s.chunkSizeStr, s.chunkRead, s.chunkSize, ?_⟩
    have := cst_nil cfg s
    rw [hc] at this
    rw [List.flatten_nil, ← this]
    exact .nil s
  | snoc _ hne hl ih =>
    rename_i ds t line d _
    simp only [List.flatten_append, List.flatten_singleton, List.length_append] at hr
    obtain ⟨z, a, b, p⟩ := ih (room_mono hr (by omega))
    obtain ⟨z', a', b', q⟩ := steps_chunkText cfg (cst cfg s ds.flatten z a b .sizeStart) rfl hne hl (cst_room hr)
    rw [cst_cst] at q
    refine ⟨z', a', b', ?_⟩
    have := p.trans q
    simpa [List.append_assoc] using this

/-- All chunks and the line of the last chunk. -/
theorem steps_lastLine (cfg : Cfg) (s : S) (hc : s.cs = .sizeStart) {ds : List Bytes} {t line : Bytes} (h : Chunks ds t)
    (hl : SizeLine 0 line) (hr : room cfg s ds.flatten.length) :
    ∃ z, Steps (cbyte cfg) s (t ++ line) (cst cfg s ds.flatten z 0 0 .expFinalCrOrFooters) := by
  obtain ⟨z, a, b, p⟩ := steps_chunksText cfg s hc h hr
  obtain ⟨z', q⟩ := steps_sizeLine cfg (cst cfg s ds.flatten z a b .sizeStart) rfl hl
  rw [if_pos rfl, cst_start cfg, cst_cst, List.append_nil] at q
  exact ⟨z', p.trans q⟩

theorem run_empty (cfg : Cfg) (s : S) (data z rest : Bytes) :
    run (cbyte cfg) (cst cfg s data z 0 0 .expFinalCrOrFooters) ([CR, LF] ++ rest) =
      (.yes, cst cfg s data z 0 0 .expFinalLf, rest) := by
  have q1 : cbyte cfg (cst cfg s data z 0 0 .expFinalCrOrFooters) CR = .more (cst cfg s data z 0 0 .expFinalLf) := by
    simp [cbyte, cstep, CRes.toH, cst]
  have q2 : cbyte cfg (cst cfg s data z 0 0 .expFinalLf) LF = .done (cst cfg s data z 0 0 .expFinalLf) true := by
    simp [cbyte, cstep, CRes.toH, cst]
  simp only [List.cons_append, List.nil_append, run, q1, q2]

theorem run_footers (cfg : Cfg) (s : S) (data z rest : Bytes) (c : UInt8) (hc : c ≠ CR) :
    run (cbyte cfg) (cst cfg s data z 0 0 .expFinalCrOrFooters) (c :: rest) =
      (.yes, { cst cfg s data z 0 0 .expFinalCrOrFooters with ms := .footers, hs := .headerStart }, c :: rest) := by
  have q1 : cbyte cfg (cst cfg s data z 0 0 .expFinalCrOrFooters) c =
      .done { cst cfg s data z 0 0 .expFinalCrOrFooters with ms := .footers, hs := .headerStart } false := by
    simp [cbyte, cstep, CRes.toH, cst, hc]
  simp only [run, q1]

/-! ### Soundness -/

def Pad (t : Bytes) : Prop := ∀ c ∈ t, isBlank c = true ∨ c = CR ∨ c = LF

def Digits (z : Bytes) : Prop := z ≠ [] ∧ ∀ c ∈ z, isHexDigit c = true

/-- The states of the chunk machine: `t` is what has been read, `data` what has been stored, `z`, `a`, `b`, `x` are the
    variables of the machine. -/
def CIs (data z : Bytes) (a b : Nat) (t : Bytes) : CState → Prop
  | .sizeStart => ∃ ds p pad, Chunks ds p ∧ Pad pad ∧ t = p ++ pad ∧ data = ds.flatten
  | .size => ∃ ds p pad, Chunks ds p ∧ Pad pad ∧ Digits z ∧ t = p ++ (pad ++ z) ∧ data = ds.flatten
  | .ignoredText => ∃ ds p pad x, Chunks ds p ∧ Pad pad ∧ Digits z ∧ CR ∉ x ∧
      t = p ++ (pad ++ z ++ (b! ";" ++ x)) ∧ data = ds.flatten
  | .expCrAfterSize => ∃ ds p pad x, Chunks ds p ∧ Pad pad ∧ Digits z ∧ (∀ c ∈ x, isBlank c = true) ∧ x ≠ [] ∧
      t = p ++ (pad ++ z ++ x) ∧ data = ds.flatten
  | .expLfAfterSize => ∃ ds p pad x, Chunks ds p ∧ Pad pad ∧ Digits z ∧ SizeTail x ∧
      t = p ++ (pad ++ z ++ x ++ [CR]) ∧ data = ds.flatten
  | .chunk => ∃ ds p line d, Chunks ds p ∧ SizeLine b line ∧ d.length = a ∧ a < b ∧ t = p ++ line ++ d ∧
      data = ds.flatten ++ d
  | .expCrAfterChunk => ∃ ds p line d, Chunks ds p ∧ SizeLine d.length line ∧ d ≠ [] ∧ t = p ++ line ++ d ∧
      data = ds.flatten ++ d
  | .expLfAfterChunk => ∃ ds p line d, Chunks ds p ∧ SizeLine d.length line ∧ d ≠ [] ∧ t = p ++ line ++ d ++ [CR] ∧
      data = ds.flatten ++ d
  | .expFinalCrOrFooters => ∃ ds p line, Chunks ds p ∧ SizeLine 0 line ∧ t = p ++ line ∧ data = ds.flatten
  | .expFinalLf => ∃ ds p line, Chunks ds p ∧ SizeLine 0 line ∧ t = p ++ line ++ [CR] ∧ data = ds.flatten

def CAt (cfg : Cfg) (s0 s : S) (t : Bytes) : Prop :=
  ∃ data z a b x, s = cst cfg s0 data z a b x ∧ room cfg s0 data.length ∧ CIs data z a b t x

/-- The text has more data in its chunks than there is room for. -/
def Over (cfg : Cfg) (s0 : S) (t : Bytes) : Prop :=
  ∃ ds p line d n, Chunks ds p ∧ SizeLine n line ∧ d.length ≤ n ∧ t = p ++ line ++ d ∧
    cfg.maxContent < s0.msg.chunkCache.length + (ds.flatten.length + d.length)

/-- What a byte does. -/
def CNext (cfg : Cfg) (s0 : S) (t : Bytes) (c : UInt8) : HRes → Prop
  | .more s' => (Stuck cfg s' ∧ Over cfg s0 (t ++ [c])) ∨ CAt cfg s0 s' (t ++ [c])
  | .done _ true => ∃ ds p line, Chunks ds p ∧ SizeLine 0 line ∧ t ++ [c] = p ++ line ++ [CR, LF] ∧
      room cfg s0 ds.flatten.length
  | .done _ false => c ≠ CR ∧ ∃ ds p line, Chunks ds p ∧ SizeLine 0 line ∧ t = p ++ line ∧ room cfg s0 ds.flatten.length
  | .fail _ _ => True

theorem pad_of_cond : ∀ c : UInt8, (c = c! " " || c = 0x09 || c = CR || c = LF) = true → isBlank c = true ∨ c = CR ∨ c = LF := by
  decide +kernel

theorem blank_of_cond : ∀ c : UInt8, (c = c! " " || c = 0x09) = true → isBlank c = true := by
  decide +kernel

theorem mem_snoc {P : UInt8 → Prop} {t : Bytes} {c : UInt8} (h : ∀ x ∈ t, P x) (hc : P c) : ∀ x ∈ t ++ [c], P x := by
  intro x hx
  rcases List.mem_append.mp hx with hx | hx
  · exact h x hx
  · rw [List.mem_singleton.mp hx]; exact hc

theorem cat_step (cfg : Cfg) (s0 s : S) (t : Bytes) (c : UInt8) (h : CAt cfg s0 s t) : CNext cfg s0 t c (cbyte cfg s c) := by
  obtain ⟨data, z, a, b, x, rfl, hr, hi⟩ := h
  have hcs : (cst cfg s0 data z a b x).cs = x := rfl
  have hz : (cst cfg s0 data z a b x).chunkSizeStr = z := rfl
  unfold cbyte cstep
  simp only [hcs]
  cases x with
  | sizeStart =>
    obtain ⟨ds, p, pad, h1, h2, rfl, rfl⟩ := hi
    simp only
    split
    · rename_i hx
      exact .inr ⟨ds.flatten, [c], a, b, .size, rfl, hr, ds, p, pad, h1, h2, ⟨by simp, by simpa using hx⟩, by simp, rfl⟩
    · split
      · rename_i hx
        exact .inr ⟨ds.flatten, z, a, b, .sizeStart, rfl, hr, ds, p, pad ++ [c], h1,
          mem_snoc h2 (pad_of_cond c hx), by simp, rfl⟩
      · trivial
  | size =>
    obtain ⟨ds, p, pad, h1, h2, h3, rfl, rfl⟩ := hi
    simp only [hz]
    split
    · rename_i hx
      exact .inr ⟨ds.flatten, z ++ [c], a, b, .size, rfl, hr, ds, p, pad, h1, h2, ⟨by simp, mem_snoc h3.2 hx⟩, by simp, rfl⟩
    · split
      · rename_i hx
        exact .inr ⟨ds.flatten, z, a, b, .expLfAfterSize, rfl, hr, ds, p, pad, [], h1, h2, h3, .blanks (by simp),
          by simp [hx], rfl⟩
      · split
        · rename_i hx
          exact .inr ⟨ds.flatten, z, a, b, .expCrAfterSize, rfl, hr, ds, p, pad, [c], h1, h2, h3,
            by simpa using blank_of_cond c hx, by simp, by simp, rfl⟩
        · split
          · rename_i hx
            exact .inr ⟨ds.flatten, z, a, b, .ignoredText, rfl, hr, ds, p, pad, [], h1, h2, h3, by simp, by simp [hx], rfl⟩
          · trivial
  | ignoredText =>
    obtain ⟨ds, p, pad, x, h1, h2, h3, h4, rfl, rfl⟩ := hi
    simp only
    split
    · rename_i hx
      exact .inr ⟨ds.flatten, z, a, b, .expLfAfterSize, rfl, hr, ds, p, pad, _, h1, h2, h3, .ext h4, by simp [hx], rfl⟩
    · rename_i hx
      exact .inr ⟨ds.flatten, z, a, b, .ignoredText, rfl, hr, ds, p, pad, x ++ [c], h1, h2, h3,
        by simp [h4, Ne.symm hx], by simp, rfl⟩
  | expCrAfterSize =>
    obtain ⟨ds, p, pad, x, h1, h2, h3, h4, _, rfl, rfl⟩ := hi
    simp only
    split
    · rename_i hx
      exact .inr ⟨ds.flatten, z, a, b, .expLfAfterSize, rfl, hr, ds, p, pad, _, h1, h2, h3, .blanks h4, by simp [hx], rfl⟩
    · split
      · rename_i hx
        exact .inr ⟨ds.flatten, z, a, b, .expCrAfterSize, rfl, hr, ds, p, pad, x ++ [c], h1, h2, h3,
          mem_snoc h4 (blank_of_cond c hx), by simp, by simp, rfl⟩
      · trivial
  | expLfAfterSize =>
    obtain ⟨ds, p, pad, x, h1, h2, h3, h4, rfl, rfl⟩ := hi
    simp only [hz]
    split
    · rename_i hx
      have hl := SizeLine.mk h2 h3.1 h3.2 h4
      rw [← strtol16_hex z h3.1 h3.2] at hl
      have e : p ++ (pad ++ z ++ x ++ [CR]) ++ [c] = p ++ (pad ++ z ++ x ++ [CR, LF]) := by simp [hx]
      split
      · rename_i h0
        rw [h0] at hl
        refine .inr ⟨ds.flatten, z, 0, _, .expFinalCrOrFooters, rfl, hr, ds, p, _, h1, hl, e, rfl⟩
      · rename_i h0
        refine .inr ⟨ds.flatten, z, 0, _, .chunk, rfl, hr, ds, p, _, [], h1, hl, rfl, by omega, by rw [e]; simp, by simp⟩
    · trivial
  | chunk =>
    obtain ⟨ds, p, line, d, h1, h2, h3, h4, rfl, rfl⟩ := hi
    by_cases hst : Stuck cfg (cst cfg s0 (ds.flatten ++ d) z a b .chunk)
    · have e : cbyte cfg (cst cfg s0 (ds.flatten ++ d) z a b .chunk) c = .more (cst cfg s0 (ds.flatten ++ d) z a b .chunk) := by
        have := run_stuck cfg _ hst [c]
        have h1 : (cst cfg s0 (ds.flatten ++ d) z a b .chunk).chunkRead = a := rfl
        have h2 : (cst cfg s0 (ds.flatten ++ d) z a b .chunk).chunkSize = b := rfl
        simp only [cbyte, cstep, hst.cs, chunkData, hst.lt, hst.handler, if_true, Bool.false_eq_true, if_false,
          show ¬ (cst cfg s0 (ds.flatten ++ d) z a b .chunk).msg.chunkCache.length < cfg.maxContent from by
            have := hst.full; omega,
          show ¬ (cst cfg s0 (ds.flatten ++ d) z a b .chunk).chunkRead =
            (cst cfg s0 (ds.flatten ++ d) z a b .chunk).chunkSize from by have := hst.lt; omega, CRes.toH]
      simp only [cbyte, cstep, hcs] at e
      rw [e]
      refine .inl ⟨hst, ds, p, line, d ++ [c], b, h1, h2, by simp; omega, by simp, ?_⟩
      have := hst.full
      simp only [cst, absorb, hst.handler, Bool.false_eq_true, if_false, List.length_append] at this
      simp only [List.length_append, List.length_singleton]
      omega
    · have hroom : room cfg (cst cfg s0 (ds.flatten ++ d) z a b .chunk) 1 := by
        intro hh
        by_contra hno
        exact hst ⟨hh, rfl, by omega, h4⟩
      have e := cbyte_data cfg _ c hcs h4 hroom
      simp only [cbyte, cstep, hcs] at e
      rw [e]
      have hroom' : room cfg s0 (ds.flatten ++ (d ++ [c])).length := by
        intro hh
        have := hroom hh
        simp only [cst, absorb, hh, Bool.false_eq_true, if_false, List.length_append] at this
        simp only [List.length_append, List.length_singleton]
        omega
      have es : dataState cfg (cst cfg s0 (ds.flatten ++ d) z a b .chunk) [c] =
          cst cfg s0 (ds.flatten ++ (d ++ [c])) z (a + 1) b (if a + 1 = b then .expCrAfterChunk else .chunk) := by
        cases hh : cfg.handler <;> simp [dataState, cst, absorb, hh]
      rw [es]
      refine .inr ⟨_, _, _, _, _, rfl, hroom', ?_⟩
      split
      · rename_i hab
        refine ⟨ds, p, line, d ++ [c], h1, ?_, by simp, by simp, rfl⟩
        simp only [List.length_append, List.length_singleton, h3, hab]
        exact h2
      · exact ⟨ds, p, line, d ++ [c], h1, h2, by simp [h3], by omega, by simp, rfl⟩
  | expCrAfterChunk =>
    obtain ⟨ds, p, line, d, h1, h2, h3, rfl, rfl⟩ := hi
    simp only
    split
    · rename_i hx
      exact .inr ⟨_, z, a, b, .expLfAfterChunk, rfl, hr, ds, p, line, d, h1, h2, h3, by simp [hx], rfl⟩
    · trivial
  | expLfAfterChunk =>
    obtain ⟨ds, p, line, d, h1, h2, h3, rfl, rfl⟩ := hi
    simp only
    split
    · rename_i hx
      exact .inr ⟨_, z, a, b, .sizeStart, rfl, hr, ds ++ [d], _, [], .snoc h1 h3 h2, by simp [Pad], by simp [hx], by simp⟩
    · trivial
  | expFinalCrOrFooters =>
    obtain ⟨ds, p, line, h1, h2, rfl, rfl⟩ := hi
    simp only
    split
    · rename_i hx
      exact .inr ⟨_, z, a, b, .expFinalLf, rfl, hr, ds, p, line, h1, h2, by simp [hx], rfl⟩
    · rename_i hx
      exact ⟨hx, ds, p, line, h1, h2, rfl, hr⟩
  | expFinalLf =>
    obtain ⟨ds, p, line, h1, h2, rfl, rfl⟩ := hi
    simp only
    split
    · rename_i hx
      exact ⟨ds, p, line, h1, h2, by simp [hx], hr⟩
    · trivial

/-- If the chunk machine reports the end of a body, it has read chunks of the grammar. -/
theorem chunks_sound (cfg : Cfg) (s0 : S) (buf : Bytes) : ∀ (s : S) (t : Bytes) (s' : S) (rest : Bytes), CAt cfg s0 s t →
    run (cbyte cfg) s buf = (.yes, s', rest) →
    ∃ ds p line, Chunks ds p ∧ SizeLine 0 line ∧ room cfg s0 ds.flatten.length ∧
      (t ++ buf = p ++ line ++ [CR, LF] ++ rest ∨ (t ++ buf = p ++ line ++ rest ∧ ∃ c r, rest = c :: r ∧ c ≠ CR)) := by
  induction buf with
  | nil => intro s t s' rest _ h; simp [run] at h
  | cons c buf ih =>
    intro s t s' rest hat h
    have hn := cat_step cfg s0 s t c hat
    simp only [run] at h
    cases hst : cbyte cfg s c with
    | more s1 =>
      rw [hst] at h hn
      rcases hn with ⟨hstuck, _⟩ | hn
      · have h : run (cbyte cfg) s1 buf = (.yes, s', rest) := h
        rw [run_stuck cfg s1 hstuck] at h
        simp at h
      · obtain ⟨ds, p, line, e1, e2, e3, e4⟩ := ih s1 (t ++ [c]) s' rest hn h
        exact ⟨ds, p, line, e1, e2, e3, by simpa using e4⟩
    | done s1 k =>
      rw [hst] at h hn
      cases k with
      | true =>
        simp only [Prod.mk.injEq, true_and] at h
        obtain ⟨rfl, rfl⟩ := h
        obtain ⟨ds, p, line, e1, e2, e3, e4⟩ := hn
        refine ⟨ds, p, line, e1, e2, e4, .inl ?_⟩
        rw [← e3]; simp
      | false =>
        simp only [Prod.mk.injEq, true_and] at h
        obtain ⟨rfl, rfl⟩ := h
        obtain ⟨hc, ds, p, line, e1, e2, e3, e4⟩ := hn
        exact ⟨ds, p, line, e1, e2, e4, .inr ⟨by rw [e3], c, buf, rfl, hc⟩⟩
    | fail s1 e =>
      rw [hst] at h
      simp at h

end Verif.Http.Text
