import Verif.Lemmas.HttpGrammarSound
/-
The header machine accepts every text of the grammar.
-/
namespace Verif.Http.Text

/-- In state `s` the line is complete; with the line end everything is as in `r`. -/
def Ready (cfg : Cfg) (s r : S) : Prop :=
  ∀ w, hswitch cfg { s with raw := w } CR = .more { r with raw := w, hs := .expNewline } ∧
    hswitch cfg { s with raw := w } LF = .more { r with raw := w, hs := .expCr }

/-- The state after a line end. -/
def afterEnd (le : Bytes) : HState := if le = [CR] then .expNewline else if le = [LF] then .expCr else .headerStart

theorem steps_lineEnd {cfg : Cfg} {o : Bool} {s r : S} (h : Ready cfg s r) (ho : o = (cfg.isRequest && r.msg.verMajor == 0))
    {le : Bytes} (hl : LineEnd o le) : Steps (hstep cfg) s le { r with raw := rawAdd cfg s.raw le, hs := afterEnd le } := by
  cases hl with
  | cr => exact .one (by rw [hstep_raw]; exact (h _).1)
  | lf => exact .one (by rw [hstep_raw]; exact (h _).2)
  | lfcr =>
    refine .cons (by rw [hstep_raw]; exact (h _).2) (.one ?_)
    rw [hstep_raw]
    simp [hswitch, rawAdd_append, afterEnd, CR, LF]
  | crlf hoo =>
    refine .cons (by rw [hstep_raw]; exact (h _).1) (.one ?_)
    rw [hstep_raw]
    have : (cfg.isRequest && r.msg.verMajor == 0) = false := by rw [← ho, hoo]
    simp [hswitch, rawAdd_append, afterEnd, CR, LF, this]

/-- The states in which a line can begin. -/
def Begins (x : HState) : Prop := x = .expNewline ∨ x = .expCr ∨ x = .headerStart ∨ x = .headerWs

theorem begins_afterEnd (le : Bytes) : Begins (afterEnd le) := by
  unfold afterEnd Begins
  split
  · exact .inl rfl
  · split
    · exact .inr (.inl rfl)
    · exact .inr (.inr (.inl rfl))

theorem blank_cases {c : UInt8} (h : isBlank c = true) : c = c! " " ∨ c = 0x09 := by
  simpa [isBlank] using h

theorem step_blank {cfg : Cfg} {s : S} {c : UInt8} (hb : Begins s.hs) (h : isBlank c = true) :
    hstep cfg s c = .more { s with hs := .headerWs, raw := rawAdd cfg s.raw [c] } := by
  rw [hstep_raw]
  rcases blank_cases h with rfl | rfl <;> rcases hb with hb | hb | hb | hb <;> simp [hswitch, hb, CR, LF]

theorem step_name {cfg : Cfg} {s : S} {c : UInt8} (hb : Begins s.hs) (h : badToken c = false) :
    hstep cfg s c = .more { s with hs := .headerName, headerName := [c], raw := rawAdd cfg s.raw [c] } := by
  rw [hstep_raw]
  rcases hb with hb | hb | hb | hb <;>
    simp [hswitch, hb, h, ne_of_bad h badToken_space, ne_of_bad h badToken_cr, ne_of_bad h badToken_lf,
      ne_of_bad h badToken_tab, S.startName]

/-- Any blanks. -/
theorem steps_blanks {cfg : Cfg} (ws : Bytes) : ∀ {s : S}, Begins s.hs → (∀ c ∈ ws, isBlank c = true) →
    Steps (hstep cfg) s ws { s with hs := if ws = [] then s.hs else .headerWs, raw := rawAdd cfg s.raw ws } := by
  induction ws with
  | nil => intro s _ _; rw [rawAdd_nil, if_pos rfl]; exact .nil s
  | cons c ws ih =>
    intro s hb hw
    have h := ih (s := { s with hs := .headerWs, raw := rawAdd cfg s.raw [c] }) (.inr (.inr (.inr rfl)))
      (fun d hd => hw d (by simp [hd]))
    have := Steps.cons (step_blank (cfg := cfg) hb (hw c (by simp))) h
    simpa [rawAdd_append] using this

theorem begins_blanks {x : HState} (h : Begins x) (ws : Bytes) : Begins (if ws = [] then x else .headerWs) := by
  split
  · exact h
  · exact .inr (.inr (.inr rfl))

/-- Lines of blanks. -/
theorem steps_gap {cfg : Cfg} {o : Bool} {g : Bytes} (hg : Gap o g) {s r : S} (h : Ready cfg s r)
    (ho : o = (cfg.isRequest && r.msg.verMajor == 0)) :
    ∃ s', Steps (hstep cfg) s g s' ∧ Ready cfg s' r ∧ s'.raw = rawAdd cfg s.raw g := by
  induction hg with
  | nil => exact ⟨s, .nil s, h, by rw [rawAdd_nil]⟩
  | @line g le ws _ hl hne hw ih =>
    obtain ⟨s1, p1, r1, e1⟩ := ih
    have p2 := steps_lineEnd r1 ho hl
    have p3 := steps_blanks (cfg := cfg) ws (s := { r with raw := rawAdd cfg s1.raw le, hs := afterEnd le }) (begins_afterEnd le) hw
    rw [if_neg hne] at p3
    refine ⟨_, (p1.trans p2).trans p3, fun w => ⟨?_, ?_⟩, ?_⟩
    · simp [hswitch]
    · simp [hswitch, CR, LF]
    · simp [e1, rawAdd_append]

/-- A state with one more header. -/
def plus (r : S) (e : Bytes × Bytes) : S :=
  { r with headerName := e.1, headerValue := e.2, msg := { r.msg with headers := r.msg.headers ++ [e] } }

/-- A header. -/
theorem steps_field {cfg : Cfg} {s : S} (hb : Begins s.hs) {e : Bytes × Bytes} {f : Bytes} (hf : Field e f) :
    ∃ s', Steps (hstep cfg) s f s' ∧ Ready cfg s' (plus s e) ∧ s'.raw = rawAdd cfg s.raw f := by
  obtain ⟨⟨hn, hv, hsz⟩, ht⟩ := hf
  obtain ⟨name, value⟩ := e
  simp only at hn hv hsz ht
  obtain ⟨c, t, rfl⟩ := List.exists_cons_of_ne_nil hn.nonempty
  have hbad := hn.chars
  have hc := hbad c (by simp)
  have hnsz := hn.size
  simp only [List.length_cons] at hnsz
  have pn : Steps (hstep cfg) s ((c :: t) ++ b! ":") { s with
      hs := .spaceBeforeValue, headerName := c :: t, headerValue := [], raw := rawAdd cfg s.raw ((c :: t) ++ b! ":") } := by
    have h1 := Steps.one (step_name (cfg := cfg) hb hc)
    have h2 := steps_name cfg t { s with hs := .headerName, headerName := [c], raw := rawAdd cfg s.raw [c] } rfl
      (by simp only [List.length_singleton]; omega) (fun x hx => hbad x (by simp [hx]))
    have h3 : Steps (hstep cfg) (accName cfg { s with hs := .headerName, headerName := [c], raw := rawAdd cfg s.raw [c] } t) (b! ":")
        { s with hs := .spaceBeforeValue, headerName := c :: t, headerValue := [], raw := rawAdd cfg s.raw ((c :: t) ++ b! ":") } :=
      .one (by rw [hstep_raw]; simp [hswitch, accName, rawAdd_append])
    have := (h1.trans h2).trans h3
    simpa using this
  have ready : ∀ w, Ready cfg { s with hs := .headerValue, headerName := c :: t, headerValue := value, raw := w } (plus s (c :: t, value)) := by
    intro w w'
    constructor
    · simp [hswitch, S.addHeader, plus, Dict.insert]
    · simp [hswitch, S.addHeader, plus, Dict.insert, CR, LF]
  rcases ht with rfl | ⟨rfl, hh⟩
  · have h4 : Steps (hstep cfg) { s with
        hs := .spaceBeforeValue, headerName := c :: t, headerValue := [], raw := rawAdd cfg s.raw ((c :: t) ++ b! ":") } (b! " ")
        { s with hs := .headerValue, headerName := c :: t, headerValue := [], raw := rawAdd cfg s.raw ((c :: t) ++ b! ": ") } :=
      .one (by rw [hstep_raw]; simp [hswitch, rawAdd_append])
    have h5 := steps_value cfg value { s with
        hs := .headerValue, headerName := c :: t, headerValue := [], raw := rawAdd cfg s.raw ((c :: t) ++ b! ": ") } rfl
        (by simpa using hsz) hv
    have := (pn.trans h4).trans h5
    have e : (c :: t) ++ b! ": " ++ value = (c :: t) ++ b! ":" ++ b! " " ++ value := by simp
    rw [e]
    exact ⟨_, this, ready _, by simp [accValue, rawAdd_append]⟩
  · cases value with
    | nil =>
      refine ⟨_, by simpa using pn, fun w => ⟨?_, ?_⟩, by simp⟩
      · simp [hswitch, S.addHeader, plus, Dict.insert, CR]
      · simp [hswitch, S.addHeader, plus, Dict.insert, CR, LF]
    | cons d v =>
      have hd : badToken d = false := hh d (by simp)
      have h4 : Steps (hstep cfg) { s with
          hs := .spaceBeforeValue, headerName := c :: t, headerValue := [], raw := rawAdd cfg s.raw ((c :: t) ++ b! ":") } [d]
          { s with hs := .headerValue, headerName := c :: t, headerValue := [d], raw := rawAdd cfg s.raw ((c :: t) ++ b! ":" ++ [d]) } :=
        .one (by
          rw [hstep_raw]
          simp [hswitch, rawAdd_append, hd, ne_of_bad hd badToken_space, ne_of_bad hd badToken_cr, ne_of_bad hd badToken_lf])
      have h5 := steps_value cfg v { s with
          hs := .headerValue, headerName := c :: t, headerValue := [d], raw := rawAdd cfg s.raw ((c :: t) ++ b! ":" ++ [d]) } rfl
          (by simp only [List.length_cons] at hsz; simp only [List.length_singleton]; omega) (fun x hx => hv x (by simp [hx]))
      have := (pn.trans h4).trans h5
      have e : (c :: t) ++ b! ":" ++ d :: v = (c :: t) ++ b! ":" ++ [d] ++ v := by simp
      rw [e]
      exact ⟨_, this, ready _, by simp [accValue, rawAdd_append]⟩

/-- Any number of headers. -/
theorem steps_fields {cfg : Cfg} {o : Bool} {hs : Dict} {t : Bytes} (hf : Fields o hs t) {s r : S} (h : Ready cfg s r)
    (ho : o = (cfg.isRequest && r.msg.verMajor == 0)) :
    ∃ s' n v, Steps (hstep cfg) s t s' ∧
      Ready cfg s' { r with headerName := n, headerValue := v, msg := { r.msg with headers := r.msg.headers ++ hs } } ∧
      s'.raw = rawAdd cfg s.raw t := by
  induction hf with
  | nil => exact ⟨s, r.headerName, r.headerValue, .nil s, by simpa using h, by rw [rawAdd_nil]⟩
  | @snoc hs t g le ws f e _ hg hl hw hfd ih =>
    obtain ⟨s1, n, v, p1, r1, e1⟩ := ih
    obtain ⟨s2, p2, r2, e2⟩ := steps_gap hg r1 ho
    have p3 := steps_lineEnd r2 ho hl
    have p4 := steps_blanks (cfg := cfg) ws (s := { r with
      headerName := n, headerValue := v, msg := { r.msg with headers := r.msg.headers ++ hs },
      raw := rawAdd cfg s2.raw le, hs := afterEnd le }) (begins_afterEnd le) hw
    obtain ⟨s3, p5, r5, e5⟩ := steps_field (cfg := cfg) (s := { r with
      headerName := n, headerValue := v, msg := { r.msg with headers := r.msg.headers ++ hs },
      raw := rawAdd cfg (rawAdd cfg s2.raw le) ws, hs := if ws = [] then afterEnd le else .headerWs })
      (begins_blanks (begins_afterEnd le) ws) hfd
    refine ⟨s3, e.1, e.2, (((p1.trans p2).trans p3).trans p4).trans p5, fun w => ?_, ?_⟩
    · have := r5 w
      simpa [plus] using this
    · rw [e5]
      simp [e2, e1, rawAdd_append]

/-- The end of a head. -/
theorem run_end {cfg : Cfg} {o : Bool} {e rest : Bytes} (he : HeadEnd o e rest) {s r : S} (h : Ready cfg s r)
    (ho : o = (cfg.isRequest && r.msg.verMajor == 0)) :
    ∃ x w, run (hstep cfg) s (e ++ rest) = (.yes, { r with hs := x, raw := w }, rest) := by
  cases he with
  | @empty g le e _ hg hl hm =>
    obtain ⟨s1, p1, r1, e1⟩ := steps_gap hg h ho
    have p2 := steps_lineEnd r1 ho hl
    have hp := (p1.trans p2) (e ++ rest)
    rw [← List.append_assoc] at hp
    rw [hp]
    have len : le.length = 2 → afterEnd le = .headerStart := by
      intro h2
      unfold afterEnd
      rw [if_neg (by rintro rfl; simp at h2), if_neg (by rintro rfl; simp at h2)]
    cases hm with
    | cr => exact ⟨_, _, by simp [run, hstep_raw, hswitch, afterEnd, CR, LF]; exact ⟨rfl, rfl⟩⟩
    | lf => exact ⟨_, _, by simp [run, hstep_raw, hswitch, afterEnd, CR, LF]; exact ⟨rfl, rfl⟩⟩
    | crlf h2 => rw [len h2]; exact ⟨_, _, by simp [run, hstep_raw, hswitch, CR, LF]; exact ⟨rfl, rfl⟩⟩
    | lfcr h2 => rw [len h2]; exact ⟨_, _, by simp [run, hstep_raw, hswitch, CR, LF]; exact ⟨rfl, rfl⟩⟩
    | cr1 h2 hc =>
      have hc' := beq_false_of_ne hc
      rw [len h2]
      exact ⟨_, _, by simp only [run, hstep_raw, hswitch, List.cons_append, List.nil_append, if_true, hc']; rfl⟩
    | lf1 h2 hc =>
      have hc' := beq_false_of_ne hc
      rw [len h2]
      exact ⟨_, _, by
        simp only [run, hstep_raw, hswitch, List.cons_append, List.nil_append, if_true, hc', show ¬ (LF = CR) from by decide, if_false]
        rfl⟩
  | @old g _ hoo hg =>
    obtain ⟨s1, p1, r1, e1⟩ := steps_gap hg h ho
    rw [List.append_assoc, p1]
    have p2 := Steps.one (step := hstep cfg) (c := CR) (by rw [hstep_raw]; exact (r1 _).1)
    have := p2 ([LF] ++ rest)
    have hv : (cfg.isRequest && r.msg.verMajor == 0) = true := by rw [← ho, hoo]
    refine ⟨.expNewline, rawAdd cfg s1.raw [CR, LF], ?_⟩
    rw [show [CR, LF] ++ rest = [CR] ++ ([LF] ++ rest) from rfl, this]
    simp [run, hstep_raw, hswitch, hv, rawAdd_append]

/-! ### The first line -/

theorem number_cons {n : Nat} {t : Bytes} (h : Number n t) :
    ∃ c r, t = c :: r ∧ isDigit c = true ∧ (∀ x ∈ r, isDigit x = true) ∧ dec16 (digitVal c) r = n := by
  obtain ⟨h1, h2, h3⟩ := h
  obtain ⟨c, r, rfl⟩ := List.exists_cons_of_ne_nil h1
  have hc := h2 c (by simp)
  refine ⟨c, r, rfl, hc, fun x hx => h2 x (by simp [hx]), ?_⟩
  rw [dec16_eq _ _ (by have := digitVal_lt hc; omega), h3]
  simp [decVal]

/-- The minor version; requests may have spaces in it. -/
def accMinor2 (cfg : Cfg) (s : S) (t : Bytes) : S :=
  { s with msg := { s.msg with verMinor := dec16 s.msg.verMinor (t.filter (· ≠ c! " ")) }, raw := rawAdd cfg s.raw t }

theorem steps_minor2 (cfg : Cfg) (t : Bytes) (s : S) (hs : s.hs = .verMinor)
    (hok : ∀ c ∈ t, isDigit c = true ∨ (c = c! " " ∧ cfg.isRequest = true)) : Steps (hstep cfg) s t (accMinor2 cfg s t) := by
  refine Steps.acc (accMinor2 cfg) (fun s _ => s.hs = .verMinor) _ ?_ ?_ ?_ t s hs hok
  · intro s; simp [accMinor2, rawAdd_nil, dec16]
  · intro s a b; simp [accMinor2, rawAdd_append, dec16_append]
  · intro s c n h1 hc
    rw [hstep_raw]
    rcases hc with hc | ⟨rfl, hr⟩
    · have hne := digit_ne hc (show isDigit (c! " ") = false by decide)
      simp only [hswitch, h1, hc, hne,
        digit_ne hc (show isDigit CR = false by decide), digit_ne hc (show isDigit LF = false by decide), if_true, if_false]
      refine ⟨?_, h1⟩
      simp only [accMinor2, h1]
      have : List.filter (fun x => decide (x ≠ c! " ")) [c] = [c] := by simp [hne]
      rw [this]
      rfl
    · simp only [hswitch, h1, hr, if_true]
      refine ⟨?_, h1⟩
      simp [accMinor2, h1, dec16]

theorem steps_version2 (cfg : Cfg) (s : S) (hs : s.hs = .verH) {major minor : Nat} {v : Bytes}
    (h : Version cfg.isRequest major minor v) : Steps (hstep cfg) s v
      { s with
          hs := .verMinor, msg := { s.msg with verMajor := major, verMinor := minor }, raw := rawAdd cfg s.raw v } := by
  obtain ⟨c, a, b, rfl, hc, hmaj, hmin, hhd, hsp⟩ := h
  obtain ⟨c1, t1, rfl, hc1, d1, v1⟩ := number_cons hmaj
  cases b with
  | nil => exact absurd rfl hmin.1
  | cons c2 t2 =>
    have hc2s : c2 ≠ c! " " := by simpa using hhd
    have hf : List.filter (fun x => decide (x ≠ c! " ")) (c2 :: t2) = c2 :: t2.filter (fun x => decide (x ≠ c! " ")) := by
      simp [hc2s]
    rw [hf] at hmin
    have hd2 := hmin.2.1
    obtain ⟨c2', t2', e, hc2, d2, v2⟩ := number_cons hmin
    obtain ⟨rfl, rfl⟩ := List.cons.inj e
    have hok2 : ∀ x ∈ t2, isDigit x = true ∨ (x = c! " " ∧ cfg.isRequest = true) := by
      intro x hx
      by_cases hxs : x = c! " "
      · refine .inr ⟨hxs, ?_⟩
        cases hr : cfg.isRequest with
        | true => rfl
        | false => exact absurd (by simp [← hxs, hx]) (hsp hr)
      · exact .inl (hd2 x (by simp [hx, hxs]))
    have key : [c] ++ b! "TTP/" ++ (c1 :: t1) ++ b! "." ++ (c2 :: t2) =
        [c] ++ (b! "TTP/" ++ ([c1] ++ (t1 ++ ([0x2e] ++ ([c2] ++ t2))))) := by simp
    rw [key]
    obtain ⟨m0, hm0, p0⟩ : ∃ m0 : Msg, (∀ x y : Nat, ({ m0 with verMajor := x, verMinor := y } : Msg) = { s.msg with verMajor := x, verMinor := y }) ∧
        Steps (hstep cfg) s [c] { s with hs := .verT1, msg := m0, raw := rawAdd cfg s.raw [c] } := by
      rcases hc with rfl | ⟨hr, hcl⟩
      · exact ⟨s.msg, fun _ _ => rfl, .one (by rw [hstep_raw]; simp [hswitch, hs, CR, LF])⟩
      · refine ⟨{ s.msg with verMajor := 0, verMinor := 0 }, fun _ _ => rfl, .one ?_⟩
        rw [hstep_raw]
        rcases hcl with rfl | rfl <;> simp [hswitch, hs, hr, S.noVersion, CR, LF]
    refine p0.trans ?_
    have p1 : Steps (hstep cfg) { s with hs := .verT1, msg := m0, raw := rawAdd cfg s.raw [c] } (b! "TTP/")
        { s with hs := .verMajorStart, msg := m0, raw := rawAdd cfg s.raw ([c] ++ b! "TTP/") } := by
      refine .cons (t := { s with hs := .verT2, msg := m0, raw := rawAdd cfg s.raw ([c] ++ b! "T") })
        (by rw [hstep_raw]; simp [hswitch, rawAdd_append]) ?_
      refine .cons (t := { s with hs := .verP, msg := m0, raw := rawAdd cfg s.raw ([c] ++ b! "TT") })
        (by rw [hstep_raw]; simp [hswitch, rawAdd_append]) ?_
      refine .cons (t := { s with hs := .verSlash, msg := m0, raw := rawAdd cfg s.raw ([c] ++ b! "TTP") })
        (by rw [hstep_raw]; simp [hswitch, rawAdd_append]) ?_
      exact .one (by rw [hstep_raw]; simp [hswitch, rawAdd_append])
    refine p1.trans ?_
    refine Steps.trans (t := { s with
        hs := .verMajor, msg := { m0 with verMajor := digitVal c1 },
        raw := rawAdd cfg s.raw ([c] ++ b! "TTP/" ++ [c1]) }) (.one (by rw [hstep_raw]; simp [hswitch, hc1, rawAdd_append])) ?_
    refine Steps.trans (steps_major cfg t1 _ rfl d1) ?_
    refine Steps.trans (t := { s with
        hs := .verMinorStart, msg := { m0 with verMajor := major },
        raw := rawAdd cfg s.raw ([c] ++ b! "TTP/" ++ [c1] ++ t1 ++ b! ".") })
      (.one (by rw [hstep_raw]; simp [hswitch, accMajor, rawAdd_append, v1])) ?_
    refine Steps.trans (t := { s with
        hs := .verMinor, msg := { m0 with verMajor := major, verMinor := digitVal c2 },
        raw := rawAdd cfg s.raw ([c] ++ b! "TTP/" ++ [c1] ++ t1 ++ b! "." ++ [c2]) })
      (.one (by rw [hstep_raw]; simp [hswitch, hc2, rawAdd_append])) ?_
    have := steps_minor2 cfg t2 { s with
        hs := .verMinor, msg := { m0 with verMajor := major, verMinor := digitVal c2 },
        raw := rawAdd cfg s.raw ([c] ++ b! "TTP/" ++ [c1] ++ t1 ++ b! "." ++ [c2]) } rfl hok2
    have e2 : accMinor2 cfg { s with
        hs := .verMinor, msg := { m0 with verMajor := major, verMinor := digitVal c2 },
        raw := rawAdd cfg s.raw ([c] ++ b! "TTP/" ++ [c1] ++ t1 ++ b! "." ++ [c2]) } t2 =
        { s with
          hs := .verMinor, msg := { s.msg with verMajor := major, verMinor := minor },
          raw := rawAdd cfg s.raw ([c] ++ (b! "TTP/" ++ ([c1] ++ (t1 ++ ([0x2e] ++ ([c2] ++ t2)))))) } := by
      unfold accMinor2
      simp only [v2]
      rw [← hm0]
      simp [rawAdd_append]
    rw [← e2]
    exact this

/-- The state with the first line stored. -/
def stored (s : S) : Head → S
  | .request method resource query major minor => { s with
      method := method, resource := resource, query := query, msg := { s.msg with verMajor := major, verMinor := minor } }
  | .response major minor code text => { s with
      statusCode := code, statusMessage := text, msg := { s.msg with verMajor := major, verMinor := minor } }

theorem steps_pre (cfg : Cfg) (t : Bytes) (s : S) (hs : s.hs = .methodStart) (hok : ∀ c ∈ t, c = c! " " ∨ c = CR ∨ c = LF) :
    Steps (hstep cfg) s t { s with raw := rawAdd cfg s.raw t } := by
  refine Steps.acc (fun s t => { s with raw := rawAdd cfg s.raw t }) (fun s _ => s.hs = .methodStart) _ ?_ ?_ ?_ t s hs hok
  · intro s; simp [rawAdd_nil]
  · intro s a b; simp [rawAdd_append]
  · intro s c n h1 hc
    rw [hstep_raw]
    rcases hc with rfl | rfl | rfl <;> simp [hswitch, h1]

theorem steps_firstLine {cfg : Cfg} {s : S} {h : Head} {f : Bytes} (hf : FirstLine h f) (hk : cfg.isRequest = h.isRequest)
    (hs : s.hs = initHs cfg) (hq : s.query = []) :
    ∃ s', Steps (hstep cfg) s f s' ∧ Ready cfg s' (stored s h) ∧ s'.raw = rawAdd cfg s.raw f := by
  cases hf with
  | @request pre method resource query q v major minor h1 h2 h3 h4 h5 h6 h7 h8 =>
    have hr : cfg.isRequest = true := hk
    have hs' : s.hs = .methodStart := by rw [hs]; simp [initHs, hr]
    obtain ⟨c, t, rfl⟩ := List.exists_cons_of_ne_nil h2.nonempty
    have hbad := h2.chars
    have hc := hbad c (by simp)
    have hsz := h2.size
    simp only [List.length_cons] at hsz
    have p1 := steps_pre cfg pre s hs' h1
    have p2 : Steps (hstep cfg) { s with raw := rawAdd cfg s.raw pre } [c] { s with
        hs := .method, method := [c], raw := rawAdd cfg s.raw (pre ++ [c]) } := by
      refine .one ?_
      rw [hstep_raw]
      simp [hswitch, hs', hc, ne_of_bad hc badToken_space, ne_of_bad hc badToken_cr, ne_of_bad hc badToken_lf, rawAdd_append]
    have p3 := steps_method cfg t { s with hs := .method, method := [c], raw := rawAdd cfg s.raw (pre ++ [c]) } rfl
      (by simp only [List.length_singleton]; omega) (fun x hx => hbad x (by simp [hx]))
    have p4 : Steps (hstep cfg) (accMethod cfg { s with hs := .method, method := [c], raw := rawAdd cfg s.raw (pre ++ [c]) } t)
        (b! " ") { s with
          hs := .uriStem, method := c :: t, resource := [], raw := rawAdd cfg s.raw (pre ++ (c :: t) ++ b! " ") } :=
      .one (by rw [hstep_raw]; simp [hswitch, accMethod, rawAdd_append])
    have p5 := steps_resource cfg resource { s with
          hs := .uriStem, method := c :: t, resource := [], raw := rawAdd cfg s.raw (pre ++ (c :: t) ++ b! " ") } rfl
          (by simpa using h4) h3
    have p5' : Steps (hstep cfg) s (pre ++ (c :: t) ++ b! " " ++ resource) { s with
          hs := .uriStem, method := c :: t, resource := resource, raw := rawAdd cfg s.raw (pre ++ (c :: t) ++ b! " " ++ resource) } := by
      have := (((p1.trans p2).trans p3).trans p4).trans p5
      simpa [accResource, rawAdd_append] using this
    -- the query
    obtain ⟨x, hx, p6⟩ : ∃ x, (x = HState.uriStem ∨ x = HState.uriQuery) ∧
        Steps (hstep cfg) s (pre ++ (c :: t) ++ b! " " ++ resource ++ q) { s with
          hs := x, method := c :: t, resource := resource, query := query,
          raw := rawAdd cfg s.raw (pre ++ (c :: t) ++ b! " " ++ resource ++ q) } := by
      rcases h7 with ⟨rfl, rfl⟩ | rfl
      · refine ⟨.uriStem, .inl rfl, ?_⟩
        rw [List.append_nil]
        rw [hq] at p5'
        exact p5'
      · refine ⟨.uriQuery, .inr rfl, ?_⟩
        have q1 : Steps (hstep cfg) { s with
            hs := .uriStem, method := c :: t, resource := resource, raw := rawAdd cfg s.raw (pre ++ (c :: t) ++ b! " " ++ resource) }
            (b! "?") { s with
              hs := .uriQuery, method := c :: t, resource := resource, query := [],
              raw := rawAdd cfg s.raw (pre ++ (c :: t) ++ b! " " ++ resource ++ b! "?") } :=
          .one (by rw [hstep_raw]; simp [hswitch, rawAdd_append])
        have q2 := steps_query cfg query { s with
              hs := .uriQuery, method := c :: t, resource := resource, query := [],
              raw := rawAdd cfg s.raw (pre ++ (c :: t) ++ b! " " ++ resource ++ b! "?") } rfl (by simpa using h6) h5
        have := (p5'.trans q1).trans q2
        simpa [accQuery, rawAdd_append] using this
    -- the version
    rcases h8 with ⟨rfl, rfl, rfl⟩ | ⟨y, rfl, hv⟩
    · rw [List.append_nil]
      refine ⟨_, p6, fun w => ?_, rfl⟩
      rcases hx with rfl | rfl <;> constructor <;> simp [hswitch, stored, S.noVersion, CR, LF]
    · have q1 : Steps (hstep cfg) { s with
          hs := x, method := c :: t, resource := resource, query := query,
          raw := rawAdd cfg s.raw (pre ++ (c :: t) ++ b! " " ++ resource ++ q) } (b! " ") { s with
          hs := .verH, method := c :: t, resource := resource, query := query,
          raw := rawAdd cfg s.raw (pre ++ (c :: t) ++ b! " " ++ resource ++ q ++ b! " ") } := by
        refine .one ?_
        rw [hstep_raw]
        rcases hx with rfl | rfl <;> simp [hswitch, rawAdd_append]
      have q2 := steps_version2 cfg { s with
          hs := .verH, method := c :: t, resource := resource, query := query,
          raw := rawAdd cfg s.raw (pre ++ (c :: t) ++ b! " " ++ resource ++ q ++ b! " ") } rfl (by rw [hr]; exact hv)
      have := (p6.trans q1).trans q2
      rw [← List.append_assoc _ (b! " ") y]
      refine ⟨_, this, fun w => ?_, by simp [rawAdd_append]⟩
      constructor <;> simp [hswitch, stored, hr, CR, LF]
  | @response v n text x major minor code hv hn h3 h4 h5 =>
    have hr : cfg.isRequest = false := hk
    have hs' : s.hs = .verH := by rw [hs]; simp [initHs, hr]
    have p1 := steps_version2 cfg s hs' (by rw [hr]; exact hv)
    have p2 : Steps (hstep cfg) { s with
          hs := .verMinor, msg := { s.msg with verMajor := major, verMinor := minor }, raw := rawAdd cfg s.raw v } (b! " ")
        { s with
          hs := .statusCodeStart, msg := { s.msg with verMajor := major, verMinor := minor },
          raw := rawAdd cfg s.raw (v ++ b! " ") } :=
      .one (by rw [hstep_raw]; simp [hswitch, hr, rawAdd_append])
    obtain ⟨c, t, rfl, hc, ht, hval⟩ := number_cons hn
    have p3 : Steps (hstep cfg) { s with
          hs := .statusCodeStart, msg := { s.msg with verMajor := major, verMinor := minor },
          raw := rawAdd cfg s.raw (v ++ b! " ") } [c] { s with
          hs := .statusCode, statusCode := digitVal c, msg := { s.msg with verMajor := major, verMinor := minor },
          raw := rawAdd cfg s.raw (v ++ b! " " ++ [c]) } :=
      .one (by rw [hstep_raw]; simp [hswitch, hc, rawAdd_append])
    have p4 := steps_code cfg t { s with
          hs := .statusCode, statusCode := digitVal c, msg := { s.msg with verMajor := major, verMinor := minor },
          raw := rawAdd cfg s.raw (v ++ b! " " ++ [c]) } rfl ht
    have p4' : Steps (hstep cfg) s (v ++ b! " " ++ (c :: t)) { s with
          hs := .statusCode, statusCode := code, msg := { s.msg with verMajor := major, verMinor := minor },
          raw := rawAdd cfg s.raw (v ++ b! " " ++ (c :: t)) } := by
      have := ((p1.trans p2).trans p3).trans p4
      simpa [accCode, rawAdd_append, hval] using this
    rcases h5 with ⟨rfl, rfl⟩ | rfl
    · rw [List.append_nil]
      refine ⟨_, p4', fun w => ?_, rfl⟩
      constructor <;> simp [hswitch, stored, CR, LF, show isDigit 0x0d = false by decide, show isDigit 0x0a = false by decide]
    · have q1 : Steps (hstep cfg) { s with
          hs := .statusCode, statusCode := code, msg := { s.msg with verMajor := major, verMinor := minor },
          raw := rawAdd cfg s.raw (v ++ b! " " ++ (c :: t)) } (b! " ") { s with
          hs := .statusMessage, statusCode := code, statusMessage := [], msg := { s.msg with verMajor := major, verMinor := minor },
          raw := rawAdd cfg s.raw (v ++ b! " " ++ (c :: t) ++ b! " ") } :=
        .one (by rw [hstep_raw]; simp [hswitch, rawAdd_append])
      have q2 := steps_status cfg text { s with
          hs := .statusMessage, statusCode := code, statusMessage := [], msg := { s.msg with verMajor := major, verMinor := minor },
          raw := rawAdd cfg s.raw (v ++ b! " " ++ (c :: t) ++ b! " ") } rfl (by simpa using h4) h3
      have := (p4'.trans q1).trans q2
      rw [← List.append_assoc _ (b! " ") text]
      refine ⟨_, this, fun w => ?_, by simp [accStatus, rawAdd_append]⟩
      constructor <;> simp [hswitch, stored, accStatus, CR, LF]

theorem old_stored {cfg : Cfg} {s : S} {h : Head} (hk : cfg.isRequest = h.isRequest) :
    old h = (cfg.isRequest && (stored s h).msg.verMajor == 0) := by
  cases h with
  | request => rw [hk]; simp [old, stored, Head.isRequest]
  | response => rw [hk]; simp [old, stored, Head.isRequest]

/-- The header machine accepts the heads of the grammar and stores what they say. -/
theorem run_complete {cfg : Cfg} {s : S} {h : Head} {hs : Dict} {t rest : Bytes} (hm : MessageHead h hs t rest)
    (hk : cfg.isRequest = h.isRequest) (hi : s.hs = initHs cfg) (hq : s.query = []) :
    ∃ x w n v, run (hstep cfg) s (t ++ rest) = (.yes, { stored s h with
      hs := x, raw := w, headerName := n, headerValue := v,
      msg := { (stored s h).msg with headers := s.msg.headers ++ hs } }, rest) := by
  obtain ⟨f, _, rfl, hf, l, e, rfl, hl, he⟩ := hm
  obtain ⟨s1, p1, r1, _⟩ := steps_firstLine hf hk hi hq
  obtain ⟨s2, n, v, p2, r2, _⟩ := steps_fields hl r1 (old_stored hk)
  obtain ⟨x, w, p3⟩ := run_end he r2 (old_stored (s := s) hk)
  have hh : (stored s h).msg.headers = s.msg.headers := by cases h <;> rfl
  refine ⟨x, w, n, v, ?_⟩
  rw [List.append_assoc, p1, List.append_assoc, p2, p3, hh]

end Verif.Http.Text
