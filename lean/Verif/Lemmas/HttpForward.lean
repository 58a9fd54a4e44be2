import Verif.Lemmas.HttpParse
import Verif.Lemmas.Digits
import Verif.Spec.HttpWire
/-
What the header machine does with well-formed message heads.
-/
namespace Verif.Http

/-- The machine goes from `s` to `s'` on the bytes `bs`. -/
def Steps (step : S → UInt8 → HRes) (s : S) (bs : Bytes) (s' : S) : Prop :=
  ∀ rest, run step s (bs ++ rest) = run step s' rest

theorem Steps.nil {step : S → UInt8 → HRes} (s : S) : Steps step s [] s := fun _ => rfl

theorem Steps.trans {step : S → UInt8 → HRes} {s t u : S} {a b : Bytes} (h1 : Steps step s a t) (h2 : Steps step t b u) :
    Steps step s (a ++ b) u := by
  intro rest; rw [List.append_assoc, h1, h2]

theorem Steps.one {step : S → UInt8 → HRes} {s t : S} {c : UInt8} (h : step s c = .more t) : Steps step s [c] t := by
  intro rest; simp only [List.cons_append, List.nil_append, run, h]

theorem Steps.cons {step : S → UInt8 → HRes} {s t u : S} {c : UInt8} {b : Bytes} (h : step s c = .more t)
    (h2 : Steps step t b u) : Steps step s (c :: b) u := (Steps.one h).trans h2

/-- A state machine that accumulates characters. -/
theorem Steps.acc {step : S → UInt8 → HRes} (f : S → Bytes → S) (P : S → Nat → Prop) (ok : UInt8 → Prop)
    (h0 : ∀ s, f s [] = s) (hf : ∀ s a b, f (f s a) b = f s (a ++ b))
    (hs : ∀ s c n, P s (n + 1) → ok c → step s c = .more (f s [c]) ∧ P (f s [c]) n) :
    ∀ (t : Bytes) (s : S), P s t.length → (∀ c ∈ t, ok c) → Steps step s t (f s t) := by
  intro t
  induction t with
  | nil => intro s _ _; rw [h0]; exact .nil s
  | cons c t ih =>
    intro s hp hok
    obtain ⟨h1, h2⟩ := hs s c t.length hp (hok c (by simp))
    have := ih _ h2 (fun x hx => hok x (by simp [hx]))
    rw [hf] at this
    exact .cons h1 this

/-- Raw headers after `bs` more bytes. -/
def rawAdd (cfg : Cfg) (r bs : Bytes) : Bytes := if cfg.saveRaw then r ++ bs else r

theorem rawAdd_nil (cfg : Cfg) (r : Bytes) : rawAdd cfg r [] = r := by unfold rawAdd; split <;> simp

theorem rawAdd_append (cfg : Cfg) (r a b : Bytes) : rawAdd cfg (rawAdd cfg r a) b = rawAdd cfg r (a ++ b) := by
  unfold rawAdd; split <;> simp

theorem hstep_raw (cfg : Cfg) (s : S) (c : UInt8) :
    hstep cfg s c = hswitch cfg { s with raw := rawAdd cfg s.raw [c] } c := by
  unfold hstep rawAdd; split <;> rfl

theorem badToken_space : badToken (c! " ") = true := by decide
theorem badToken_colon : badToken (c! ":") = true := by decide
theorem control_cr : isControl CR = true := by decide
theorem control_lf : isControl LF = true := by decide
theorem badToken_cr : badToken CR = true := by decide
theorem badToken_lf : badToken LF = true := by decide
theorem badToken_tab : badToken 0x09 = true := by decide

theorem ne_of_bad {c d : UInt8} (h : badToken c = false) (hd : badToken d = true) : c ≠ d := by
  rintro rfl; rw [h] at hd; cases hd

theorem ne_of_control {c d : UInt8} (h : isControl c = false) (hd : isControl d = true) : c ≠ d := by
  rintro rfl; rw [h] at hd; cases hd

/-- Collect the method. -/
def accMethod (cfg : Cfg) (s : S) (t : Bytes) : S := { s with method := s.method ++ t, raw := rawAdd cfg s.raw t }
def accResource (cfg : Cfg) (s : S) (t : Bytes) : S := { s with resource := s.resource ++ t, raw := rawAdd cfg s.raw t }
def accQuery (cfg : Cfg) (s : S) (t : Bytes) : S := { s with query := s.query ++ t, raw := rawAdd cfg s.raw t }
def accStatus (cfg : Cfg) (s : S) (t : Bytes) : S :=
  { s with statusMessage := s.statusMessage ++ t, raw := rawAdd cfg s.raw t }
def accName (cfg : Cfg) (s : S) (t : Bytes) : S := { s with headerName := s.headerName ++ t, raw := rawAdd cfg s.raw t }
def accValue (cfg : Cfg) (s : S) (t : Bytes) : S :=
  { s with headerValue := s.headerValue ++ t, raw := rawAdd cfg s.raw t }

theorem steps_method (cfg : Cfg) (t : Bytes) (s : S) (hs : s.hs = .method) (hl : s.method.length + t.length ≤ 1024)
    (hok : ∀ c ∈ t, badToken c = false) : Steps (hstep cfg) s t (accMethod cfg s t) := by
  refine Steps.acc (accMethod cfg) (fun s n => s.hs = .method ∧ s.method.length + n ≤ 1024) _ ?_ ?_ ?_ t s ⟨hs, hl⟩ hok
  · intro s; simp [accMethod, rawAdd_nil]
  · intro s a b; simp [accMethod, rawAdd_append]
  · rintro s c n ⟨h1, h2⟩ hc
    rw [hstep_raw]
    simp only [hswitch, h1, ne_of_bad hc badToken_space, hc, if_false, METHOD_MAX, Bool.false_eq_true,
      show ¬ 1024 ≤ s.method.length from by omega, accMethod, List.length_append, List.length_singleton, true_and]
    omega

theorem steps_resource (cfg : Cfg) (t : Bytes) (s : S) (hs : s.hs = .uriStem)
    (hl : s.resource.length + t.length ≤ 262144)
    (hok : ∀ c ∈ t, uriChar c) : Steps (hstep cfg) s t (accResource cfg s t) := by
  refine Steps.acc (accResource cfg) (fun s n => s.hs = .uriStem ∧ s.resource.length + n ≤ 262144) _ ?_ ?_ ?_ t s
    ⟨hs, hl⟩ hok
  · intro s; simp [accResource, rawAdd_nil]
  · intro s a b; simp [accResource, rawAdd_append]
  · rintro s c n ⟨h1, h2⟩ ⟨hc1, hc2, hc3⟩
    rw [hstep_raw]
    simp only [hswitch, h1, hc1, hc2, hc3, ne_of_control hc3 control_cr, ne_of_control hc3 control_lf, if_false,
      RESOURCE_MAX, Bool.false_eq_true, show ¬ 256 * 1024 ≤ s.resource.length from by omega, accResource,
      List.length_append, List.length_singleton, true_and]
    omega

theorem steps_query (cfg : Cfg) (t : Bytes) (s : S) (hs : s.hs = .uriQuery)
    (hl : s.query.length + t.length ≤ 1048576)
    (hok : ∀ c ∈ t, queryChar c) : Steps (hstep cfg) s t (accQuery cfg s t) := by
  refine Steps.acc (accQuery cfg) (fun s n => s.hs = .uriQuery ∧ s.query.length + n ≤ 1048576) _ ?_ ?_ ?_ t s
    ⟨hs, hl⟩ hok
  · intro s; simp [accQuery, rawAdd_nil]
  · intro s a b; simp [accQuery, rawAdd_append]
  · rintro s c n ⟨h1, h2⟩ ⟨hc1, hc3⟩
    rw [hstep_raw]
    simp only [hswitch, h1, hc1, hc3, ne_of_control hc3 control_cr, ne_of_control hc3 control_lf, if_false,
      QUERY_STRING_MAX, Bool.false_eq_true, show ¬ 1024 * 1024 ≤ s.query.length from by omega, accQuery,
      List.length_append, List.length_singleton, true_and]
    omega

theorem steps_status (cfg : Cfg) (t : Bytes) (s : S) (hs : s.hs = .statusMessage)
    (hl : s.statusMessage.length + t.length ≤ 1024)
    (hok : ∀ c ∈ t, textChar c) : Steps (hstep cfg) s t (accStatus cfg s t) := by
  refine Steps.acc (accStatus cfg) (fun s n => s.hs = .statusMessage ∧ s.statusMessage.length + n ≤ 1024) _ ?_ ?_ ?_ t s
    ⟨hs, hl⟩ hok
  · intro s; simp [accStatus, rawAdd_nil]
  · intro s a b; simp [accStatus, rawAdd_append]
  · rintro s c n ⟨h1, h2⟩ hc3
    have hc3 : isControl c = false := hc3
    rw [hstep_raw]
    simp only [hswitch, h1, hc3, ne_of_control hc3 control_cr, ne_of_control hc3 control_lf, if_false,
      STATUS_MESSAGE_MAX, Bool.false_eq_true, show ¬ 1024 ≤ s.statusMessage.length from by omega, accStatus,
      List.length_append, List.length_singleton, true_and]
    omega

theorem steps_name (cfg : Cfg) (t : Bytes) (s : S) (hs : s.hs = .headerName)
    (hl : s.headerName.length + t.length ≤ 1024)
    (hok : ∀ c ∈ t, badToken c = false) : Steps (hstep cfg) s t (accName cfg s t) := by
  refine Steps.acc (accName cfg) (fun s n => s.hs = .headerName ∧ s.headerName.length + n ≤ 1024) _ ?_ ?_ ?_ t s
    ⟨hs, hl⟩ hok
  · intro s; simp [accName, rawAdd_nil]
  · intro s a b; simp [accName, rawAdd_append]
  · rintro s c n ⟨h1, h2⟩ hc
    rw [hstep_raw]
    simp only [hswitch, h1, ne_of_bad hc badToken_colon, hc, if_false,
      HEADER_NAME_MAX, Bool.false_eq_true, show ¬ 1024 ≤ s.headerName.length from by omega, accName,
      List.length_append, List.length_singleton, true_and]
    omega

theorem steps_value (cfg : Cfg) (t : Bytes) (s : S) (hs : s.hs = .headerValue)
    (hl : s.headerValue.length + t.length ≤ 1048576)
    (hok : ∀ c ∈ t, valueChar c) : Steps (hstep cfg) s t (accValue cfg s t) := by
  refine Steps.acc (accValue cfg) (fun s n => s.hs = .headerValue ∧ s.headerValue.length + n ≤ 1048576) _ ?_ ?_ ?_ t s
    ⟨hs, hl⟩ hok
  · intro s; simp [accValue, rawAdd_nil]
  · intro s a b; simp [accValue, rawAdd_append]
  · rintro s c n ⟨h1, h2⟩ hc
    have hcr : c ≠ CR := by rcases hc with rfl | hc; exacts [by decide, ne_of_control hc control_cr]
    have hlf : c ≠ LF := by rcases hc with rfl | hc; exacts [by decide, ne_of_control hc control_lf]
    have hb : (decide (c ≠ 0x09) && isControl c) = false := by rcases hc with rfl | hc <;> simp_all
    rw [hstep_raw]
    simp only [hswitch, h1, hcr, hlf, hb, if_false, HEADER_VALUE_MAX, Bool.false_eq_true,
      show ¬ 1024 * 1024 ≤ s.headerValue.length from by omega, accValue,
      List.length_append, List.length_singleton, true_and]
    omega

/-! ### Decimal numbers -/

/-- Reading digits into 16 bits. -/
def dec16 (v : Nat) (t : Bytes) : Nat := t.foldl (fun v c => (v * 10 + digitVal c) % 65536) v

theorem dec16_append (v : Nat) (a b : Bytes) : dec16 (dec16 v a) b = dec16 v (a ++ b) := by
  simp [dec16, List.foldl_append]

theorem dec16_eq (t : Bytes) : ∀ v, v < 65536 → dec16 v t = (t.foldl (fun n c => 10 * n + digitVal c) v) % 65536 := by
  induction t with
  | nil => intro v hv; simp [dec16, Nat.mod_eq_of_lt hv]
  | cons c t ih =>
    intro v hv
    have key : ∀ (l : Bytes) (a : Nat), (l.foldl (fun n c => 10 * n + digitVal c) (a % 65536)) % 65536
        = (l.foldl (fun n c => 10 * n + digitVal c) a) % 65536 := by
      intro l
      induction l with
      | nil => intro a; simp
      | cons d l ihl =>
        intro a
        simp only [List.foldl_cons]
        rw [← ihl (10 * (a % 65536) + digitVal d), ← ihl (10 * a + digitVal d)]
        congr 2; omega
    have := ih ((v * 10 + digitVal c) % 65536) (Nat.mod_lt _ (by omega))
    rw [key] at this
    simp only [dec16, List.foldl_cons] at this ⊢
    rw [this, Nat.mul_comm v 10]

theorem digitVal_lt {c : UInt8} (h : isDigit c = true) : digitVal c < 10 := by
  revert h c; decide +kernel

/-- The first digit is stored, the others are accumulated. -/
theorem dec16_toDec (n : Nat) (hn : n < 65536) (c : UInt8) (t : Bytes) (h : toDec n = c :: t) :
    dec16 (digitVal c) t = n := by
  have hd := toDec_isDigit n c (by rw [h]; simp)
  rw [dec16_eq _ _ (by have := digitVal_lt hd; omega)]
  have := decVal_toDec n
  rw [h] at this
  simp only [decVal, List.foldl_cons, Nat.mul_zero, Nat.zero_add] at this
  rw [this, Nat.mod_eq_of_lt hn]

def accMajor (cfg : Cfg) (s : S) (t : Bytes) : S :=
  { s with msg := { s.msg with verMajor := dec16 s.msg.verMajor t }, raw := rawAdd cfg s.raw t }
def accMinor (cfg : Cfg) (s : S) (t : Bytes) : S :=
  { s with msg := { s.msg with verMinor := dec16 s.msg.verMinor t }, raw := rawAdd cfg s.raw t }
def accCode (cfg : Cfg) (s : S) (t : Bytes) : S :=
  { s with statusCode := dec16 s.statusCode t, raw := rawAdd cfg s.raw t }

theorem digit_ne {c d : UInt8} (h : isDigit c = true) (hd : isDigit d = false) : c ≠ d := by
  rintro rfl; rw [h] at hd; cases hd

theorem steps_major (cfg : Cfg) (t : Bytes) (s : S) (hs : s.hs = .verMajor)
    (hok : ∀ c ∈ t, isDigit c = true) : Steps (hstep cfg) s t (accMajor cfg s t) := by
  refine Steps.acc (accMajor cfg) (fun s _ => s.hs = .verMajor) _ ?_ ?_ ?_ t s hs hok
  · intro s; simp [accMajor, rawAdd_nil, dec16]
  · intro s a b; simp [accMajor, rawAdd_append, dec16_append]
  · intro s c n h1 hc
    rw [hstep_raw]
    simp only [hswitch, h1, hc, digit_ne hc (show isDigit (c! ".") = false by decide), if_true, if_false]
    exact ⟨by simp only [accMajor, h1]; rfl, h1⟩

theorem steps_minor (cfg : Cfg) (t : Bytes) (s : S) (hs : s.hs = .verMinor)
    (hok : ∀ c ∈ t, isDigit c = true) : Steps (hstep cfg) s t (accMinor cfg s t) := by
  refine Steps.acc (accMinor cfg) (fun s _ => s.hs = .verMinor) _ ?_ ?_ ?_ t s hs hok
  · intro s; simp [accMinor, rawAdd_nil, dec16]
  · intro s a b; simp [accMinor, rawAdd_append, dec16_append]
  · intro s c n h1 hc
    rw [hstep_raw]
    simp only [hswitch, h1, hc, digit_ne hc (show isDigit (c! " ") = false by decide),
      digit_ne hc (show isDigit CR = false by decide), digit_ne hc (show isDigit LF = false by decide), if_true, if_false]
    exact ⟨by simp only [accMinor, h1]; rfl, h1⟩

theorem steps_code (cfg : Cfg) (t : Bytes) (s : S) (hs : s.hs = .statusCode)
    (hok : ∀ c ∈ t, isDigit c = true) : Steps (hstep cfg) s t (accCode cfg s t) := by
  refine Steps.acc (accCode cfg) (fun s _ => s.hs = .statusCode) _ ?_ ?_ ?_ t s hs hok
  · intro s; simp [accCode, rawAdd_nil, dec16]
  · intro s a b; simp [accCode, rawAdd_append, dec16_append]
  · intro s c n h1 hc
    rw [hstep_raw]
    simp only [hswitch, h1, hc, digit_ne hc (show isDigit (c! " ") = false by decide), if_true, if_false]
    exact ⟨by simp only [accCode, h1]; rfl, h1⟩

/-! ### First lines -/

/-- The version text. -/
theorem steps_version (cfg : Cfg) (s : S) (hs : s.hs = .verH) (major minor : Nat) (h1 : major < 65536)
    (h2 : minor < 65536) : Steps (hstep cfg) s (versionText major minor)
      { s with
          hs := .verMinor, msg := { s.msg with verMajor := major, verMinor := minor },
          raw := rawAdd cfg s.raw (versionText major minor) } := by
  obtain ⟨c1, t1, e1⟩ : ∃ c t, toDec major = c :: t := List.exists_cons_of_ne_nil (toDec_ne_nil _)
  obtain ⟨c2, t2, e2⟩ : ∃ c t, toDec minor = c :: t := List.exists_cons_of_ne_nil (toDec_ne_nil _)
  have v1 := dec16_toDec major h1 c1 t1 e1
  have v2 := dec16_toDec minor h2 c2 t2 e2
  have d1 := toDec_isDigit major
  have d2 := toDec_isDigit minor
  rw [e1] at d1; rw [e2] at d2
  have hc1 := d1 c1 (by simp)
  have hc2 := d2 c2 (by simp)
  have key : versionText major minor = b! "HTTP/" ++ ([c1] ++ (t1 ++ ([0x2e] ++ ([c2] ++ t2)))) := by
    simp [versionText, e1, e2]
  rw [key]
  have p0 : Steps (hstep cfg) s (b! "HTTP/") { s with hs := .verMajorStart, raw := rawAdd cfg s.raw (b! "HTTP/") } := by
    refine .cons (t := { s with hs := .verT1, raw := rawAdd cfg s.raw (b! "H") }) (by rw [hstep_raw]; simp [hswitch, hs, CR, LF]) ?_
    refine .cons (t := { s with hs := .verT2, raw := rawAdd cfg s.raw (b! "HT") })
      (by rw [hstep_raw]; simp [hswitch, rawAdd_append]) ?_
    refine .cons (t := { s with hs := .verP, raw := rawAdd cfg s.raw (b! "HTT") })
      (by rw [hstep_raw]; simp [hswitch, rawAdd_append]) ?_
    refine .cons (t := { s with hs := .verSlash, raw := rawAdd cfg s.raw (b! "HTTP") })
      (by rw [hstep_raw]; simp [hswitch, rawAdd_append]) ?_
    exact .one (by rw [hstep_raw]; simp [hswitch, rawAdd_append])
  refine p0.trans ?_
  refine Steps.trans (t := { s with
      hs := .verMajor, msg := { s.msg with verMajor := digitVal c1 },
      raw := rawAdd cfg s.raw (b! "HTTP/" ++ [c1]) }) (.one (by rw [hstep_raw]; simp [hswitch, hc1, rawAdd_append])) ?_
  refine Steps.trans (steps_major cfg t1 _ rfl (fun c hc => d1 c (by simp [hc]))) ?_
  refine Steps.trans (t := { s with
      hs := .verMinorStart, msg := { s.msg with verMajor := major },
      raw := rawAdd cfg s.raw (b! "HTTP/" ++ [c1] ++ t1 ++ b! ".") })
    (.one (by rw [hstep_raw]; simp [hswitch, accMajor, rawAdd_append, v1])) ?_
  refine Steps.trans (t := { s with
      hs := .verMinor, msg := { s.msg with verMajor := major, verMinor := digitVal c2 },
      raw := rawAdd cfg s.raw (b! "HTTP/" ++ [c1] ++ t1 ++ b! "." ++ [c2]) })
    (.one (by rw [hstep_raw]; simp [hswitch, hc2, rawAdd_append])) ?_
  have := steps_minor cfg t2 { s with
      hs := .verMinor, msg := { s.msg with verMajor := major, verMinor := digitVal c2 },
      raw := rawAdd cfg s.raw (b! "HTTP/" ++ [c1] ++ t1 ++ b! "." ++ [c2]) } rfl (fun c hc => d2 c (by simp [hc]))
  simpa [accMinor, rawAdd_append, v2] using this

/-- A request line. -/
theorem steps_requestLine (cfg : Cfg) (s : S) (hr : cfg.isRequest = true) (hs : s.hs = .methodStart)
    (method resource query : Bytes) (major minor : Nat) (ok : RequestLineOk method resource query major minor)
    (hq : s.query = []) :
    Steps (hstep cfg) s (requestLine method resource query major minor)
      { s with
          hs := .headerStart, method := method, resource := resource, query := query,
          msg := { s.msg with verMajor := major, verMinor := minor },
          raw := rawAdd cfg s.raw (requestLine method resource query major minor) } := by
  obtain ⟨c, t, e⟩ := List.exists_cons_of_ne_nil ok.methodOk.nonempty
  subst e
  have hbad := ok.methodOk.chars
  have hc := hbad c (by simp)
  have key : requestLine (c :: t) resource query major minor = [c] ++ (t ++ (b! " " ++ (resource ++
      ((if query.isEmpty then [] else b! "?" ++ query) ++ (b! " " ++ (versionText major minor ++ ([0x0d] ++ [0x0a]))))))) := by
    simp [requestLine, CRLF]
  have hsz := ok.methodOk.size
  simp only [List.length_cons] at hsz
  rw [key]
  refine Steps.trans (t := { s with hs := .method, method := [c], raw := rawAdd cfg s.raw [c] }) (.one ?_) ?_
  · rw [hstep_raw]
    simp [hswitch, hs, hc, ne_of_bad hc badToken_space, ne_of_bad hc badToken_cr, ne_of_bad hc badToken_lf]
  refine Steps.trans (steps_method cfg t _ rfl (by simp only [List.length_singleton]; omega) (fun x hx => hbad x (by simp [hx]))) ?_
  refine Steps.trans (t := { s with
      hs := .uriStem, method := c :: t, resource := [],
      raw := rawAdd cfg s.raw ([c] ++ t ++ b! " ") }) (.one ?_) ?_
  · rw [hstep_raw]; simp [hswitch, accMethod, rawAdd_append]
  refine Steps.trans (steps_resource cfg resource _ rfl (by simpa using ok.resourceSize) ok.resourceOk) ?_
  refine Steps.trans (b := b! " " ++ _) (t := { s with
      hs := if query.isEmpty then .uriStem else .uriQuery, method := c :: t, resource := resource, query := query,
      raw := rawAdd cfg s.raw ([c] ++ t ++ b! " " ++ resource ++ (if query.isEmpty then [] else b! "?" ++ query)) }) ?_ ?_
  · cases query with
    | nil => simp only [List.isEmpty_nil, if_true]
             intro rest
             simp only [List.nil_append, accResource, rawAdd_append, List.append_nil, List.append_assoc, hq]
    | cons q1 q =>
      simp only [List.isEmpty_cons, Bool.false_eq_true, if_false]
      refine Steps.trans (t := { s with
          hs := .uriQuery, method := c :: t, resource := resource, query := [],
          raw := rawAdd cfg s.raw ([c] ++ t ++ b! " " ++ resource ++ b! "?") }) (.one ?_) ?_
      · rw [hstep_raw]; simp [hswitch, accResource, rawAdd_append]
      · have := steps_query cfg (q1 :: q) { s with
          hs := .uriQuery, method := c :: t, resource := resource, query := [],
          raw := rawAdd cfg s.raw ([c] ++ t ++ b! " " ++ resource ++ b! "?") } rfl
          (by simpa using ok.querySize) ok.queryOk
        simpa [accQuery, rawAdd_append] using this
  refine Steps.trans (t := { s with
      hs := .verH, method := c :: t, resource := resource, query := query,
      raw := rawAdd cfg s.raw ([c] ++ t ++ b! " " ++ resource ++ (if query.isEmpty then [] else b! "?" ++ query) ++ b! " ") })
      (.one ?_) ?_
  · rw [hstep_raw]
    cases query <;> simp [hswitch, rawAdd_append]
  refine Steps.trans (steps_version cfg _ rfl major minor ok.majorOk.2 ok.minorOk) ?_
  have hne : (major == 0) = false := by
    have := ok.majorOk.1; rw [beq_eq_false_iff_ne]; omega
  refine Steps.trans (t := { s with
      hs := .expNewline, method := c :: t, resource := resource, query := query,
      msg := { s.msg with verMajor := major, verMinor := minor },
      raw := rawAdd cfg s.raw ([c] ++ t ++ b! " " ++ resource ++ (if query.isEmpty then [] else b! "?" ++ query) ++ b! " "
      ++ versionText major minor ++ [0x0d]) }) (.one ?_) (.one ?_)
  · rw [hstep_raw]; simp [hswitch, rawAdd_append, CR, hr]
  · rw [hstep_raw]; simp [hswitch, rawAdd_append, LF, hne]

/-- A status line. -/
theorem steps_statusLine (cfg : Cfg) (s : S) (hr : cfg.isRequest = false) (hs : s.hs = .verH)
    (major minor code : Nat) (text : Bytes) (ok : StatusLineOk major minor code text) :
    Steps (hstep cfg) s (statusLine major minor code text)
      { s with
          hs := .headerStart, statusCode := code, statusMessage := text,
          msg := { s.msg with verMajor := major, verMinor := minor },
          raw := rawAdd cfg s.raw (statusLine major minor code text) } := by
  obtain ⟨c, t, e⟩ : ∃ c t, toDec code = c :: t := List.exists_cons_of_ne_nil (toDec_ne_nil _)
  have v := dec16_toDec code ok.codeOk c t e
  have d := toDec_isDigit code
  rw [e] at d
  have hc := d c (by simp)
  have key : statusLine major minor code text = versionText major minor ++ (b! " " ++ ([c] ++ (t ++ (b! " " ++ (text ++
      ([0x0d] ++ [0x0a])))))) := by simp [statusLine, CRLF, e]
  rw [key]
  refine Steps.trans (steps_version cfg s hs major minor ok.majorOk ok.minorOk) ?_
  refine Steps.trans (t := { s with
      hs := .statusCodeStart, msg := { s.msg with verMajor := major, verMinor := minor },
      raw := rawAdd cfg s.raw (versionText major minor ++ b! " ") }) (.one ?_) ?_
  · rw [hstep_raw]; simp [hswitch, rawAdd_append, hr]
  refine Steps.trans (t := { s with
      hs := .statusCode, statusCode := digitVal c,
      msg := { s.msg with verMajor := major, verMinor := minor },
      raw := rawAdd cfg s.raw (versionText major minor ++ b! " " ++ [c]) }) (.one ?_) ?_
  · rw [hstep_raw]; simp [hswitch, rawAdd_append, hc]
  refine Steps.trans (steps_code cfg t _ rfl (fun x hx => d x (by simp [hx]))) ?_
  refine Steps.trans (t := { s with
      hs := .statusMessage, statusCode := code, statusMessage := [],
      msg := { s.msg with verMajor := major, verMinor := minor },
      raw := rawAdd cfg s.raw (versionText major minor ++ b! " " ++ [c] ++ t ++ b! " ") }) (.one ?_) ?_
  · rw [hstep_raw]; simp [hswitch, rawAdd_append, accCode, v]
  refine Steps.trans (steps_status cfg text _ rfl (by simpa using ok.textSize) ok.textOk) ?_
  refine Steps.trans (t := { s with
      hs := .expNewline, statusCode := code, statusMessage := text,
      msg := { s.msg with verMajor := major, verMinor := minor },
      raw := rawAdd cfg s.raw (versionText major minor ++ b! " " ++ [c] ++ t ++ b! " " ++ text ++ [0x0d]) })
      (.one ?_) (.one ?_)
  · rw [hstep_raw]; simp [hswitch, rawAdd_append, accStatus, CR]
  · rw [hstep_raw]; simp [hswitch, rawAdd_append, LF, hr]

/-! ### Header lines -/

theorem steps_headerLine (cfg : Cfg) (s : S) (hv : cfg.isRequest = true → s.msg.verMajor ≠ 0) (hs : s.hs = .headerStart)
    (e : Bytes × Bytes) (ok : HeaderOk e) :
    Steps (hstep cfg) s (headerLine e)
      { s with
          headerName := e.1, headerValue := e.2, msg := { s.msg with headers := s.msg.headers.insert e.1 e.2 },
          raw := rawAdd cfg s.raw (headerLine e) } := by
  obtain ⟨name, value⟩ := e
  obtain ⟨c, t, e⟩ := List.exists_cons_of_ne_nil ok.name.nonempty
  simp only at e
  subst e
  have hbad := ok.name.chars
  have hc := hbad c (by simp)
  have hsz := ok.name.size
  simp only [List.length_cons] at hsz
  have key : headerLine (c :: t, value) = [c] ++ (t ++ (b! ":" ++ (b! " " ++ (value ++ ([0x0d] ++ [0x0a]))))) := by
    simp [headerLine, CRLF]
  rw [key]
  refine Steps.trans (t := { s with hs := .headerName, headerName := [c], raw := rawAdd cfg s.raw [c] }) (.one ?_) ?_
  · rw [hstep_raw]
    simp [hswitch, hs, hc, ne_of_bad hc badToken_space, ne_of_bad hc badToken_cr, ne_of_bad hc badToken_lf,
      ne_of_bad hc badToken_tab, S.startName]
  refine Steps.trans (steps_name cfg t _ rfl (by simp only [List.length_singleton]; omega) (fun x hx => hbad x (by simp [hx]))) ?_
  refine Steps.trans (t := { s with
      hs := .spaceBeforeValue, headerName := c :: t, headerValue := [],
      raw := rawAdd cfg s.raw ([c] ++ t ++ b! ":") }) (.one ?_) ?_
  · rw [hstep_raw]; simp [hswitch, accName, rawAdd_append]
  refine Steps.trans (t := { s with
      hs := .headerValue, headerName := c :: t, headerValue := [],
      raw := rawAdd cfg s.raw ([c] ++ t ++ b! ": ") }) (.one ?_) ?_
  · rw [hstep_raw]; simp [hswitch, rawAdd_append]
  refine Steps.trans (steps_value cfg value _ rfl (by simpa using ok.size) ok.value) ?_
  refine Steps.trans (t := { s with
      hs := .expNewline, headerName := c :: t, headerValue := value,
      msg := { s.msg with headers := s.msg.headers.insert (c :: t) value },
      raw := rawAdd cfg s.raw ([c] ++ t ++ b! ": " ++ value ++ [0x0d]) }) (.one ?_) (.one ?_)
  · rw [hstep_raw]; simp [hswitch, rawAdd_append, accValue, CR, S.addHeader]
  · have hne : (cfg.isRequest && s.msg.verMajor == 0) = false := by
      cases hr : cfg.isRequest with
      | false => rfl
      | true => have := hv hr; simp [this]
    rw [hstep_raw]; simp [hswitch, rawAdd_append, LF, hs, hne]

theorem steps_headers (cfg : Cfg) (hs : Dict) : ∀ (s : S), (cfg.isRequest = true → s.msg.verMajor ≠ 0) →
    s.hs = .headerStart → (∀ e ∈ hs, HeaderOk e) →
    ∃ n v, Steps (hstep cfg) s (hs.map headerLine).flatten
      { s with
          headerName := n, headerValue := v, msg := { s.msg with headers := s.msg.headers ++ hs },
          raw := rawAdd cfg s.raw (hs.map headerLine).flatten } := by
  induction hs with
  | nil => intro s _ _ _
           refine ⟨s.headerName, s.headerValue, ?_⟩
           simp only [List.map_nil, List.flatten_nil, rawAdd_nil, List.append_nil]
           exact .nil s
  | cons e hs ih =>
    intro s h1 h2 h3
    have p := steps_headerLine cfg s h1 h2 e (h3 e (by simp))
    obtain ⟨n, v, q⟩ := ih { s with
      headerName := e.1, headerValue := e.2, msg := { s.msg with headers := s.msg.headers.insert e.1 e.2 },
      raw := rawAdd cfg s.raw (headerLine e) } h1 h2 (fun x hx => h3 x (by simp [hx]))
    refine ⟨n, v, ?_⟩
    have := p.trans q
    simpa [rawAdd_append, Dict.insert] using this

/-- The end of the headers. -/
theorem run_headersEnd (cfg : Cfg) (s : S) (hs : s.hs = .headerStart) (rest : Bytes) :
    run (hstep cfg) s (CRLF ++ rest) =
      (.yes, { s with hs := .expFinalNewline, raw := rawAdd cfg s.raw CRLF }, rest) := by
  have h1 : hstep cfg s 0x0d = .more { s with hs := .expFinalNewline, raw := rawAdd cfg s.raw [0x0d] } := by
    rw [hstep_raw]; simp [hswitch, hs, CR]
  have h2 : hstep cfg { s with hs := .expFinalNewline, raw := rawAdd cfg s.raw [0x0d] } 0x0a =
      .done { s with hs := .expFinalNewline, raw := rawAdd cfg s.raw CRLF } true := by
    rw [hstep_raw]; simp [hswitch, LF, rawAdd_append, CRLF]
  simp only [CRLF, List.cons_append, List.nil_append, run, h1, h2]

theorem run_headerBlock (cfg : Cfg) (hs : Dict) (s : S) (h1 : cfg.isRequest = true → s.msg.verMajor ≠ 0)
    (h2 : s.hs = .headerStart) (h3 : ∀ e ∈ hs, HeaderOk e) (rest : Bytes) :
    ∃ n v, run (hstep cfg) s (headerBlock hs ++ rest) =
      (.yes, { s with
          hs := .expFinalNewline, headerName := n, headerValue := v,
          msg := { s.msg with headers := s.msg.headers ++ hs },
          raw := rawAdd cfg s.raw (headerBlock hs) }, rest) := by
  obtain ⟨n, v, h⟩ := steps_headers cfg hs s h1 h2 h3
  refine ⟨n, v, ?_⟩
  rw [headerBlock, List.append_assoc, h, run_headersEnd cfg]
  · simp [rawAdd_append]
  · exact h2

end Verif.Http
