import Verif.Lemmas.HttpLimits
import Verif.Props.HttpBody
/-
C16: the parts of a message head are limited.
-/
namespace Verif.Props.HttpLimits
open Verif.Http Verif.Props.HttpSegmentation Verif.Props.HttpBody

/-- **C16, no field exceeds its limit.** Whatever a program does with a parser — feed it arbitrary buffers, report lost
    data, reset it, use it on further messages that are within the limits — the message never has a method, resource,
    query string, status message, header name or header value above its maximum. Every configuration, every history,
    every state in between (also inside a message and after errors). -/
theorem fields_within_limits (cfg : Cfg) (s : S) (h : Reach cfg Within s) : Within s.msg :=
  (reach_WI (fun _ h => h) h).msg

-- new messages are within the limits, so there are reachable states
theorem within_new : Within {} := ⟨by decide, by decide, by decide, by decide, by decide, by simp, by simp⟩
example : Reach reqCfg Within (fresh reqCfg {}) := .fresh _ within_new
example : ∃ rc s rest, parse reqCfg (fresh reqCfg {}) exampleStream = some (rc, s, rest) ∧ Within s.msg ∧
    s.msg.headers.length = 1 := by
  obtain ⟨r, t, _, hr⟩ := parse_runs reqCfg (fresh reqCfg {}) exampleStream
  refine ⟨_, _, _, hr, fields_within_limits reqCfg _ (.data (.fresh _ within_new) hr), ?_⟩
  have : (parse reqCfg (fresh reqCfg {}) exampleStream).map (fun r => r.2.1.msg.headers.length) = some 1 := by decide +kernel
  rw [hr] at this
  simpa using this

/-! ### Exceeding input fails with the specific error -/

/-- The stream makes a new parser fail with error `e`, however it is cut. -/
def FailsWith (cfg : Cfg) (m : Msg) (stream : Bytes) (e : Err) : Prop :=
  ∀ bufs, Cuts bufs stream → ∃ o, outcome cfg (fresh cfg m) bufs = some o ∧ o.result = .no ∧ o.error = some e

/-- A new parser, about to read headers. -/
def start (cfg : Cfg) (m : Msg) : S := (enterH (fresh cfg m)).setL 0

theorem failsWith (cfg : Cfg) (m : Msg) (hm : m.missing = false) (p rest : Bytes) (c : UInt8) (s s' : S) (e : Err)
    (h : Steps (hstep cfg) (start cfg m) p s) (hf : hstep cfg s c = .fail s' e) : FailsWith cfg m (p ++ c :: rest) e := by
  intro bufs hcut
  rw [outcome_cuts cfg _ hcut (by simp)]
  have hrun : run (hstep cfg) (start cfg m) (p ++ c :: rest) = (.no, { s' with ec := some e }, c :: rest) := by
    rw [h]; simp only [run, hf]
  have hi : iter cfg (fresh cfg m) (p ++ c :: rest) = (.no, { s' with ec := some e }, c :: rest) := by
    rw [iter_headers cfg _ _ (.inl rfl), parseHeaders_eq]
    have : (enterH (fresh cfg m)).setL 0 = start cfg m := rfl
    rw [this, hrun]
    simp [count, postH]
  exact ⟨_, outcome_of_iter cfg (parseBegin_fresh cfg m hm) hi (.inl (by simp)), rfl, rfl⟩

/-- The part of a request line before the resource. -/
theorem steps_start_method (cfg : Cfg) (m : Msg) (hr : cfg.isRequest = true) (t : Bytes) (hne : t ≠ [])
    (hbad : ∀ c ∈ t, badToken c = false) (hl : t.length ≤ 1024) :
    Steps (hstep cfg) (start cfg m) t { start cfg m with hs := .method, method := t, raw := rawAdd cfg [] t } := by
  obtain ⟨c, t, e⟩ := List.exists_cons_of_ne_nil hne
  subst e
  have hc := hbad c (by simp)
  simp only [List.length_cons] at hl
  rw [show c :: t = [c] ++ t from rfl]
  refine Steps.trans (t := { start cfg m with hs := .method, method := [c], raw := rawAdd cfg [] [c] }) (.one ?_) ?_
  · rw [hstep_raw]
    simp [hswitch, start, enterH, fresh, S.setL, initHs, hr, hc, ne_of_bad hc badToken_space, ne_of_bad hc badToken_cr,
      ne_of_bad hc badToken_lf]
  · have := steps_method cfg t { start cfg m with hs := .method, method := [c], raw := rawAdd cfg [] [c] } rfl
      (by simp only [List.length_singleton]; omega) (fun x hx => hbad x (by simp [hx]))
    simpa [accMethod, rawAdd_append] using this

/-- A method of more than 1024 characters. -/
theorem method_too_long (cfg : Cfg) (m : Msg) (hm : m.missing = false) (hr : cfg.isRequest = true)
    (t rest : Bytes) (c : UInt8) (hl : t.length = 1024) (hbad : ∀ x ∈ t ++ [c], badToken x = false) :
    FailsWith cfg m (t ++ c :: rest) .methodSize := by
  have hne : t ≠ [] := by rintro rfl; simp at hl
  refine failsWith cfg m hm t rest c _
    { start cfg m with hs := .method, method := t, raw := rawAdd cfg [] (t ++ [c]) } _
    (steps_start_method cfg m hr t hne (fun x hx => hbad x (by simp [hx])) (by omega)) ?_
  · have hc := hbad c (by simp)
    rw [hstep_raw]
    simp [hswitch, hc, ne_of_bad hc badToken_space, METHOD_MAX, hl, rawAdd_append]

theorem steps_start_resource (cfg : Cfg) (m : Msg) (hr : cfg.isRequest = true) (method resource : Bytes)
    (hmeth : Token method) (hres : ∀ c ∈ resource, uriChar c) (hl : resource.length ≤ 262144) :
    Steps (hstep cfg) (start cfg m) (method ++ b! " " ++ resource)
      { start cfg m with
          hs := .uriStem, method := method, resource := resource, raw := rawAdd cfg [] (method ++ b! " " ++ resource) } := by
  refine Steps.trans (Steps.trans (steps_start_method cfg m hr method hmeth.nonempty hmeth.chars hmeth.size)
    (t := { start cfg m with
          hs := .method, method := method, raw := rawAdd cfg [] method })
    (u := { start cfg m with
          hs := .uriStem, method := method, resource := [], raw := rawAdd cfg [] (method ++ b! " ") }) (.one ?_)) ?_
  · rw [hstep_raw]; simp [hswitch, rawAdd_append]
  · have := steps_resource cfg resource { start cfg m with
          hs := .uriStem, method := method, resource := [], raw := rawAdd cfg [] (method ++ b! " ") } rfl
      (by simpa using hl) hres
    simpa [accResource, rawAdd_append] using this

/-- A resource of more than 262144 characters. -/
theorem resource_too_long (cfg : Cfg) (m : Msg) (hm : m.missing = false) (hr : cfg.isRequest = true)
    (method t rest : Bytes) (c : UInt8) (hmeth : Token method) (hl : t.length = 262144)
    (hres : ∀ x ∈ t ++ [c], uriChar x) :
    FailsWith cfg m (method ++ b! " " ++ t ++ c :: rest) .uriSize := by
  refine failsWith cfg m hm _ rest c _
    { start cfg m with
        hs := .uriStem, method := method, resource := t, raw := rawAdd cfg [] (method ++ b! " " ++ t ++ [c]) } _
    (steps_start_resource cfg m hr method t hmeth (fun x hx => hres x (by simp [hx])) (by omega)) ?_
  have hc := hres c (by simp)
  rw [hstep_raw]
  simp [hswitch, hc.1, hc.2.1, hc.2.2, ne_of_control hc.2.2 control_cr, ne_of_control hc.2.2 control_lf, RESOURCE_MAX, hl,
    rawAdd_append]

/-- A query string of more than 1048576 characters. -/
theorem query_too_long (cfg : Cfg) (m : Msg) (hm : m.missing = false) (hr : cfg.isRequest = true)
    (method resource t rest : Bytes) (c : UInt8) (hmeth : Token method) (hres : ∀ c ∈ resource, uriChar c)
    (hrl : resource.length ≤ 262144) (hl : t.length = 1048576) (hq : ∀ x ∈ t ++ [c], queryChar x) :
    FailsWith cfg m (method ++ b! " " ++ resource ++ b! "?" ++ t ++ c :: rest) .querySize := by
  refine failsWith cfg m hm _ rest c
    { start cfg m with
        hs := .uriQuery, method := method, resource := resource, query := t,
        raw := rawAdd cfg [] (method ++ b! " " ++ resource ++ b! "?" ++ t) }
    { start cfg m with
        hs := .uriQuery, method := method, resource := resource, query := t,
        raw := rawAdd cfg [] (method ++ b! " " ++ resource ++ b! "?" ++ t ++ [c]) } _
    (Steps.trans (Steps.trans (steps_start_resource cfg m hr method resource hmeth hres hrl)
      (u := { start cfg m with
        hs := .uriQuery, method := method, resource := resource, query := [],
        raw := rawAdd cfg [] (method ++ b! " " ++ resource ++ b! "?") }) (.one ?_)) ?_) ?_
  · rw [hstep_raw]; simp [hswitch, rawAdd_append]
  · have := steps_query cfg t { start cfg m with
        hs := .uriQuery, method := method, resource := resource, query := [],
        raw := rawAdd cfg [] (method ++ b! " " ++ resource ++ b! "?") } rfl (by simp [hl])
      (fun x hx => hq x (by simp [hx]))
    simpa [accQuery, rawAdd_append] using this
  · have hc := hq c (by simp)
    rw [hstep_raw]
    simp [hswitch, hc.1, hc.2, ne_of_control hc.2 control_cr, ne_of_control hc.2 control_lf, QUERY_STRING_MAX, hl,
      rawAdd_append]

/-- A status message of more than 1024 characters. -/
theorem status_too_long (cfg : Cfg) (m : Msg) (hm : m.missing = false) (hr : cfg.isRequest = false)
    (major minor code : Nat) (h1 : major < 65536) (h2 : minor < 65536) (h3 : code < 65536)
    (t rest : Bytes) (x : UInt8) (hl : t.length = 1024) (hq : ∀ y ∈ t ++ [x], textChar y) :
    FailsWith cfg m (versionText major minor ++ b! " " ++ toDec code ++ b! " " ++ t ++ x :: rest) .statusChar := by
  obtain ⟨c, d, e⟩ : ∃ c t, toDec code = c :: t := List.exists_cons_of_ne_nil (toDec_ne_nil _)
  have v := dec16_toDec code h3 c d e
  have dg := toDec_isDigit code
  rw [e] at dg
  have hc := dg c (by simp)
  have e0 : (start cfg m).hs = .verH := by simp [start, enterH, fresh, S.setL, initHs, hr]
  refine failsWith cfg m hm _ rest x
    { start cfg m with
        hs := .statusMessage, statusCode := code, statusMessage := t, msg := { m with verMajor := major, verMinor := minor },
        raw := rawAdd cfg [] (versionText major minor ++ b! " " ++ [c] ++ d ++ b! " " ++ t) }
    { start cfg m with
        hs := .statusMessage, statusCode := code, statusMessage := t, msg := { m with verMajor := major, verMinor := minor },
        raw := rawAdd cfg [] (versionText major minor ++ b! " " ++ [c] ++ d ++ b! " " ++ t ++ [x]) } _ ?_ ?_
  · rw [e, show versionText major minor ++ b! " " ++ (c :: d) ++ b! " " ++ t =
      versionText major minor ++ (b! " " ++ ([c] ++ (d ++ (b! " " ++ t)))) by simp]
    refine Steps.trans (steps_version cfg (start cfg m) e0 major minor h1 h2) ?_
    refine Steps.trans (t := { start cfg m with
        hs := .statusCodeStart, msg := { m with verMajor := major, verMinor := minor },
        raw := rawAdd cfg [] (versionText major minor ++ b! " ") }) (.one ?_) ?_
    · rw [hstep_raw]; simp [hswitch, rawAdd_append, hr, start, enterH, fresh, S.setL]
    refine Steps.trans (t := { start cfg m with
        hs := .statusCode, statusCode := digitVal c,
        msg := { m with verMajor := major, verMinor := minor },
        raw := rawAdd cfg [] (versionText major minor ++ b! " " ++ [c]) }) (.one ?_) ?_
    · rw [hstep_raw]; simp [hswitch, rawAdd_append, hc]
    refine Steps.trans (steps_code cfg d _ rfl (fun x hx => dg x (by simp [hx]))) ?_
    refine Steps.trans (t := { start cfg m with
        hs := .statusMessage, statusCode := code, statusMessage := [],
        msg := { m with verMajor := major, verMinor := minor },
        raw := rawAdd cfg [] (versionText major minor ++ b! " " ++ [c] ++ d ++ b! " ") }) (.one ?_) ?_
    · rw [hstep_raw]; simp [hswitch, rawAdd_append, accCode, v]
    · have := steps_status cfg t { start cfg m with
        hs := .statusMessage, statusCode := code, statusMessage := [],
        msg := { m with verMajor := major, verMinor := minor },
        raw := rawAdd cfg [] (versionText major minor ++ b! " " ++ [c] ++ d ++ b! " ") } rfl (by simp [hl])
        (fun y hy => hq y (by simp [hy]))
      simpa [accStatus, rawAdd_append] using this
  · have hc : isControl x = false := hq x (by simp)
    rw [hstep_raw]
    simp [hswitch, hc, ne_of_control hc control_cr, ne_of_control hc control_lf, STATUS_MESSAGE_MAX, hl, rawAdd_append]

/-- After the first line and some headers. -/
theorem steps_start_headers (cfg : Cfg) (m : Msg) (h : Head) (hs : Dict) (hr : cfg.isRequest = h.isRequest)
    (ok : h.Ok) (hok : ∀ e ∈ hs, HeaderOk e) :
    ∃ s, s.hs = .headerStart ∧ Steps (hstep cfg) (start cfg m) (h.line ++ (hs.map headerLine).flatten) s := by
  cases h with
  | request meth r q major minor =>
    have hr' : cfg.isRequest = true := hr
    have ok' : RequestLineOk meth r q major minor := ok
    have p := steps_requestLine cfg (start cfg m) hr' (by simp [start, enterH, fresh, initHs, hr', S.setL])
      meth r q major minor ok' rfl
    obtain ⟨n, v, p2⟩ := steps_headers cfg hs { start cfg m with
        hs := .headerStart, method := meth, resource := r, query := q,
        msg := { m with verMajor := major, verMinor := minor },
        raw := rawAdd cfg [] (requestLine meth r q major minor) }
      (fun _ => by have := ok'.majorOk.1; simp only; omega) rfl hok
    exact ⟨_, rfl, Steps.trans p p2⟩
  | response major minor code text =>
    have hr' : cfg.isRequest = false := hr
    have ok' : StatusLineOk major minor code text := ok
    have p := steps_statusLine cfg (start cfg m) hr' (by simp [start, enterH, fresh, initHs, hr', S.setL])
      major minor code text ok'
    obtain ⟨n, v, p2⟩ := steps_headers cfg hs { start cfg m with
        hs := .headerStart, statusCode := code, statusMessage := text,
        msg := { m with verMajor := major, verMinor := minor },
        raw := rawAdd cfg [] (statusLine major minor code text) }
      (fun h => by rw [hr'] at h; cases h) rfl hok
    exact ⟨_, rfl, Steps.trans p p2⟩

theorem steps_headerName (cfg : Cfg) (s : S) (hs : s.hs = .headerStart) (t : Bytes) (hne : t ≠ [])
    (hbad : ∀ c ∈ t, badToken c = false) (hl : t.length ≤ 1024) :
    Steps (hstep cfg) s t { s with hs := .headerName, headerName := t, raw := rawAdd cfg s.raw t } := by
  obtain ⟨c, t, e⟩ := List.exists_cons_of_ne_nil hne
  subst e
  have hc := hbad c (by simp)
  simp only [List.length_cons] at hl
  rw [show c :: t = [c] ++ t from rfl]
  refine Steps.trans (t := { s with hs := .headerName, headerName := [c], raw := rawAdd cfg s.raw [c] }) (.one ?_) ?_
  · rw [hstep_raw]
    simp [hswitch, hs, hc, ne_of_bad hc badToken_space, ne_of_bad hc badToken_cr, ne_of_bad hc badToken_lf,
      ne_of_bad hc badToken_tab, S.startName]
  · have := steps_name cfg t { s with hs := .headerName, headerName := [c], raw := rawAdd cfg s.raw [c] } rfl
      (by simp only [List.length_singleton]; omega) (fun x hx => hbad x (by simp [hx]))
    simpa [accName, rawAdd_append] using this

/-- A header name of more than 1024 characters, after any well-formed first line and headers. -/
theorem header_name_too_long (cfg : Cfg) (m : Msg) (hm : m.missing = false) (h : Head) (hs : Dict)
    (hr : cfg.isRequest = h.isRequest) (ok : h.Ok) (hok : ∀ e ∈ hs, HeaderOk e)
    (t rest : Bytes) (c : UInt8) (hl : t.length = 1024) (hbad : ∀ x ∈ t ++ [c], badToken x = false) :
    FailsWith cfg m (h.line ++ (hs.map headerLine).flatten ++ t ++ c :: rest) .headerNameSize := by
  obtain ⟨s, h1, h2⟩ := steps_start_headers cfg m h hs hr ok hok
  have hne : t ≠ [] := by rintro rfl; simp at hl
  refine failsWith cfg m hm _ rest c _ { s with
      hs := .headerName, headerName := t, raw := rawAdd cfg s.raw (t ++ [c]) } _
    (Steps.trans h2 (steps_headerName cfg s h1 t hne (fun x hx => hbad x (by simp [hx])) (by omega))) ?_
  have hc := hbad c (by simp)
  rw [hstep_raw]
  simp [hswitch, hc, ne_of_bad hc badToken_colon, HEADER_NAME_MAX, hl, rawAdd_append]

/-- A header value of more than 1048576 characters. -/
theorem header_value_too_long (cfg : Cfg) (m : Msg) (hm : m.missing = false) (h : Head) (hs : Dict)
    (hr : cfg.isRequest = h.isRequest) (ok : h.Ok) (hok : ∀ e ∈ hs, HeaderOk e) (name : Bytes) (hname : Token name)
    (t rest : Bytes) (c : UInt8) (hl : t.length = 1048576) (hbad : ∀ x ∈ t ++ [c], valueChar x) :
    FailsWith cfg m (h.line ++ (hs.map headerLine).flatten ++ (name ++ b! ": " ++ t) ++ c :: rest) .headerValueSize := by
  obtain ⟨s, h1, h2⟩ := steps_start_headers cfg m h hs hr ok hok
  refine failsWith cfg m hm _ rest c
    { s with hs := .headerValue, headerName := name, headerValue := t, raw := rawAdd cfg s.raw (name ++ b! ": " ++ t) }
    { s with hs := .headerValue, headerName := name, headerValue := t, raw := rawAdd cfg s.raw (name ++ b! ": " ++ t ++ [c]) } _
    (Steps.trans h2 ?_) ?_
  · rw [show name ++ b! ": " ++ t = name ++ (b! ":" ++ (b! " " ++ t)) by simp]
    refine Steps.trans (steps_headerName cfg s h1 name hname.nonempty hname.chars hname.size) ?_
    refine Steps.trans (t := { s with
        hs := .spaceBeforeValue, headerName := name, headerValue := [],
        raw := rawAdd cfg s.raw (name ++ b! ":") }) (.one ?_) ?_
    · rw [hstep_raw]; simp [hswitch, rawAdd_append]
    refine Steps.trans (t := { s with
        hs := .headerValue, headerName := name, headerValue := [],
        raw := rawAdd cfg s.raw (name ++ b! ": ") }) (.one ?_) ?_
    · rw [hstep_raw]; simp [hswitch, rawAdd_append]
    · have := steps_value cfg t { s with
        hs := .headerValue, headerName := name, headerValue := [],
        raw := rawAdd cfg s.raw (name ++ b! ": ") } rfl (by simp [hl]) (fun x hx => hbad x (by simp [hx]))
      simpa [accValue, rawAdd_append] using this
  · have hc := hbad c (by simp)
    rw [hstep_raw]
    rcases hc with rfl | hc
    · simp [hswitch, CR, LF, HEADER_VALUE_MAX, hl, rawAdd_append]
    · simp [hswitch, hc, ne_of_control hc control_cr, ne_of_control hc control_lf, HEADER_VALUE_MAX, hl, rawAdd_append]

-- 1024 letters are a possible beginning of a method, and the 1025th makes the request fail
def letters : Bytes := List.replicate 1024 (c! "A")
theorem letters_ok : letters.length = 1024 ∧ ∀ x ∈ letters, badToken x = false :=
  ⟨List.length_replicate, fun x hx => by rw [List.eq_of_mem_replicate hx]; decide⟩
example : FailsWith reqCfg {} (letters ++ c! "A" :: b! " / HTTP/1.1\r\n\r\n") .methodSize :=
  method_too_long reqCfg {} rfl rfl _ _ _ letters_ok.1 (by
    intro x hx
    rcases List.mem_append.mp hx with h | h
    · exact letters_ok.2 x h
    · rw [List.mem_singleton.mp h]; decide)
-- ... and 1024 are accepted
example : Token letters := ⟨by rw [← List.length_pos_iff, letters_ok.1]; decide, letters_ok.2, Nat.le_of_eq letters_ok.1⟩

end Verif.Props.HttpLimits
