import Verif.Lemmas.HttpRefusal
/-
Lemmas for C99: the header machine refuses whatever has a cause.
-/
namespace Verif.Http.Text

/-- After reading `t` from the start the machine is in state `x`. -/
def Reach (cfg : Cfg) (m : Msg) (t : Bytes) (P : S → Prop) : Prop := ∃ s, Steps (hstep cfg) (start cfg m) t s ∧ P s

theorem Reach.step {cfg : Cfg} {m : Msg} {t : Bytes} {P Q : S → Prop} (c : UInt8) (h : Reach cfg m t P)
    (hs : ∀ s, P s → ∃ s', hswitch cfg s c = .more s' ∧ Q s') (hp : ∀ s w, P s → P { s with raw := w }) :
    Reach cfg m (t ++ [c]) Q := by
  obtain ⟨s, h1, h2⟩ := h
  obtain ⟨s', h3, h4⟩ := hs _ (hp s (rawAdd cfg s.raw [c]) h2)
  exact ⟨s', h1.trans (.one (by rw [hstep_raw]; exact h3)), h4⟩

theorem Reach.trans {cfg : Cfg} {m : Msg} {t u : Bytes} {P Q : S → Prop} (h : Reach cfg m t P)
    (hs : ∀ s, P s → ∃ s', Steps (hstep cfg) s u s' ∧ Q s') : Reach cfg m (t ++ u) Q := by
  obtain ⟨s, h1, h2⟩ := h
  obtain ⟨s', h3, h4⟩ := hs s h2
  exact ⟨s', h1.trans h3, h4⟩

theorem Reach.start (cfg : Cfg) (m : Msg) : Reach cfg m [] (fun s => s.hs = initHs cfg) :=
  ⟨_, .nil _, rfl⟩

theorem reach_pre {cfg : Cfg} {m : Msg} (hr : cfg.isRequest = true) {pre : Bytes} (h : Skipped pre) :
    Reach cfg m pre (fun s => s.hs = .methodStart) := by
  have h0 : (Text.start cfg m).hs = .methodStart := by
    show initHs cfg = _
    simp [initHs, hr]
  exact ⟨_, steps_pre cfg pre _ h0 h, h0⟩

theorem reach_method {cfg : Cfg} {m : Msg} (hr : cfg.isRequest = true) {pre x : Bytes} (h : Skipped pre) (hx : Token x) :
    Reach cfg m (pre ++ x) (fun s => s.hs = .method ∧ s.method = x) := by
  obtain ⟨c, t, rfl⟩ := List.exists_cons_of_ne_nil hx.nonempty
  have hbad := hx.chars
  have hc := hbad c (by simp)
  have hsz := hx.size
  simp only [List.length_cons] at hsz
  have h1 : Reach cfg m (pre ++ [c]) (fun s => s.hs = .method ∧ s.method = [c]) :=
    (reach_pre hr h).step c (fun s hs => ⟨{ s with hs := .method, method := [c] }, by
      simp [hswitch, hs, hc, ne_of_bad hc badToken_space, ne_of_bad hc badToken_cr, ne_of_bad hc badToken_lf], rfl, rfl⟩)
      (fun s w hs => hs)
  have h2 := h1.trans (u := t) (Q := fun s => s.hs = .method ∧ s.method = c :: t) (fun s hs => ⟨_, steps_method cfg t s hs.1
    (by rw [hs.2]; simp only [List.length_singleton]; omega) (fun x hx => hbad x (by simp [hx])), hs.1, by
      show s.method ++ t = _
      rw [hs.2]; rfl⟩)
  simpa using h2

theorem reach_stem {cfg : Cfg} {m : Msg} (hr : cfg.isRequest = true) {pre x u : Bytes} (h : Skipped pre) (hx : Token x)
    (hu : ∀ c ∈ u, uriChar c) (hl : u.length ≤ 262144) :
    Reach cfg m (pre ++ x ++ b! " " ++ u) (fun s => s.hs = .uriStem ∧ s.resource = u) := by
  have h1 : Reach cfg m (pre ++ x ++ b! " ") (fun s => s.hs = .uriStem ∧ s.resource = []) :=
    (reach_method hr h hx).step (c! " ") (fun s hs => ⟨{ s with hs := .uriStem, resource := [] }, by simp [hswitch, hs.1], rfl, rfl⟩)
      (fun s w hs => hs)
  exact h1.trans (fun s hs => ⟨_, steps_resource cfg u s hs.1 (by rw [hs.2]; simpa using hl) hu, hs.1, by
    show s.resource ++ u = _
    rw [hs.2]; rfl⟩)

theorem reach_query {cfg : Cfg} {m : Msg} (hr : cfg.isRequest = true) {pre x u q : Bytes} (h : Skipped pre) (hx : Token x)
    (hu : ∀ c ∈ u, uriChar c) (hl : u.length ≤ 262144) (hq : ∀ c ∈ q, queryChar c) (hql : q.length ≤ 1048576) :
    Reach cfg m (pre ++ x ++ b! " " ++ u ++ b! "?" ++ q) (fun s => s.hs = .uriQuery ∧ s.query = q) := by
  have h1 : Reach cfg m (pre ++ x ++ b! " " ++ u ++ b! "?") (fun s => s.hs = .uriQuery ∧ s.query = []) :=
    (reach_stem hr h hx hu hl).step (c! "?") (fun s hs => ⟨{ s with hs := .uriQuery, query := [] }, by simp [hswitch, hs.1], rfl, rfl⟩)
      (fun s w hs => hs)
  exact h1.trans (fun s hs => ⟨_, steps_query cfg q s hs.1 (by rw [hs.2]; simpa using hql) hq, hs.1, by
    show s.query ++ q = _
    rw [hs.2]; rfl⟩)

theorem reach_target {cfg : Cfg} {m : Msg} (hr : cfg.isRequest = true) {t : Bytes} (h : TargetText t) :
    Reach cfg m t (fun s => s.hs = .uriStem ∨ s.hs = .uriQuery) := by
  cases h with
  | stem h1 h2 h3 h4 => obtain ⟨s, p, q⟩ := reach_stem (m := m) hr h1 h2 h3 h4; exact ⟨s, p, .inl q.1⟩
  | query h1 h2 h3 h4 h5 h6 => obtain ⟨s, p, q⟩ := reach_query (m := m) hr h1 h2 h3 h4 h5 h6; exact ⟨s, p, .inr q.1⟩

theorem reach_before {cfg : Cfg} {m : Msg} {p : Bytes} (h : BeforeVersion cfg.isRequest p) :
    Reach cfg m p (fun s => s.hs = .verH) := by
  generalize hr : cfg.isRequest = r at h
  cases h with
  | request ht =>
    refine (reach_target hr ht).step (c! " ") (fun s hs => ⟨{ s with hs := .verH }, ?_, rfl⟩) (fun s w hs => hs)
    rcases hs with hs | hs <;> simp [hswitch, hs]
  | response =>
    refine ⟨_, .nil _, ?_⟩
    show initHs cfg = _
    simp [initHs, hr]

theorem reach_letter {cfg : Cfg} {m : Msg} {p : Bytes} {l : UInt8} (h : BeforeVersion cfg.isRequest p) (hl : FirstLetter cfg.isRequest l) :
    Reach cfg m (p ++ [l]) (fun s => s.hs = .verT1) := by
  refine (reach_before h).step l (fun s hs => ?_) (fun s w hs => hs)
  rcases hl with rfl | ⟨hr, rfl | rfl⟩
  · exact ⟨{ s with hs := .verT1 }, by simp [hswitch, hs, CR, LF], rfl⟩
  · exact ⟨{ s.noVersion with hs := .verT1 }, by simp [hswitch, hs, hr, CR, LF], rfl⟩
  · exact ⟨{ s.noVersion with hs := .verT1 }, by simp [hswitch, hs, hr, CR, LF], rfl⟩

theorem reach_t {cfg : Cfg} {m : Msg} {p : Bytes} {l : UInt8} (h : BeforeVersion cfg.isRequest p) (hl : FirstLetter cfg.isRequest l) :
    Reach cfg m (p ++ [l] ++ b! "T") (fun s => s.hs = .verT2) :=
  (reach_letter h hl).step _ (fun s hs => ⟨{ s with hs := .verT2 }, by simp [hswitch, hs], rfl⟩) (fun s w hs => hs)

theorem reach_tt {cfg : Cfg} {m : Msg} {p : Bytes} {l : UInt8} (h : BeforeVersion cfg.isRequest p) (hl : FirstLetter cfg.isRequest l) :
    Reach cfg m (p ++ [l] ++ b! "TT") (fun s => s.hs = .verP) := by
  have := (reach_t (m := m) h hl).step (Q := fun s => s.hs = .verP) (c! "T")
    (fun s hs => ⟨{ s with hs := .verP }, by simp [hswitch, hs], rfl⟩) (fun s w hs => hs)
  simpa using this

theorem reach_ttp {cfg : Cfg} {m : Msg} {p : Bytes} {l : UInt8} (h : BeforeVersion cfg.isRequest p) (hl : FirstLetter cfg.isRequest l) :
    Reach cfg m (p ++ [l] ++ b! "TTP") (fun s => s.hs = .verSlash) := by
  have := (reach_tt (m := m) h hl).step (Q := fun s => s.hs = .verSlash) (c! "P")
    (fun s hs => ⟨{ s with hs := .verSlash }, by simp [hswitch, hs], rfl⟩) (fun s w hs => hs)
  simpa using this

theorem reach_slash {cfg : Cfg} {m : Msg} {p : Bytes} {l : UInt8} (h : BeforeVersion cfg.isRequest p) (hl : FirstLetter cfg.isRequest l) :
    Reach cfg m (p ++ [l] ++ b! "TTP/") (fun s => s.hs = .verMajorStart) := by
  have := (reach_ttp (m := m) h hl).step (Q := fun s => s.hs = .verMajorStart) (c! "/")
    (fun s hs => ⟨{ s with hs := .verMajorStart }, by simp [hswitch, hs], rfl⟩) (fun s w hs => hs)
  simpa using this

theorem reach_major {cfg : Cfg} {m : Msg} {p a : Bytes} {l : UInt8} {n : Nat} (h : BeforeVersion cfg.isRequest p)
    (hl : FirstLetter cfg.isRequest l) (ha : Number n a) :
    Reach cfg m (p ++ [l] ++ b! "TTP/" ++ a) (fun s => s.hs = .verMajor) := by
  obtain ⟨c, t, rfl, hc, ht, _⟩ := number_cons ha
  have h1 := (reach_slash (m := m) h hl).step (Q := fun s => s.hs = .verMajor) c
    (fun s hs => ⟨{ s with hs := .verMajor, msg := { s.msg with verMajor := digitVal c } }, by simp [hswitch, hs, hc], rfl⟩)
    (fun s w hs => hs)
  have h2 := h1.trans (u := t) (Q := fun s => s.hs = .verMajor) (fun s hs => ⟨_, steps_major cfg t s hs ht, hs⟩)
  simpa using h2

theorem reach_dot {cfg : Cfg} {m : Msg} {p a : Bytes} {l : UInt8} {n : Nat} (h : BeforeVersion cfg.isRequest p)
    (hl : FirstLetter cfg.isRequest l) (ha : Number n a) :
    Reach cfg m (p ++ [l] ++ b! "TTP/" ++ a ++ b! ".") (fun s => s.hs = .verMinorStart) :=
  (reach_major h hl ha).step _ (fun s hs => ⟨{ s with hs := .verMinorStart }, by simp [hswitch, hs], rfl⟩) (fun s w hs => hs)

theorem reach_version {cfg : Cfg} {m : Msg} {p v : Bytes} {n k : Nat} (h : BeforeVersion cfg.isRequest p)
    (hv : Version cfg.isRequest n k v) : Reach cfg m (p ++ v) (fun s => s.hs = .verMinor) :=
  (reach_before h).trans (fun s hs => ⟨_, steps_version2 cfg s hs hv, rfl⟩)

theorem reach_space {cfg : Cfg} {m : Msg} {v : Bytes} {n k : Nat} (hr : cfg.isRequest = false) (hv : Version false n k v) :
    Reach cfg m (v ++ b! " ") (fun s => s.hs = .statusCodeStart) := by
  have := (reach_version (cfg := cfg) (m := m) (p := []) (by rw [hr]; exact .response) (by rw [hr]; exact hv)).step
    (Q := fun s => s.hs = .statusCodeStart) (c! " ")
    (fun s hs => ⟨{ s with hs := .statusCodeStart }, by simp [hswitch, hs, hr], rfl⟩) (fun s w hs => hs)
  simpa using this

theorem reach_code {cfg : Cfg} {m : Msg} {v x : Bytes} {n k code : Nat} (hr : cfg.isRequest = false) (hv : Version false n k v)
    (hx : Number code x) : Reach cfg m (v ++ b! " " ++ x) (fun s => s.hs = .statusCode) := by
  obtain ⟨c, t, rfl, hc, ht, _⟩ := number_cons hx
  have h1 := (reach_space (m := m) hr hv).step (Q := fun s => s.hs = .statusCode) c
    (fun s hs => ⟨{ s with hs := .statusCode, statusCode := digitVal c }, by simp [hswitch, hs, hc], rfl⟩)
    (fun s w hs => hs)
  have h2 := h1.trans (u := t) (Q := fun s => s.hs = .statusCode) (fun s hs => ⟨_, steps_code cfg t s hs ht, hs⟩)
  simpa using h2

theorem reach_text {cfg : Cfg} {m : Msg} {v x y : Bytes} {n k code : Nat} (hr : cfg.isRequest = false) (hv : Version false n k v)
    (hx : Number code x) (hy : ∀ c ∈ y, textChar c) (hl : y.length ≤ 1024) :
    Reach cfg m (v ++ b! " " ++ x ++ b! " " ++ y) (fun s => s.hs = .statusMessage ∧ s.statusMessage = y) := by
  have h1 : Reach cfg m (v ++ b! " " ++ x ++ b! " ") (fun s => s.hs = .statusMessage ∧ s.statusMessage = []) :=
    (reach_code hr hv hx).step (c! " ")
      (fun s hs => ⟨{ s with hs := .statusMessage, statusMessage := [] }, by simp [hswitch, hs], rfl, rfl⟩)
      (fun s w hs => hs)
  exact h1.trans (fun s hs => ⟨_, steps_status cfg y s hs.1 (by rw [hs.2]; simpa using hl) hy, hs.1, by
    show s.statusMessage ++ y = _
    rw [hs.2]; rfl⟩)

theorem reach_line {cfg : Cfg} {m : Msg} {t : Bytes} (h : LineBegun cfg.isRequest t) : Reach cfg m t (fun s => Begins s.hs) := by
  obtain ⟨hd, hs, f, fs, g, le, ws, hk, hf, hfs, hg, hle, hws, rfl⟩ := h
  obtain ⟨s1, p1, r1, _⟩ := steps_firstLine (cfg := cfg) (s := start cfg m) hf hk.symm rfl rfl
  have ho := old_stored (s := start cfg m) hk.symm
  obtain ⟨s2, n, v, p2, r2, _⟩ := steps_fields hfs r1 ho
  obtain ⟨s3, p3, r3, _⟩ := steps_gap hg r2 ho
  have p4 := steps_lineEnd r3 ho hle
  have hb := begins_afterEnd le
  have p5 := steps_blanks (cfg := cfg) ws (s := { ({ stored (start cfg m) hd with
    headerName := n, headerValue := v, msg := { (stored (start cfg m) hd).msg with headers := (stored (start cfg m) hd).msg.headers ++ hs } } : S) with
      raw := rawAdd cfg s3.raw le, hs := afterEnd le }) hb hws
  exact ⟨_, (((p1.trans p2).trans p3).trans p4).trans p5, begins_blanks hb ws⟩

theorem reach_name {cfg : Cfg} {m : Msg} {t n : Bytes} (h : LineBegun cfg.isRequest t) (hn : Token n) :
    Reach cfg m (t ++ n) (fun s => s.hs = .headerName ∧ s.headerName = n) := by
  obtain ⟨c, r, rfl⟩ := List.exists_cons_of_ne_nil hn.nonempty
  have hbad := hn.chars
  have hc := hbad c (by simp)
  have hsz := hn.size
  simp only [List.length_cons] at hsz
  have h1 : Reach cfg m (t ++ [c]) (fun s => s.hs = .headerName ∧ s.headerName = [c]) :=
    (reach_line h).trans (fun s hs => ⟨_, .one (step_name hs hc), rfl, rfl⟩)
  have h2 := h1.trans (u := r) (Q := fun s => s.hs = .headerName ∧ s.headerName = c :: r) (fun s hs => ⟨_, steps_name cfg r s hs.1
    (by rw [hs.2]; simp only [List.length_singleton]; omega) (fun x hx => hbad x (by simp [hx])), hs.1, by
      show s.headerName ++ r = _
      rw [hs.2]; rfl⟩)
  simpa using h2

theorem reach_colon {cfg : Cfg} {m : Msg} {t n : Bytes} (h : LineBegun cfg.isRequest t) (hn : Token n) :
    Reach cfg m (t ++ n ++ b! ":") (fun s => s.hs = .spaceBeforeValue ∧ s.headerValue = []) :=
  (reach_name h hn).step _ (fun s hs => ⟨{ s with hs := .spaceBeforeValue, headerValue := [] }, by simp [hswitch, hs.1], rfl, rfl⟩)
    (fun s w hs => hs)

theorem reach_value {cfg : Cfg} {m : Msg} {t v : Bytes} (h : ValueBegun cfg.isRequest t v) :
    Reach cfg m t (fun s => s.hs = .headerValue ∧ s.headerValue = v) := by
  cases h with
  | spaced h hok =>
    obtain ⟨hn, hv, hsz⟩ := hok
    have h1 := (reach_colon (m := m) h hn).step (Q := fun s => s.hs = .headerValue ∧ s.headerValue = []) (c! " ")
      (fun s hs => ⟨{ s with hs := .headerValue }, by simp [hswitch, hs.1], rfl, hs.2⟩) (fun s w hs => hs)
    have h2 := h1.trans (u := v) (Q := fun s => s.hs = .headerValue ∧ s.headerValue = v) (fun s hs => ⟨_, steps_value cfg v s hs.1
      (by rw [hs.2]; simpa using hsz) hv, hs.1, by
        show s.headerValue ++ v = _
        rw [hs.2]; rfl⟩)
    simpa using h2
  | direct h hok hne hh =>
    obtain ⟨hn, hv, hsz⟩ := hok
    cases v with
    | nil => exact absurd rfl hne
    | cons d v =>
      have hd : badToken d = false := hh d (by simp)
      have h1 := (reach_colon (m := m) h hn).step (Q := fun s => s.hs = .headerValue ∧ s.headerValue = [d]) d
        (fun s hs => ⟨{ s with hs := .headerValue, headerValue := [d] }, by
          simp [hswitch, hs.1, hs.2, hd, ne_of_bad hd badToken_space, ne_of_bad hd badToken_cr, ne_of_bad hd badToken_lf], rfl, rfl⟩)
        (fun s w hs => hs)
      simp only at hsz
      have h2 := h1.trans (u := v) (Q := fun s => s.hs = .headerValue ∧ s.headerValue = d :: v) (fun s hs => ⟨_, steps_value cfg v s hs.1
        (by rw [hs.2]; simp only [List.length_cons] at hsz; simp only [List.length_singleton]; omega)
        (fun x hx => hv x (by simp [hx])), hs.1, by
          show s.headerValue ++ v = _
          rw [hs.2]; rfl⟩)
      simpa using h2

/-- Whatever has a cause is refused with its error. -/
theorem cause_fails {cfg : Cfg} {m : Msg} {e : Err} {t : Bytes} {c : UInt8} (h : Cause cfg.isRequest e t c) :
    Reach cfg m t (fun s => ∃ s', hstep cfg s c = .fail s' e) := by
  have via : ∀ {P : S → Prop}, Reach cfg m t P → (∀ s, P s → ∃ s', hswitch cfg s c = .fail s' e) →
      (hp : ∀ s w, P s → P { s with raw := w } := by exact fun _ _ h => h) →
      Reach cfg m t (fun s => ∃ s', hstep cfg s c = .fail s' e) :=
    fun ⟨s, h1, h2⟩ hs hp => let ⟨s', h3⟩ := hs _ (hp s (rawAdd cfg s.raw [c]) h2); ⟨s, h1, s', by rw [hstep_raw]; exact h3⟩
  cases h with
  | methodFirst hr h1 h2 h3 h4 h5 => exact via (reach_pre hr h1) (fun s hs => ⟨s, by simp [hswitch, hs, h2, h3, h4, h5]⟩)
  | method hr h1 h2 h3 h4 => exact via (reach_method hr h1 h2) (fun s hs => ⟨s, by simp [hswitch, hs.1, h3, h4]⟩)
  | methodSize hr h1 h2 h3 h4 =>
    exact via (reach_method hr h1 h2) (fun s hs => ⟨s, by
      simp [hswitch, hs.1, hs.2, h3, h4, METHOD_MAX, ne_of_bad h4 badToken_space]⟩)
  | uri hr h1 h2 h3 h4 h5 h6 h7 => exact via (reach_stem hr h1 h2 h3 h4) (fun s hs => ⟨s, by
      have e1 : c ≠ c! " " := by rintro rfl; revert h5; decide
      have e2 : c ≠ c! "?" := by rintro rfl; revert h5; decide
      simp [hswitch, hs.1, h5, h6, h7, e1, e2]⟩)
  | uriSize hr h1 h2 h3 h4 h5 => exact via (reach_stem hr h1 h2 h3 (by omega)) (fun s hs => ⟨s, by
      obtain ⟨e1, e2, e3⟩ := h5
      have e4 : c ≠ CR := by rintro rfl; revert e3; decide
      have e5 : c ≠ LF := by rintro rfl; revert e3; decide
      simp [hswitch, hs.1, hs.2, h4, e1, e2, e3, e4, e5, RESOURCE_MAX]⟩)
  | query hr h1 h2 h3 h4 h5 h6 h7 h8 h9 => exact via (reach_query hr h1 h2 h3 h4 h5 h6) (fun s hs => ⟨s, by
      have e1 : c ≠ c! " " := by rintro rfl; revert h7; decide
      simp [hswitch, hs.1, h7, h8, h9, e1]⟩)
  | querySize hr h1 h2 h3 h4 h5 h6 h7 => exact via (reach_query hr h1 h2 h3 h4 h5 (by omega)) (fun s hs => ⟨s, by
      obtain ⟨e1, e3⟩ := h7
      have e4 : c ≠ CR := by rintro rfl; revert e3; decide
      have e5 : c ≠ LF := by rintro rfl; revert e3; decide
      simp [hswitch, hs.1, hs.2, h6, e1, e3, e4, e5, QUERY_STRING_MAX]⟩)
  | versionEmpty hr h1 =>
    exact via (reach_before (by rw [hr]; exact .response)) (fun s hs => ⟨s, by simp [hswitch, hs, hr, h1]⟩)
  | versionFirst h1 h2 h3 h4 => exact via (reach_before h1) (fun s hs => ⟨s, by simp [hswitch, hs, h2, h3, h4]⟩)
  | @versionName p v y l _ d h1 h2 h3 h4 =>
    match v, h3 with
    | [], h3 =>
      cases h3
      exact via (by simpa using reach_letter h1 h2) (fun s hs => ⟨s, by simp [hswitch, hs, h4]⟩)
    | [_], h3 => cases h3; exact via (reach_t h1 h2) (fun s hs => ⟨s, by simp [hswitch, hs, h4]⟩)
    | [_, _], h3 => cases h3; exact via (reach_tt h1 h2) (fun s hs => ⟨s, by simp [hswitch, hs, h4]⟩)
    | [_, _, _], h3 => cases h3; exact via (reach_ttp h1 h2) (fun s hs => ⟨s, by simp [hswitch, hs, h4]⟩)
    | _ :: _ :: _ :: _ :: r, h3 => simp at h3
  | majorFirst h1 h2 h3 => exact via (reach_slash h1 h2) (fun s hs => ⟨s, by simp [hswitch, hs, h3]⟩)
  | major h1 h2 h3 h4 h5 => exact via (reach_major h1 h2 h3) (fun s hs => ⟨s, by simp [hswitch, hs, h4, h5]⟩)
  | minorFirst h1 h2 h3 h4 => exact via (reach_dot h1 h2 h3) (fun s hs => ⟨s, by simp [hswitch, hs, h4]⟩)
  | minor h1 h2 h3 h4 h5 h6 => exact via (reach_version h1 h2) (fun s hs => ⟨s, by simp [hswitch, hs, h3, h4, h5, h6]⟩)
  | @statusEmpty v _ n k hr h1 h2 =>
    have := reach_version (cfg := cfg) (m := m) (p := []) (by rw [hr]; exact .response) (by rw [hr]; exact h1)
    exact via (by simpa using this) (fun s hs => ⟨s, by rcases h2 with rfl | rfl <;> simp [hswitch, hs, hr, CR, LF]⟩)
  | codeFirst hr h1 h2 => exact via (reach_space hr h1) (fun s hs => ⟨s, by simp [hswitch, hs, h2]⟩)
  | code hr h1 h2 h3 h4 h5 h6 => exact via (reach_code hr h1 h2) (fun s hs => ⟨s, by simp [hswitch, hs, h3, h4, h5, h6]⟩)
  | text hr h1 h2 h3 h4 h5 h6 h7 => exact via (reach_text hr h1 h2 h3 h4) (fun s hs => ⟨s, by simp [hswitch, hs.1, h5, h6, h7]⟩)
  | textSize hr h1 h2 h3 h4 h5 => exact via (reach_text hr h1 h2 h3 (by omega)) (fun s hs => ⟨s, by
      have h5 : isControl c = false := h5
      have e4 : c ≠ CR := by rintro rfl; revert h5; decide
      have e5 : c ≠ LF := by rintro rfl; revert h5; decide
      simp [hswitch, hs.1, hs.2, h4, h5, e4, e5, STATUS_MESSAGE_MAX]⟩)
  | nameFirst h1 h2 h3 h4 h5 => exact via (reach_line h1) (fun s hs => ⟨s, by
      have e1 : c ≠ c! " " := by rintro rfl; revert h5; decide
      have e2 : c ≠ 0x09 := by rintro rfl; revert h5; decide
      rcases hs with hs | hs | hs | hs <;> simp [hswitch, hs, h2, h3, h4, e1, e2]⟩)
  | name h1 h2 h3 h4 => exact via (reach_name h1 h2) (fun s hs => ⟨s, by simp [hswitch, hs.1, h3, h4]⟩)
  | nameSize h1 h2 h3 h4 => exact via (reach_name h1 h2) (fun s hs => ⟨s, by
      simp [hswitch, hs.1, hs.2, h3, h4, HEADER_NAME_MAX, ne_of_bad h4 (show badToken (c! ":") = true by decide)]⟩)
  | valueFirst h1 h2 h3 h4 h5 h6 => exact via (reach_colon h1 h2) (fun s hs => ⟨s, by simp [hswitch, hs.1, h3, h4, h5, h6]⟩)
  | value h1 h2 h3 h4 h5 => exact via (reach_value h1) (fun s hs => ⟨s, by simp [hswitch, hs.1, h2, h3, h4, h5]⟩)
  | valueSize h1 h2 h3 => exact via (reach_value h1) (fun s hs => ⟨s, by
      have e4 : c ≠ CR := by rintro rfl; revert h3; simp [valueChar]; decide
      have e5 : c ≠ LF := by rintro rfl; revert h3; simp [valueChar]; decide
      have e6 : ¬ (isControl c = true ∧ c ≠ 0x09) := by
        rcases h3 with h3 | h3
        · simp [h3]
        · simp [h3]
      simp only [hswitch, hs.1, hs.2, h2, e4, e5, HEADER_VALUE_MAX]
      simp only [if_false, show ¬ (decide (c ≠ 0x09) && isControl c) = true by simpa [and_comm] using e6]
      simp⟩)

/-- What the parser makes of a stream in which something has a cause. -/
theorem cause_iter {cfg : Cfg} {m : Msg} {e : Err} {t rest : Bytes} {c : UInt8} (h : Cause cfg.isRequest e t c) :
    ∃ s, iter cfg (fresh cfg m) (t ++ c :: rest) = (.no, s, c :: rest) ∧ s.ec = some e := by
  obtain ⟨s, h1, s', h2⟩ := cause_fails (m := m) h
  have hrun : run (hstep cfg) ((enterH (fresh cfg m)).setL 0) (t ++ c :: rest) = (.no, { s' with ec := some e }, c :: rest) := by
    rw [show run (hstep cfg) ((enterH (fresh cfg m)).setL 0) (t ++ c :: rest) = run (hstep cfg) s (c :: rest) from h1 (c :: rest)]
    simp only [run, h2]
  rw [iter_headers cfg _ _ (.inl rfl), parseHeaders_eq, hrun]
  exact ⟨_, by simp [postH, count]; rfl, rfl⟩

theorem cause_viable {r : Bool} {e : Err} {t : Bytes} {c : UInt8} (h : Cause r e t c) : Viable r t ∧ ¬ Viable r (t ++ [c]) := by
  obtain ⟨cfg, rfl⟩ : ∃ cfg : Cfg, cfg.isRequest = r := ⟨{ isRequest := r }, rfl⟩
  obtain ⟨s, h1, s', h2⟩ := cause_fails (m := {}) h
  have h3 : run (hstep cfg) (start cfg {}) t = (.more, s, []) := by
    have := h1 []
    rw [List.append_nil] at this
    rw [this]; rfl
  refine ⟨viable_of_run h3, not_viable_of_run (cfg := cfg) (m := {}) (s' := { s' with ec := some e }) (rest := [c]) ?_⟩
  rw [h1 [c]]
  simp only [run, h2]

theorem cause_unique {r : Bool} {e e' : Err} {t : Bytes} {c : UInt8} (h : Cause r e t c) (h' : Cause r e' t c) : e = e' := by
  obtain ⟨cfg, rfl⟩ : ∃ cfg : Cfg, cfg.isRequest = r := ⟨{ isRequest := r }, rfl⟩
  obtain ⟨s, h1, h2⟩ := cause_iter (m := {}) (rest := []) h
  obtain ⟨s', h3, h4⟩ := cause_iter (m := {}) (rest := []) h'
  rw [h1] at h3
  cases h3
  rw [h2] at h4
  exact Option.some.inj h4

end Verif.Http.Text
