import Verif.Spec.HttpRefusal
import Verif.Lemmas.HttpGrammar
import Mathlib.Tactic.SplitIfs
/-
Lemmas for C99: what the header machine has read when it refuses a byte, and that it can always be satisfied before.
-/
set_option linter.unnecessarySeqFocus false

namespace Verif.Http.Text

theorem firstLetter_of {cfg : Cfg} {c : UInt8} (h : Letter cfg c) : FirstLetter cfg.isRequest c := h

theorem targetText_of {s : S} {t : Bytes} (h : Target s t) : TargetText t := by
  obtain ⟨pre, q, h1, h2, h3, h4, h5, h6, ⟨rfl, _⟩ | rfl, rfl⟩ := h
  · rw [List.append_nil]; exact .stem h1 h2 h3 h4
  · rw [← List.append_assoc]; exact .query h1 h2 h3 h4 h5 h6

theorem beforeVersion_of {cfg : Cfg} {s : S} {t : Bytes} (h : Before cfg s t) : BeforeVersion cfg.isRequest t := by
  rcases h with ⟨h1, u, h2, rfl⟩ | ⟨h1, rfl⟩
  · rw [h1]; exact .request (targetText_of h2)
  · rw [h1]; exact .response

theorem lineBegun_of {hd : Head} {hs0 : Dict} {s : S} {f l : Bytes} (hf : FirstLine hd f) (h : Begun (old hd) hs0 s l) :
    LineBegun hd.isRequest (f ++ l) := by
  obtain ⟨u, le, ws, ⟨hs, fs, g, h1, h2, rfl, _⟩, h3, h4, rfl⟩ := h
  exact ⟨hd, hs, f, fs, g, le, ws, rfl, hf, h1, h2, h3, h4, by simp⟩

theorem not_cr_of_token {c : UInt8} (h : badToken c = false) : c ≠ CR ∧ c ≠ LF ∧ c ≠ c! " " ∧ c ≠ c! ":" := by
  refine ⟨?_, ?_, ?_, ?_⟩ <;> rintro rfl <;> revert h <;> decide

/-- A byte that is refused in the first line. -/
theorem first_fail {cfg : Cfg} {s s' : S} {t : Bytes} {c : UInt8} {e : Err} (h : First cfg s t) (hf : hswitch cfg s c = .fail s' e) :
    Cause cfg.isRequest e t c := by
  unfold First at h
  unfold hswitch at hf
  cases hh : s.hs <;> simp only [hh] at h hf
  case methodStart =>
    split_ifs at hf with h1 h2 <;> cases hf
    simp only [Bool.or_eq_true, decide_eq_true_eq, not_or] at h1
    exact .methodFirst h.1 h.2.2 h2 h1.1.1 h1.1.2 h1.2
  case method =>
    obtain ⟨hr, _, pre, hp, hm, rfl⟩ := h
    split_ifs at hf with h1 h2 h3 <;> cases hf
    · exact .method hr hp hm h2 h1
    · have := hm.size
      simp only [METHOD_MAX] at h3
      exact .methodSize hr hp hm (by omega) (by simpa using h2)
  case uriStem =>
    obtain ⟨hr, _, pre, hp, hm, hu, hl, rfl⟩ := h
    split_ifs at hf with h1 h2 h3 h4 h5 h6 <;> cases hf
    · exact .uri hr hp hm hu hl h5 h3 h4
    · simp only [RESOURCE_MAX] at h6
      exact .uriSize hr hp hm hu (by omega) ⟨h1, h2, by simpa using h5⟩
  case uriQuery =>
    obtain ⟨hr, pre, hp, hm, hu, hl, hq, hql, rfl⟩ := h
    split_ifs at hf with h1 h2 h3 h4 h5 <;> cases hf
    · exact .query hr hp hm hu hl hq hql h4 h2 h3
    · simp only [QUERY_STRING_MAX] at h5
      exact .querySize hr hp hm hu hl hq (by omega) ⟨h1, by simpa using h4⟩
  case verH =>
    split_ifs at hf with h1 h2 h3 <;> cases hf
    · simp only [Bool.or_eq_true, decide_eq_true_eq] at h1
      have h2 : cfg.isRequest = false := by simpa using h2
      rcases h with ⟨hr, _⟩ | ⟨hr, rfl⟩
      · rw [h2] at hr; exact nomatch hr
      · exact .versionEmpty hr h1
    · simp only [Bool.or_eq_true, decide_eq_true_eq, not_or] at h1
      exact .versionFirst (beforeVersion_of h) h3 h1.1 h1.2
  case verT1 =>
    obtain ⟨p, l, hp, hl, rfl⟩ := h
    split_ifs at hf with h1 <;> cases hf
    have := Cause.versionName (v := []) (y := b! "TP/") (c := c) (d := c! "T") (beforeVersion_of hp) (firstLetter_of hl) rfl h1
    simpa using this
  case verT2 =>
    obtain ⟨p, l, hp, hl, rfl⟩ := h
    split_ifs at hf with h1 <;> cases hf
    exact .versionName (v := b! "T") (y := b! "P/") (d := c! "T") (beforeVersion_of hp) (firstLetter_of hl) rfl h1
  case verP =>
    obtain ⟨p, l, hp, hl, rfl⟩ := h
    split_ifs at hf with h1 <;> cases hf
    exact .versionName (v := b! "TT") (y := b! "/") (d := c! "P") (beforeVersion_of hp) (firstLetter_of hl) rfl h1
  case verSlash =>
    obtain ⟨p, l, hp, hl, rfl⟩ := h
    split_ifs at hf with h1 <;> cases hf
    exact .versionName (v := b! "TTP") (y := []) (d := c! "/") (beforeVersion_of hp) (firstLetter_of hl) rfl h1
  case verMajorStart =>
    obtain ⟨p, l, hp, hl, rfl⟩ := h
    split_ifs at hf with h1 <;> cases hf
    exact .majorFirst (beforeVersion_of hp) (firstLetter_of hl) (by simpa using h1)
  case verMajor =>
    obtain ⟨p, l, a, hp, hl, ha, rfl⟩ := h
    split_ifs at hf with h1 h2 <;> cases hf
    exact .major (beforeVersion_of hp) (firstLetter_of hl) ha (by simpa using h2) h1
  case verMinorStart =>
    obtain ⟨p, l, a, hp, hl, ha, rfl⟩ := h
    split_ifs at hf with h1 <;> cases hf
    exact .minorFirst (beforeVersion_of hp) (firstLetter_of hl) ha (by simpa using h1)
  case verMinor =>
    obtain ⟨p, v, hp, hv, rfl⟩ := h
    split_ifs at hf with h1 h2 h3 h4 h5 h6 <;> cases hf
    · have hr : cfg.isRequest = false := by simpa using h4
      rcases hp with ⟨hx, _⟩ | ⟨_, rfl⟩
      · rw [hr] at hx; exact nomatch hx
      · rw [List.nil_append]; rw [hr] at hv; exact .statusEmpty hr hv (.inl h3)
    · have hr : cfg.isRequest = false := by simp_all
      rcases hp with ⟨hx, _⟩ | ⟨_, rfl⟩
      · rw [hr] at hx; exact nomatch hx
      · rw [List.nil_append]; rw [hr] at hv; exact .statusEmpty hr hv (.inr (by assumption))
    · exact .minor (beforeVersion_of hp) hv (by simp_all) h1 (by simp_all) (by simp_all)
  case statusCodeStart =>
    obtain ⟨hr, v, hv, rfl⟩ := h
    split_ifs at hf with h1 <;> cases hf
    exact .codeFirst hr hv (by simpa using h1)
  case statusCode =>
    obtain ⟨hr, v, n, hv, hn, rfl⟩ := h
    split_ifs at hf with h1 h2 h3 h4 <;> cases hf
    exact .code hr hv hn (by simpa using h2) h1 h3 h4
  case statusMessage =>
    obtain ⟨hr, v, n, hv, hn, hc, hl, rfl⟩ := h
    split_ifs at hf with h1 h2 h3 h4 <;> cases hf
    · exact .text hr hv hn hc hl h3 h1 h2
    · simp only [STATUS_MESSAGE_MAX] at h4
      exact .textSize hr hv hn hc (by omega) (by simpa [textChar] using h3)

/-- A byte that is refused after the first line. -/
theorem sect_fail {cfg : Cfg} {hd : Head} {hs0 : Dict} {s s' : S} {f l : Bytes} {c : UInt8} {e : Err} (hfl : FirstLine hd f)
    (h : Sect (old hd) hs0 s l) (hf : hswitch cfg s c = .fail s' e) : Cause hd.isRequest e (f ++ l) c := by
  unfold Sect at h
  unfold hswitch at hf
  have blank : ∀ {x : UInt8}, ¬ (x = 0x09 || x = c! " ") = true → isBlank x = false := by
    intro x hx
    simp only [isBlank]
    simpa [and_comm] using hx
  cases hh : s.hs <;> simp only [hh] at h hf
  case expNewline =>
    obtain ⟨u, hu, rfl⟩ := h
    split_ifs at hf with h1 h2 h3 h4 h5
    cases hf
    exact .nameFirst (lineBegun_of hfl (begun_of_content hu .cr)) h5 h3 h1 (blank h4)
  case expCr =>
    obtain ⟨u, hu, rfl⟩ := h
    split_ifs at hf with h1 h2 h3 h4
    cases hf
    exact .nameFirst (lineBegun_of hfl (begun_of_content hu .lf)) h4 h1 h2 (blank h3)
  case headerWs =>
    obtain ⟨u, le, ws, hu, hle, _, hws, rfl⟩ := h
    split_ifs at hf with h1 h2 h3 h4
    cases hf
    exact .nameFirst (lineBegun_of hfl ⟨u, le, ws, hu, hle, hws, rfl⟩) h4 h1 h2 (blank h3)
  case headerStart =>
    obtain ⟨u, le, hu, hle, _, rfl⟩ := h
    split_ifs at hf with h1 h2 h3 h4
    cases hf
    exact .nameFirst (lineBegun_of hfl (begun_of_content hu hle)) h4 h1 h2 (blank h3)
  case headerName =>
    obtain ⟨u, hu, hn, rfl⟩ := h
    rw [← List.append_assoc]
    split_ifs at hf with h1 h2 h3 <;> cases hf
    · exact .name (lineBegun_of hfl hu) hn h2 h1
    · have := hn.size
      simp only [HEADER_NAME_MAX] at h3
      exact .nameSize (lineBegun_of hfl hu) hn (by omega) (by simpa using h2)
  case spaceBeforeValue =>
    obtain ⟨u, hu, hn, _, rfl⟩ := h
    rw [← List.append_assoc, ← List.append_assoc]
    split_ifs at hf with h1 h2 h3 h4
    cases hf
    exact .valueFirst (lineBegun_of hfl hu) hn h4 h1 h2 h3
  case headerValue =>
    obtain ⟨u, sep, hu, hok, hsep, rfl⟩ := h
    have hv : ValueBegun hd.isRequest (f ++ (u ++ s.headerName ++ sep ++ s.headerValue)) s.headerValue := by
      rcases hsep with rfl | ⟨rfl, h1, h2⟩
      · have := ValueBegun.spaced (lineBegun_of hfl hu) hok
        simpa using this
      · have := ValueBegun.direct (lineBegun_of hfl hu) hok h1 h2
        simpa using this
    split_ifs at hf with h1 h2 h3 h4 <;> cases hf
    · simp only [Bool.and_eq_true, decide_eq_true_eq] at h3
      exact .value hv h3.2 h3.1 h1 h2
    · have := hok.size
      simp only [HEADER_VALUE_MAX] at h4
      refine .valueSize hv (by simp only at this; omega) ?_
      by_cases hc : c = 0x09
      · exact .inl hc
      · exact .inr (by simpa [hc] using h3)
  all_goals cases hf

/-- A byte that is refused in a head. -/
theorem at_fail {cfg : Cfg} {hs0 : Dict} {s s' : S} {t : Bytes} {c : UInt8} {e : Err} (h : At cfg hs0 s t)
    (hf : hstep cfg s c = .fail s' e) : Cause cfg.isRequest e t c := by
  rw [hstep_raw] at hf
  have h : At cfg hs0 { s with raw := rawAdd cfg s.raw [c] } t := h
  generalize ({ s with raw := rawAdd cfg s.raw [c] } : S) = s at h hf
  rcases h with ⟨h, _⟩ | ⟨f, l, rfl, hl, h⟩
  · exact first_fail h hf
  · rw [headOf_kind cfg s]; exact sect_fail hl h hf

/-! ### Every state can be satisfied -/

/-- There are bytes that complete the head. -/
def Completes (cfg : Cfg) (s : S) : Prop := ∃ x s', run (hstep cfg) s x = (.yes, s', [])

theorem completes_more {cfg : Cfg} {s s' : S} (c : UInt8) (h : hstep cfg s c = .more s') (h' : Completes cfg s') : Completes cfg s := by
  obtain ⟨x, s'', hx⟩ := h'
  exact ⟨c :: x, s'', by simp only [run, h]; exact hx⟩

theorem completes_done {cfg : Cfg} {s s' : S} (c : UInt8) (h : hstep cfg s c = .done s' true) : Completes cfg s :=
  ⟨[c], s', by simp only [run, h]⟩

/-- Steps do not depend on whether the raw headers are saved: a step of the switch from any state with the same `hs`. -/
theorem completes (cfg : Cfg) : ∀ s : S, Completes cfg s := by
  have expNewline : ∀ s : S, s.hs = .expNewline → Completes cfg s := fun s h =>
    completes_done (s' := { s with raw := rawAdd cfg s.raw [CR] }) CR (by rw [hstep_raw]; simp only [hswitch, h]; rfl)
  have viaCR : ∀ s : S, (∃ s', hstep cfg s CR = .more s' ∧ s'.hs = .expNewline) → Completes cfg s :=
    fun s ⟨s', h1, h2⟩ => completes_more CR h1 (expNewline s' h2)
  have headerWs : ∀ s : S, s.hs = .headerWs → Completes cfg s := fun s h =>
    viaCR s ⟨_, by rw [hstep_raw]; simp only [hswitch, h]; rfl, rfl⟩
  have headerValue : ∀ s : S, s.hs = .headerValue → Completes cfg s := fun s h =>
    viaCR s ⟨_, by rw [hstep_raw]; simp only [hswitch, h]; rfl, rfl⟩
  have space : ∀ s : S, s.hs = .spaceBeforeValue → Completes cfg s := fun s h =>
    viaCR s ⟨_, by rw [hstep_raw]; simp only [hswitch, h]; rfl, rfl⟩
  have headerName : ∀ s : S, s.hs = .headerName → Completes cfg s := fun s h =>
    completes_more (c! ":") (by rw [hstep_raw]; simp only [hswitch, h]; rfl) (space _ rfl)
  have finalNewline : ∀ s : S, s.hs = .expFinalNewline → Completes cfg s := fun s h =>
    completes_done (s' := { s with raw := rawAdd cfg s.raw [LF] }) LF (by rw [hstep_raw]; simp only [hswitch, h]; rfl)
  have finalCr : ∀ s : S, s.hs = .expFinalCr → Completes cfg s := fun s h =>
    completes_done (s' := { s with raw := rawAdd cfg s.raw [CR] }) CR (by rw [hstep_raw]; simp only [hswitch, h]; rfl)
  have headerStart : ∀ s : S, s.hs = .headerStart → Completes cfg s := fun s h =>
    completes_more CR (by rw [hstep_raw]; simp only [hswitch, h]; rfl) (finalNewline _ rfl)
  have expCr : ∀ s : S, s.hs = .expCr → Completes cfg s := fun s h =>
    completes_more CR (by rw [hstep_raw]; simp only [hswitch, h]; rfl) (headerStart _ rfl)
  have statusMessage : ∀ s : S, s.hs = .statusMessage → Completes cfg s := fun s h =>
    viaCR s ⟨_, by rw [hstep_raw]; simp only [hswitch, h]; rfl, rfl⟩
  have statusCode : ∀ s : S, s.hs = .statusCode → Completes cfg s := fun s h =>
    viaCR s ⟨_, by rw [hstep_raw]; simp only [hswitch, h]; rfl, rfl⟩
  have codeStart : ∀ s : S, s.hs = .statusCodeStart → Completes cfg s := fun s h =>
    completes_more (c! "0") (by rw [hstep_raw]; simp only [hswitch, h]; rfl) (statusCode _ rfl)
  have verMinor : ∀ s : S, s.hs = .verMinor → Completes cfg s := by
    intro s h
    cases hr : cfg.isRequest with
    | true => exact viaCR s ⟨_, by rw [hstep_raw]; simp only [hswitch, h, hr]; rfl, rfl⟩
    | false => exact completes_more (c! " ") (by rw [hstep_raw]; simp only [hswitch, h, hr]; rfl) (codeStart _ rfl)
  have minorStart : ∀ s : S, s.hs = .verMinorStart → Completes cfg s := fun s h =>
    completes_more (c! "0") (by rw [hstep_raw]; simp only [hswitch, h]; rfl) (verMinor _ rfl)
  have verMajor : ∀ s : S, s.hs = .verMajor → Completes cfg s := fun s h =>
    completes_more (c! ".") (by rw [hstep_raw]; simp only [hswitch, h]; rfl) (minorStart _ rfl)
  have majorStart : ∀ s : S, s.hs = .verMajorStart → Completes cfg s := fun s h =>
    completes_more (c! "0") (by rw [hstep_raw]; simp only [hswitch, h]; rfl) (verMajor _ rfl)
  have verSlash : ∀ s : S, s.hs = .verSlash → Completes cfg s := fun s h =>
    completes_more (c! "/") (by rw [hstep_raw]; simp only [hswitch, h]; rfl) (majorStart _ rfl)
  have verP : ∀ s : S, s.hs = .verP → Completes cfg s := fun s h =>
    completes_more (c! "P") (by rw [hstep_raw]; simp only [hswitch, h]; rfl) (verSlash _ rfl)
  have verT2 : ∀ s : S, s.hs = .verT2 → Completes cfg s := fun s h =>
    completes_more (c! "T") (by rw [hstep_raw]; simp only [hswitch, h]; rfl) (verP _ rfl)
  have verT1 : ∀ s : S, s.hs = .verT1 → Completes cfg s := fun s h =>
    completes_more (c! "T") (by rw [hstep_raw]; simp only [hswitch, h]; rfl) (verT2 _ rfl)
  have verH : ∀ s : S, s.hs = .verH → Completes cfg s := fun s h =>
    completes_more (c! "H") (by rw [hstep_raw]; simp only [hswitch, h]; rfl) (verT1 _ rfl)
  have uriQuery : ∀ s : S, s.hs = .uriQuery → Completes cfg s := fun s h =>
    completes_more (c! " ") (by rw [hstep_raw]; simp only [hswitch, h]; rfl) (verH _ rfl)
  have uriStem : ∀ s : S, s.hs = .uriStem → Completes cfg s := fun s h =>
    completes_more (c! " ") (by rw [hstep_raw]; simp only [hswitch, h]; rfl) (verH _ rfl)
  have method : ∀ s : S, s.hs = .method → Completes cfg s := fun s h =>
    completes_more (c! " ") (by rw [hstep_raw]; simp only [hswitch, h]; rfl) (uriStem _ rfl)
  have methodStart : ∀ s : S, s.hs = .methodStart → Completes cfg s := fun s h =>
    completes_more (c! "A") (by rw [hstep_raw]; simp only [hswitch, h]; rfl) (method _ rfl)
  intro s
  cases h : s.hs
  case methodStart => exact methodStart s h
  case method => exact method s h
  case uriStem => exact uriStem s h
  case uriQuery => exact uriQuery s h
  case verH => exact verH s h
  case verT1 => exact verT1 s h
  case verT2 => exact verT2 s h
  case verP => exact verP s h
  case verSlash => exact verSlash s h
  case verMajorStart => exact majorStart s h
  case verMajor => exact verMajor s h
  case verMinorStart => exact minorStart s h
  case verMinor => exact verMinor s h
  case statusCodeStart => exact codeStart s h
  case statusCode => exact statusCode s h
  case statusMessage => exact statusMessage s h
  case expNewline => exact expNewline s h
  case expCr => exact expCr s h
  case headerWs => exact headerWs s h
  case headerStart => exact headerStart s h
  case headerName => exact headerName s h
  case spaceBeforeValue => exact space s h
  case headerValue => exact headerValue s h
  case expFinalNewline => exact finalNewline s h
  case expFinalCr => exact finalCr s h

/-! ### Runs -/

theorem at_run {cfg : Cfg} {hs0 : Dict} (buf : Bytes) : ∀ {s s' : S} {t rest : Bytes}, At cfg hs0 s t →
    run (hstep cfg) s buf = (.more, s', rest) → At cfg hs0 s' (t ++ buf) := by
  induction buf with
  | nil => intro s s' t rest h hr; simp only [run, Prod.mk.injEq, true_and] at hr; rw [← hr.1]; simpa using h
  | cons c buf ih =>
    intro s s' t rest h hr
    have hn := at_step cfg hs0 s t c h
    simp only [run] at hr
    cases hst : hstep cfg s c with
    | more s1 =>
      rw [hst] at hr hn
      have := ih hn hr
      simpa using this
    | done s1 k => rw [hst] at hr; cases k <;> simp at hr
    | fail s1 e => rw [hst] at hr; simp at hr

/-- A run that ends with an error ends at the byte that is refused. -/
theorem run_no {step : S → UInt8 → HRes} (buf : Bytes) : ∀ {s s' : S} {rest : Bytes}, run step s buf = (.no, s', rest) →
    ∃ pre c r s1 s2 e, buf = pre ++ c :: r ∧ rest = c :: r ∧ run step s pre = (.more, s1, []) ∧ step s1 c = .fail s2 e ∧
      s' = { s2 with ec := some e } := by
  induction buf with
  | nil => intro s s' rest h; simp [run] at h
  | cons c buf ih =>
    intro s s' rest h
    simp only [run] at h
    cases hst : step s c with
    | more s1 =>
      rw [hst] at h
      obtain ⟨pre, d, r, s2, s3, e, rfl, h2, h3, h4, h5⟩ := ih h
      exact ⟨c :: pre, d, r, s2, s3, e, rfl, h2, by simp only [run, hst]; exact h3, h4, h5⟩
    | done s1 k => rw [hst] at h; cases k <;> simp at h
    | fail s1 e =>
      rw [hst] at h
      simp only [Prod.mk.injEq, true_and] at h
      exact ⟨[], c, buf, s, s1, e, rfl, h.2.symm, rfl, hst, h.1.symm⟩

/-- What has been read without error can be completed. -/
theorem viable_of_run {cfg : Cfg} {m : Msg} {t rest : Bytes} {s' : S} (h : run (hstep cfg) (start cfg m) t = (.more, s', rest)) :
    Viable cfg.isRequest t := by
  obtain ⟨x, s'', hx⟩ := completes cfg s'
  have hr : run (hstep cfg) (start cfg m) (t ++ x) = (.yes, s'', []) := by rw [run_append, h]; exact hx
  obtain ⟨hs, u, _, e2, e3⟩ := run_sound cfg m.headers (t ++ x) (start cfg m) [] s'' [] (at_start cfg m) hr
  exact ⟨_, hs, u, [], e3, (headOf_kind cfg s'').symm, by rw [List.append_nil] at e2 ⊢; rw [← e2]; simp⟩

/-- Nothing that begins with bytes that are refused can be a head. -/
theorem not_viable_of_run {cfg : Cfg} {m : Msg} {t rest : Bytes} {s' : S} (h : run (hstep cfg) (start cfg m) t = (.no, s', rest)) :
    ¬ Viable cfg.isRequest t := by
  rintro ⟨hd, hs, w, r, hm, hk, y, hy⟩
  obtain ⟨_, _, _, _, e⟩ := run_complete (cfg := cfg) (s := start cfg m) hm hk.symm rfl rfl
  rw [← hy, run_append, h] at e
  simp [cont] at e

theorem hswitch_ec {cfg : Cfg} {s s' : S} {c : UInt8} (h : hswitch cfg s c = .more s') : s'.ec = s.ec := by
  unfold hswitch at h
  split at h <;> (repeat' split at h) <;> first | (cases h; rfl) | cases h

theorem hstep_ec {cfg : Cfg} {s s' : S} {c : UInt8} (h : hstep cfg s c = .more s') : s'.ec = s.ec := by
  rw [hstep_raw] at h
  have := hswitch_ec h
  exact this

theorem run_more_ec {cfg : Cfg} (buf : Bytes) : ∀ {s s' : S} {rest : Bytes}, run (hstep cfg) s buf = (.more, s', rest) → s'.ec = s.ec := by
  induction buf with
  | nil => intro s s' rest h; simp only [run, Prod.mk.injEq, true_and] at h; rw [h.1]
  | cons c buf ih =>
    intro s s' rest h
    simp only [run] at h
    cases hst : hstep cfg s c with
    | more s1 => rw [hst] at h; rw [ih h, hstep_ec hst]
    | done s1 k => rw [hst] at h; cases k <;> simp at h
    | fail s1 e => rw [hst] at h; simp at h

/-- What the parser makes of a stream in which no head is complete. -/
theorem refused {cfg : Cfg} {m : Msg} {stream : Bytes} (hno : ∀ h hs t rest, MessageHead h hs t rest → cfg.isRequest = h.isRequest →
      stream ≠ t ++ rest) :
    (∃ s, iter cfg (fresh cfg m) stream = (.more, s, []) ∧ s.ec = none ∧ Viable cfg.isRequest stream) ∨
    (∃ s read c rest e, stream = read ++ c :: rest ∧ iter cfg (fresh cfg m) stream = (.no, s, c :: rest) ∧ s.ec = some e ∧
      Viable cfg.isRequest read ∧ ¬ Viable cfg.isRequest (read ++ [c]) ∧ Cause cfg.isRequest e read c) := by
  rw [iter_headers cfg _ _ (.inl rfl), parseHeaders_eq]
  cases hrun : run (hstep cfg) ((enterH (fresh cfg m)).setL 0) stream with
  | mk rc p =>
    obtain ⟨s', rest⟩ := p
    have hrun : run (hstep cfg) (start cfg m) stream = (rc, s', rest) := hrun
    cases rc with
    | yes =>
      obtain ⟨hs, u, e1, e2, e3⟩ := run_sound cfg m.headers stream (start cfg m) [] s' rest (at_start cfg m) hrun
      exact absurd e2 (hno _ hs u rest e3 (headOf_kind cfg s'))
    | no =>
      right
      obtain ⟨pre, c, r, s1, s2, e, rfl, rfl, h3, h4, rfl⟩ := run_no stream hrun
      have hat := at_run pre (at_start cfg m) h3
      refine ⟨{ s2 with ec := some e }, pre, c, r, e, rfl, ?_, rfl, viable_of_run h3, ?_, at_fail hat h4⟩
      · simp [postH, count]
      · refine not_viable_of_run (cfg := cfg) (m := m) (s' := { s2 with ec := some e }) (rest := [c]) ?_
        rw [run_append, h3]
        simp only [cont, run, h4]
    | more =>
      left
      have hr : rest = [] := by
        have := run_more_rest (hstep cfg) (start cfg m) stream (by rw [hrun])
        rw [hrun] at this; exact this
      subst hr
      refine ⟨s'.upd stream.length (s'.totalRead + stream.length) s'.contentRead, ?_, run_more_ec stream hrun, viable_of_run hrun⟩
      simp [postH, count]

end Verif.Http.Text
