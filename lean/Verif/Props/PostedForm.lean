import Verif.Lemmas.PostedForm
import Verif.Props.MultipartThrow
/-
C54: forms that are posted. From the bytes of the whole request, however they are cut into buffers, to the parameters.
-/
namespace Verif.Props.PostedForm
open Verif Verif.Http Verif.Props.HttpSegmentation Verif.Props.HttpBody Verif.Props.Multipart
open Verif.Spec.Multipart (Part crlf Named)
open Verif.Spec.Posted (Sent)

/-- A request with these headers posts `body` as a form with this boundary, sent as `wire` after the head, and the parser keeps all
    of it. -/
structure Posts (cfg : Cfg) (m : Msg) (h : Head) (hs : Dict) (ctype boundary body wire : Bytes) : Prop where
  setting : Setting cfg m h hs
  noPairs : m.queries = []
  noHandler : cfg.handler = false
  sent : Sent cfg.ord hs body wire
  fits : body.length ≤ cfg.maxContent ∧ body.length + 1 < 2 ^ 64
  type : hs.get cfg.ord (b! "Content-Type") = ctype ++ b! "boundary=" ++ boundary
  form : (b! "multipart/form-data") <+: ctype
  firstBoundary : ∀ i < ctype.length, ¬ (b! "boundary=") <+: (ctype ++ b! "boundary=" ++ boundary).drop i
  boundaryOk : 0x0d ∉ boundary ∧ 0x0a ∉ boundary

/-- **C54 (whole requests).** A request that posts a well-formed form: however its bytes are cut into buffers and whatever
    follows, the request has the pairs of its query string and then the fields of the form, in order; text fields verbatim,
    others as base64 text, parts without a name left out. -/
theorem posted_form_received (cfg : Cfg) (m : Msg) (meth r q : Bytes) (major minor : Nat) (hs : Dict)
    (ctype boundary lead trail wire tail : Bytes) (ps : List (Part × Option Bytes))
    (hp : Posts cfg m (.request meth r q major minor) hs ctype boundary (Spec.Multipart.body boundary lead (ps.map (·.1)) trail)
      wire)
    (hlead : lead = [] ∨ ∃ l, lead = l ++ crlf ∧ ¬ (b! "--" ++ boundary) <:+: l)
    (hps : ∀ p ∈ ps, PartOk (b! "--" ++ boundary) p.1 p.2) (bufs : List Bytes)
    (hcut : Cuts bufs (wireHead (.request meth r q major minor) hs ++ wire ++ tail)) :
    ∃ o, outcome cfg (fresh cfg m) bufs = some o ∧ o.result = .yes ∧ o.fault = none ∧
      o.message.queries = urlPairs q ++ ps.flatMap fun p => match p.2 with | some n => [(n, p.1.value)] | none => [] := by
  obtain ⟨o, ho, hr, hm⟩ := posted cfg m meth r q major minor hs hp.setting hp.noPairs hp.noHandler _ wire tail _
    hp.sent hp.fits.2 hp.fits.1 hp.type (by rw [List.append_assoc]; exact hp.form.trans (List.prefix_append _ _)) bufs hcut
  rw [multipart_fields_exact (urlPairs q) ctype boundary lead trail ps hp.boundaryOk hp.firstBoundary hlead hps] at hm
  exact ⟨o, ho, hr, hm.1, hm.2⟩

/-- **C54 fails for whole requests.** A request that posts a form in which the blank line of a named part is directly followed
    by the delimiter makes the parser throw an exception, however its bytes are cut into buffers. -/
theorem posted_form_throws (cfg : Cfg) (m : Msg) (meth r q : Bytes) (major minor : Nat) (hs : Dict)
    (ctype boundary lead trail wire tail : Bytes) (ps : List (Part × Option Bytes)) (headers : List (Bytes × Bytes)) (n : Bytes)
    (hp : Posts cfg m (.request meth r q major minor) hs ctype boundary (cutBody boundary lead (ps.map (·.1)) headers trail) wire)
    (hlead : lead = [] ∨ ∃ l, lead = l ++ crlf ∧ ¬ (b! "--" ++ boundary) <:+: l)
    (hps : ∀ p ∈ ps, PartOk (b! "--" ++ boundary) p.1 p.2)
    (hh : ∀ h ∈ headers, Spec.Multipart.HeaderOk h) (hn : Named headers n) (hn0 : n ≠ []) (bufs : List Bytes)
    (hcut : Cuts bufs (wireHead (.request meth r q major minor) hs ++ wire ++ tail)) :
    ∃ o, outcome cfg (fresh cfg m) bufs = some o ∧ o.fault = some .multipart := by
  obtain ⟨o, ho, _, hm⟩ := posted cfg m meth r q major minor hs hp.setting hp.noPairs hp.noHandler _ wire tail _
    hp.sent hp.fits.2 hp.fits.1 hp.type (by rw [List.append_assoc]; exact hp.form.trans (List.prefix_append _ _)) bufs hcut
  rw [multipart_negative_length_always (urlPairs q) ctype boundary lead trail ps headers n hp.boundaryOk hp.firstBoundary hlead
    hps hh hn hn0] at hm
  exact ⟨o, ho, hm⟩

/-! ### The hypotheses are met -/

def exampleHead : Head := .request (b! "POST") (b! "/a") (b! "b=c") 1 1

def exampleHeaders (length : Bytes) : Dict :=
  [(b! "Content-Type", b! "multipart/form-data; boundary=XyZ"), (b! "Content-Length", length)]

theorem exampleSetting (length : Bytes) (h : HeaderOk (b! "Content-Length", length)) :
    Setting reqCfg {} exampleHead (exampleHeaders length) where
  blank := ⟨rfl, rfl, rfl, rfl⟩
  order := fun l => List.Perm.refl l
  kind := rfl
  headOk := ⟨⟨by decide +kernel, by decide +kernel, by decide +kernel⟩, by unfold uriChar; decide +kernel, by decide +kernel,
    by unfold queryChar; decide +kernel, by decide +kernel, by decide +kernel, by decide +kernel⟩
  headersOk := by
    intro e he
    simp only [exampleHeaders, List.mem_cons, List.not_mem_nil, or_false] at he
    rcases he with rfl | rfl
    · exact ⟨⟨by decide +kernel, by decide +kernel, by decide +kernel⟩, by unfold valueChar; decide +kernel, by decide +kernel⟩
    · exact h
  notHeadersOnly := rfl

/-- The three parts of `sampleParts`. -/
theorem examplePosts : Posts reqCfg {} exampleHead (exampleHeaders (b! "199")) sampleType (b! "XyZ")
    (Spec.Multipart.body (b! "XyZ") [] (sampleParts.map (·.1)) (b! "\r\n"))
    (Spec.Multipart.body (b! "XyZ") [] (sampleParts.map (·.1)) (b! "\r\n")) where
  setting := exampleSetting _
    ⟨⟨by decide +kernel, by decide +kernel, by decide +kernel⟩, by unfold valueChar; decide +kernel, by decide +kernel⟩
  noPairs := rfl
  noHandler := rfl
  sent := .length _ (by rintro ⟨v, h, _⟩; simp [exampleHeaders, reqCfg, Dict.find?, Dict.values, iequals] at h)
    ⟨[], b! "199", [], by decide +kernel, by decide +kernel, by decide +kernel, by decide +kernel, by decide +kernel⟩
  fits := by decide +kernel
  type := by decide +kernel
  form := by decide +kernel
  firstBoundary := by decide +kernel
  boundaryOk := by decide

/-- One part, cut. -/
theorem exampleCutPosts : Posts reqCfg {} exampleHead (exampleHeaders (b! "60")) sampleType (b! "XyZ")
    (cutBody (b! "XyZ") [] [] [(b! "Content-Disposition", b! "form-data; name=\"a\"")] (b! "--\r\n"))
    (cutBody (b! "XyZ") [] [] [(b! "Content-Disposition", b! "form-data; name=\"a\"")] (b! "--\r\n")) where
  setting := exampleSetting _
    ⟨⟨by decide +kernel, by decide +kernel, by decide +kernel⟩, by unfold valueChar; decide +kernel, by decide +kernel⟩
  noPairs := rfl
  noHandler := rfl
  sent := .length _ (by rintro ⟨v, h, _⟩; simp [exampleHeaders, reqCfg, Dict.find?, Dict.values, iequals] at h)
    ⟨[], b! "60", [], by decide +kernel, by decide +kernel, by decide +kernel, by decide +kernel, by decide +kernel⟩
  fits := by decide +kernel
  type := by decide +kernel
  form := by decide +kernel
  firstBoundary := by decide +kernel
  boundaryOk := by decide

/-- The field of the URL and the two fields of the form. -/
example : ∃ o, outcome reqCfg (fresh reqCfg {})
      [wireHead exampleHead (exampleHeaders (b! "199")) ++ Spec.Multipart.body (b! "XyZ") [] (sampleParts.map (·.1)) (b! "\r\n") ++ b! "GET"] =
        some o ∧ o.result = .yes ∧ o.fault = none ∧
    o.message.queries = [(b! "b", b! "c"), (b! "a", b! "one\r\ntwo"), (b! "f", b! "data:image/png; base64, AQID")] := by
  obtain ⟨o, ho, h1, h2, h3⟩ := posted_form_received reqCfg {} _ _ _ _ _ _ sampleType (b! "XyZ") [] (b! "\r\n") _ (b! "GET") sampleParts
    examplePosts (.inl rfl) sample_ok _ ⟨List.flatten_singleton, by intro b hb; rw [List.mem_singleton.1 hb]; simp [wireHead_ne_nil]⟩
  exact ⟨o, ho, h1, h2, h3.trans (by decide +kernel)⟩

/-- A form with one part, cut: the parser throws. -/
example : (outcome reqCfg (fresh reqCfg {}) [wireHead exampleHead (exampleHeaders (b! "60")) ++
    cutBody (b! "XyZ") [] [] [(b! "Content-Disposition", b! "form-data; name=\"a\"")] (b! "--\r\n")]).map (·.fault) =
      some (some .multipart) := by decide +kernel

end Verif.Props.PostedForm
