import Verif.Props.PostedForm
import Verif.Props.QueryMeaning
/-
C106: the parameters of a whole request, from its bytes in any buffers: those of the query string and those of a form that is
posted as the text of a query.
-/
namespace Verif.Props.PostedForm
open Verif Verif.Http Verif.Props.HttpSegmentation Verif.Props.HttpBody
open Verif.Spec.Query (pairs finished Acceptable)
open Verif.Spec.Posted (Sent)

theorem urlPairs_eq {q : Bytes} (h : Acceptable q) : urlPairs q = pairs q := by
  unfold urlPairs
  split
  · rename_i hq
    rw [List.isEmpty_iff.1 hq]
    decide +kernel
  · rw [QueryMeaning.accepted [] q h]; rfl

/-- A request with these headers posts `body` as the text of a query, sent as `wire` after the head, and the parser keeps
    all of it. -/
structure PostsPairs (cfg : Cfg) (m : Msg) (h : Head) (hs : Dict) (body wire : Bytes) : Prop where
  setting : Setting cfg m h hs
  noPairs : m.queries = []
  noHandler : cfg.handler = false
  sent : Sent cfg.ord hs body wire
  fits : body.length ≤ cfg.maxContent ∧ body.length + 1 < 2 ^ 64
  form : (b! "application/x-www-form-urlencoded") <+: hs.get cfg.ord (b! "Content-Type")

/-- **C106 (whole requests).** The parameters are what the query string says and then what the content says. -/
theorem posted_pairs_received (cfg : Cfg) (m : Msg) (meth r q : Bytes) (major minor : Nat) (hs : Dict) (body wire tail : Bytes)
    (hp : PostsPairs cfg m (.request meth r q major minor) hs body wire) (hq : Acceptable q) (hb : Acceptable body) (bufs : List Bytes)
    (hcut : Cuts bufs (wireHead (.request meth r q major minor) hs ++ wire ++ tail)) :
    ∃ o, outcome cfg (fresh cfg m) bufs = some o ∧ o.result = .yes ∧ o.fault = none ∧
      o.message.queries = pairs q ++ pairs body := by
  obtain ⟨o, h1, h2, h3, h4⟩ := posted_pairs cfg m meth r q major minor hs hp.setting hp.noPairs hp.noHandler body wire tail
    hp.sent hp.fits.2 hp.fits.1 hp.form bufs hcut
  refine ⟨o, h1, h2, h3, ?_⟩
  rw [h4, urlPairs_eq hq, QueryMeaning.accepted _ _ hb]

/-- **C106: a content that is refused is no error.** The request is reported complete and valid like any other; its parameters
    are those of the query string and what the content says up to the first character that cannot be accepted. -/
theorem posted_pairs_refused (cfg : Cfg) (m : Msg) (meth r q : Bytes) (major minor : Nat) (hs : Dict) (body wire tail : Bytes)
    (hp : PostsPairs cfg m (.request meth r q major minor) hs body wire) (hq : Acceptable q) (hb : ¬ Acceptable body) (bufs : List Bytes)
    (hcut : Cuts bufs (wireHead (.request meth r q major minor) hs ++ wire ++ tail)) :
    ∃ o, outcome cfg (fresh cfg m) bufs = some o ∧ Complete (.request meth r q major minor) hs tail o ∧
      ∃ u c w, body = u ++ c :: w ∧ Acceptable u ∧ ¬ Acceptable (u ++ [c]) ∧ o.message.queries = pairs q ++ finished u := by
  obtain ⟨o, h1, _, _, h4⟩ := posted_pairs cfg m meth r q major minor hs hp.setting hp.noPairs hp.noHandler body wire tail
    hp.sent hp.fits.2 hp.fits.1 hp.form bufs hcut
  have hc : Complete (.request meth r q major minor) hs tail o := by
    have key : ∃ o', outcome cfg (fresh cfg m) bufs = some o' ∧ Complete (.request meth r q major minor) hs tail o' := by
      cases hp.sent with
      | nothing hc hl => exact absurd ⟨by decide +kernel, by decide +kernel, by decide +kernel⟩ hb
      | length body hc hl =>
        obtain ⟨o', h1', hc, _⟩ := content_length_exact cfg m _ hs hp.setting hp.noHandler hc (fun h => h) body tail hl hp.fits.2 bufs hcut
        exact ⟨o', h1', hc⟩
      | chunks ds hc hds =>
        obtain ⟨o', h1', hc, _⟩ := chunked_exact cfg m _ hs hp.setting hc ds tail hds (fun _ => hp.fits.1) hp.fits.2 bufs hcut
        exact ⟨o', h1', hc⟩
    obtain ⟨o', h1', hc⟩ := key
    rw [Option.some.inj (h1'.symm.trans h1)] at hc
    exact hc
  obtain ⟨u, c, w, hu, ha, hn, e⟩ := QueryMeaning.refused_exact (urlPairs q) body hb
  refine ⟨o, h1, hc, u, c, w, hu, ha, hn, ?_⟩
  rw [h4, e, urlPairs_eq hq]

/-- **C106 (other requests).** A request whose content is no form, or that has none, has the parameters of its query string. -/
theorem query_received (cfg : Cfg) (m : Msg) (meth r q : Bytes) (major minor : Nat) (hs : Dict) (body wire tail : Bytes)
    (hset : Setting cfg m (.request meth r q major minor) hs) (hnp : m.queries = []) (hhand : cfg.handler = false)
    (hsent : Sent cfg.ord hs body wire) (hfits : body.length ≤ cfg.maxContent ∧ body.length + 1 < 2 ^ 64)
    (h1 : ¬ (b! "application/x-www-form-urlencoded") <+: hs.get cfg.ord (b! "Content-Type"))
    (h2 : ¬ (b! "multipart/form-data") <+: hs.get cfg.ord (b! "Content-Type")) (hq : Acceptable q) (bufs : List Bytes)
    (hcut : Cuts bufs (wireHead (.request meth r q major minor) hs ++ wire ++ tail)) :
    ∃ o, outcome cfg (fresh cfg m) bufs = some o ∧ o.result = .yes ∧ o.fault = none ∧ o.message.queries = pairs q := by
  rw [← urlPairs_eq hq]
  exact posted_other cfg m meth r q major minor hs hset hnp hhand body wire tail hsent hfits.2 hfits.1 h1 h2 bufs hcut

/-- Five bytes of no type, and a query string. -/
example : ∃ o, outcome reqCfg (fresh reqCfg {}) [wireHead HttpBody.exampleHead HttpBody.exampleHeaders ++ b! "x=1&y" ++ b! "more"] =
    some o ∧ o.result = .yes ∧ o.fault = none ∧ o.message.queries = [(b! "b", b! "c")] := by
  obtain ⟨o, h1, h2, h3, h4⟩ := query_received reqCfg {} _ _ _ _ _ _ (b! "x=1&y") _ (b! "more") HttpBody.exampleSetting rfl rfl
    (.length _ (by rintro ⟨v, h, _⟩; simp [HttpBody.exampleHeaders, reqCfg, Dict.find?, Dict.values, iequals] at h)
      ⟨b! " ", b! "05", b! " ", by decide +kernel, by decide +kernel, by decide +kernel, by decide +kernel, by decide +kernel⟩)
    (by decide +kernel) (by decide +kernel) (by decide +kernel) ⟨by decide +kernel, by decide +kernel, by decide +kernel⟩ _
    ⟨List.flatten_singleton, by intro b hb; rw [List.mem_singleton.1 hb]; simp [wireHead_ne_nil]⟩
  exact ⟨o, h1, h2, h3, h4.trans (by decide +kernel)⟩

def pairHeaders (length : Bytes) : Dict :=
  [(b! "Content-Type", b! "application/x-www-form-urlencoded; charset=UTF-8"), (b! "Content-Length", length)]

theorem examplePairs (length body : Bytes) (h : HeaderOk (b! "Content-Length", length))
    (hl : AnnouncesLength reqCfg.ord (pairHeaders length) body.length) (hs : body.length ≤ 100) :
    PostsPairs reqCfg {} exampleHead (pairHeaders length) body body where
  setting :=
    { exampleSetting (b! "1")
        ⟨⟨by decide +kernel, by decide +kernel, by decide +kernel⟩, by unfold valueChar; decide +kernel, by decide +kernel⟩ with
      headersOk := by
        intro e he
        simp only [pairHeaders, List.mem_cons, List.not_mem_nil, or_false] at he
        rcases he with rfl | rfl
        · exact ⟨⟨by decide +kernel, by decide +kernel, by decide +kernel⟩, by unfold valueChar; decide +kernel, by decide +kernel⟩
        · exact h }
  noPairs := rfl
  noHandler := rfl
  sent := .length _ (by rintro ⟨v, h, _⟩; simp [pairHeaders, reqCfg, Dict.find?, Dict.values, iequals] at h) hl
  fits := ⟨Nat.le_trans hs (by decide +kernel), by omega⟩
  form := by
    have e : (pairHeaders length).get reqCfg.ord (b! "Content-Type") = b! "application/x-www-form-urlencoded; charset=UTF-8" := by
      simp [pairHeaders, reqCfg, Dict.get, Dict.find?, Dict.values, iequals]
    rw [e]
    decide +kernel

/-- A request with a pair in its query string and two in its content. -/
example : ∃ o, outcome reqCfg (fresh reqCfg {}) [wireHead exampleHead (pairHeaders (b! "9")) ++ b! "x=%41,2&y" ++ []] = some o ∧
    o.result = .yes ∧ o.fault = none ∧ o.message.queries = [(b! "b", b! "c"), (b! "x", b! "A"), (b! "x", b! "2"), (b! "y", [])] := by
  obtain ⟨o, h1, h2, h3, h4⟩ := posted_pairs_received reqCfg {} _ _ _ _ _ _ (b! "x=%41,2&y") _ []
    (examplePairs (b! "9") _ ⟨⟨by decide +kernel, by decide +kernel, by decide +kernel⟩, by unfold valueChar; decide +kernel, by decide +kernel⟩
      ⟨[], b! "9", [], by decide +kernel, by decide +kernel, by decide +kernel, by decide +kernel, by decide +kernel⟩ (by decide))
    ⟨by decide +kernel, by decide +kernel, by decide +kernel⟩ ⟨by decide +kernel, by decide +kernel, by decide +kernel⟩ _
    ⟨List.flatten_singleton, by intro b hb; rw [List.mem_singleton.1 hb]; simp [wireHead_ne_nil]⟩
  exact ⟨o, h1, h2, h3, h4.trans (by decide +kernel)⟩

/-- The same content in two chunks. -/
example : Sent reqCfg.ord [(b! "Transfer-Encoding", b! "chunked")] (b! "x=%41,2&y") (chunkedWire [b! "x=%4", b! "1,2&y"]) :=
  .chunks [b! "x=%4", b! "1,2&y"] ⟨b! "chunked", by decide +kernel, [], [], by decide +kernel⟩ (by decide +kernel)
example : (outcome reqCfg (fresh reqCfg {}) [wireHead exampleHead [(b! "Content-Type", b! "application/x-www-form-urlencoded"),
      (b! "Transfer-Encoding", b! "chunked")] ++ chunkedWire [b! "x=%4", b! "1,2&y"]]).map (fun o => (o.result, o.message.queries)) =
    some (.yes, [(b! "b", b! "c"), (b! "x", b! "A"), (b! "x", b! "2"), (b! "y", [])]) := by decide +kernel

/-- A content with a NUL: its first pair arrives. -/
example : ¬ Acceptable [c! "x", c! "=", c! "1", c! "&", c! "y", 0, c! "z"] ∧
    (outcome reqCfg (fresh reqCfg {}) [wireHead exampleHead (pairHeaders (b! "7")) ++
      [c! "x", c! "=", c! "1", c! "&", c! "y", 0, c! "z"]]).map (fun o => (o.result, o.message.isValid, o.message.queries)) =
      some (.yes, true, [(b! "b", b! "c"), (b! "x", b! "1")]) :=
  ⟨fun h => absurd (h.printable 0 (by decide +kernel)) (by decide +kernel), by decide +kernel⟩

end Verif.Props.PostedForm
