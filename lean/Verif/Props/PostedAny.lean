import Verif.Props.PostedForm
import Verif.Props.FormBody
/-
C111: what a whole request with any body can put into the parameters.
-/
namespace Verif.Props.PostedForm
open Verif Verif.Http Verif.Props.HttpSegmentation Verif.Props.HttpBody Verif.Multipart
open Verif.Spec.FormBody (Piece)

/-- **C111 (whole requests).** A request with any body that is posted as a form, in any buffers: the pairs of the query string
    stay, and what is added to them are entries made of stretches of the body, in their order and with a delimiter between any
    two of them; or the parser throws, and then a delimiter stands in the body directly behind an empty line. -/
theorem posted_nothing_invented (cfg : Cfg) (m : Msg) (meth r q : Bytes) (major minor : Nat) (hs : Dict)
    (ctype boundary body wire tail : Bytes) (hp : Posts cfg m (.request meth r q major minor) hs ctype boundary body wire)
    (bufs : List Bytes) (hcut : Cuts bufs (wireHead (.request meth r q major minor) hs ++ wire ++ tail)) :
    ∃ o, outcome cfg (fresh cfg m) bufs = some o ∧ o.result = .yes ∧
      ((o.fault = none ∧ ∃ l : List Piece, o.message.queries = urlPairs q ++ l.map (·.entry) ∧
          (∀ p ∈ l, p.Honest (b! "--" ++ boundary) body) ∧ l.Pairwise (Piece.Before (b! "--" ++ boundary) body)) ∨
        (o.fault = some .multipart ∧ [0x0a, 0x0d, 0x0a] ++ (b! "--" ++ boundary) <:+: body)) := by
  obtain ⟨o, ho, hr, hm⟩ := posted cfg m meth r q major minor hs hp.setting hp.noPairs hp.noHandler _ wire tail _
    hp.sent hp.fits.2 hp.fits.1 hp.type (by rw [List.append_assoc]; exact hp.form.trans (List.prefix_append _ _)) bufs hcut
  refine ⟨o, ho, hr, ?_⟩
  obtain ⟨s1, s2, s3⟩ := Multipart.multipart_safe_partial (urlPairs q) (ctype ++ b! "boundary=" ++ boundary) body
  cases hres : parseMultipart (urlPairs q) (ctype ++ b! "boundary=" ++ boundary) body with
  | ret ok d =>
    rw [hres] at hm
    obtain ⟨l, h1, h2, h3⟩ := FormBody.nothing_invented (urlPairs q) d ctype boundary body ok hp.firstBoundary hres
    exact .inl ⟨hm.1, l, hm.2.trans h1, h2, h3⟩
  | diverged => exact absurd hres s1
  | outOfBounds => exact absurd hres s2
  | negativeLength =>
    rw [hres] at hm
    refine .inr ⟨hm, ?_⟩
    by_contra hno
    refine s3 ?_ hres
    intro i hi
    have hfs : findSub (b! "boundary=") (ctype ++ b! "boundary=" ++ boundary) = some ctype.length := by
      apply findSub_of
      · simp only [List.length_append]; omega
      · rw [List.append_assoc, List.drop_left' rfl]
        exact List.prefix_append _ _
      · exact hp.firstBoundary
    rw [hfs] at hi
    cases hi
    rw [show (ctype ++ b! "boundary=" ++ boundary).drop (ctype.length + 9) = boundary from List.drop_left' (by simp)]
    exact hno

/-- Both cases occur: `examplePosts` and `exampleCutPosts` meet the hypotheses. -/
example : (∃ o, outcome reqCfg (fresh reqCfg {}) [wireHead exampleHead (exampleHeaders (b! "60")) ++
      Verif.Props.Multipart.cutBody (b! "XyZ") [] [] [(b! "Content-Disposition", b! "form-data; name=\"a\"")] (b! "--\r\n") ++ []] = some o ∧
      o.result = .yes) :=
  let ⟨o, h1, h2, _⟩ := posted_nothing_invented reqCfg {} _ _ _ _ _ _ _ _ _ _ [] exampleCutPosts _
    ⟨List.flatten_singleton, by intro b hb; rw [List.mem_singleton.1 hb]; simp [wireHead_ne_nil]⟩
  ⟨o, h1, h2⟩

end Verif.Props.PostedForm
