import Verif.Props.HttpBody
import Verif.Spec.Posted
/-
For C54: what a request with a posted multipart/form-data body leaves in the message.
-/
namespace Verif.Props.PostedForm
open Verif Verif.Http Verif.Props.HttpSegmentation Verif.Props.HttpBody
open Verif.Spec.Posted (Sent)

/-- The pairs of the query string of a request. -/
def urlPairs (q : Bytes) : Dict := if q.isEmpty then [] else (Query.parseUrlEncoded [] q).2

/-- The end of a request with a form. -/
theorem finishForm_multipart (cfg : Cfg) (s : S) (body ct : Bytes) (hreq : cfg.isRequest = true) (hhand : cfg.handler = false)
    (hho : cfg.headersOnly = false) (hct : s.msg.headers.get cfg.ord (b! "Content-Type") = ct)
    (hpre : (b! "multipart/form-data") <+: ct) (hc : s.msg.content = body.map some) (hl : s.msg.contentLength = body.length) :
    finishForm cfg s = match Multipart.parseMultipart s.msg.queries ct body with
      | .ret _ d => { s with msg := { s.msg with queries := d } }
      | _ => { s with fault := some .multipart } := by
  have hnot : (b! "application/x-www-form-urlencoded").isPrefixOf ct = false := by
    obtain ⟨u, rfl⟩ := hpre
    simp [List.isPrefixOf]
  have hyes : (b! "multipart/form-data").isPrefixOf ct = true := List.isPrefixOf_iff_prefix.2 hpre
  have hb : (s.msg.content.take s.msg.contentLength).map (·.getD 0) = body := by
    rw [hc, hl, ← List.length_map (f := some), List.take_length, List.map_map]
    exact (List.map_congr_left (fun _ _ => rfl)).trans (List.map_id _)
  unfold finishForm
  dsimp only
  rw [hreq, hhand, hho, hct, hnot, hyes, hb, if_pos (by rfl), if_neg (by simp), if_pos rfl,
    if_neg (show ¬ s.msg.content.length < s.msg.contentLength by rw [hc, hl]; simp)]
  cases Multipart.parseMultipart s.msg.queries ct body <;> rfl

theorem parseEnd_multipart (cfg : Cfg) (s : S) (body ct : Bytes) (hreq : cfg.isRequest = true) (hhand : cfg.handler = false)
    (hho : cfg.headersOnly = false) (hct : s.msg.headers.get cfg.ord (b! "Content-Type") = ct)
    (hpre : (b! "multipart/form-data") <+: ct) (hc : s.msg.content = body.map some) (hl : s.msg.contentLength = body.length)
    (hf : s.fault = none) :
    match Multipart.parseMultipart s.msg.queries ct body with
      | .ret _ d => (parseEnd cfg .yes s 0).fault = none ∧ (parseEnd cfg .yes s 0).msg.queries = d
      | _ => (parseEnd cfg .yes s 0).fault = some .multipart := by
  have e := finishForm_multipart cfg { s with ms := .end_, msg := computeStatus { s.msg with isValid := true } true } body ct
    hreq hhand hho hct hpre hc hl
  unfold parseEnd
  simp only
  rw [finish_end, e]
  simp only [show (computeStatus { s.msg with isValid := true } true).queries = s.msg.queries from rfl]
  cases Multipart.parseMultipart s.msg.queries ct body with
  | ret ok d => exact ⟨hf, rfl⟩
  | diverged => rfl
  | negativeLength => rfl
  | outOfBounds => rfl

/-- A request with content: whatever the buffers are, all of it is stored when the parser comes to the end. -/
theorem run_to_end (cfg : Cfg) (m : Msg) (meth r q : Bytes) (major minor : Nat) (hs : Dict)
    (hset : Setting cfg m (.request meth r q major minor) hs) (hq : m.queries = []) (hhand : cfg.handler = false)
    (body wire tail : Bytes) (hsent : Sent cfg.ord hs body wire) (hn : body.length + 1 < 2 ^ 64)
    (hmax : body.length ≤ cfg.maxContent)
    (bufs : List Bytes) (hcut : Cuts bufs (wireHead (.request meth r q major minor) hs ++ wire ++ tail)) :
    ∃ t : S, outcome cfg (fresh cfg m) bufs = some (endOutcome cfg (.yes, t, tail)) ∧ t.msg.headers = hs ∧
      t.msg.content = body.map some ∧ t.msg.contentLength = body.length ∧ t.msg.queries = urlPairs q ∧ t.fault = none := by
  have hne : wireHead (.request meth r q major minor) hs ++ wire ++ tail ≠ [] := by simp [wireHead_ne_nil]
  rw [outcome_cuts cfg _ hcut hne, List.append_assoc]
  have hreq : cfg.isRequest = true := hset.kind
  obtain ⟨n, v, hi⟩ := iter_head cfg m (.request meth r q major minor) hs hset.kind hset.headOk hset.headersOk (wire ++ tail)
  rw [finishHeaders_eq] at hi
  have hd := finishHeaders1_done cfg m (.request meth r q major minor) hs n v hset.kind
  have hqs : (finishHeaders1 cfg (afterHead cfg m (.request meth r q major minor) hs n v)).msg.queries = urlPairs q := by
    unfold finishHeaders1 updateMessage urlPairs
    rw [if_pos hreq, ← hq]
    rfl
  obtain ⟨s, hsdef⟩ : ∃ s, s = finishHeaders1 cfg (afterHead cfg m (.request meth r q major minor) hs n v) := ⟨_, rfl⟩
  rw [← hsdef] at hi hd hqs
  have hbeg := parseBegin_fresh cfg m hset.blank.notMissing
  have hhs : s.msg.headers = hs := by rw [hd.headers, hset.blank.noHeaders]; rfl
  have hcont : s.msg.content = [] := by rw [hd.content, hset.blank.noContent]
  cases hsent with
  | nothing hc hl =>
    have hf2 := finishHeaders2_plain cfg hd hset.blank hset.order hset.kind hset.notHeadersOnly hc (fun h => h) hl
    rw [if_pos hreq] at hf2
    rw [hf2] at hi
    exact ⟨_, outcome_of_iter cfg hbeg hi (.inl (by simp)), hhs, hcont, hd.contentLength, hqs, hd.fault⟩
  | length body hc hl =>
    have hf2 := finishHeaders2_length cfg hd hset.blank hset.order hset.kind hset.notHeadersOnly hc (fun h => h) body.length hl
      (by unfold SIZE_MOD; omega)
    by_cases h0 : body.length = 0
    · have hbn : body = [] := List.length_eq_zero_iff.mp h0
      subst hbn
      rw [if_pos h0] at hf2
      rw [hf2] at hi
      exact ⟨_, outcome_of_iter cfg hbeg hi (.inl (by simp)), hhs, hcont, hd.contentLength, hqs, hd.fault⟩
    · have hbne : body ≠ [] := fun h => h0 (by rw [h]; rfl)
      rw [if_neg h0, createBuffer_ok _ (by unfold SIZE_MOD; simp only; omega)] at hf2
      rw [hf2] at hi
      have hi2 := iter_content cfg { s with
          ms := .content, remaining := body.length,
          msg := { s.msg with
              contentLength := min body.length cfg.maxContent,
              content := List.replicate (min body.length cfg.maxContent) none } } rfl hhand body tail rfl
        hbne hd.contentRead (by simp)
      refine ⟨_, outcome_of_iter2 cfg hbeg hi (by simp [hbne]) hi2 (.inl (by simp)), hhs, ?_, ?_, hqs, hd.fault⟩
      · dsimp only; rw [List.take_of_length_le hmax]
      · dsimp only; omega
  | chunks ds hc hds =>
    rw [finishHeaders2_chunks cfg hd hset.blank hset.notHeadersOnly hc] at hi
    have hcache : s.msg.chunkCache = [] := by rw [hd.chunkCache, hset.blank.noCache]
    have hwne : chunkedWire ds ++ tail ≠ [] := by simp [chunkedWire, lastChunk]
    have hrun := run_chunkedWire cfg ds (({ s with ms := .chunks } : S).setL 0) hd.cs hds
      (fun _ => by simp only [S.setL, hcache, List.length_nil, Nat.zero_add, total]; exact hmax) tail
    have hlen : (chunkedWire ds ++ tail).length - tail.length = (chunkedWire ds).length := by simp
    have hi2 := iter_chunks cfg { s with ms := .chunks } (chunkedWire ds ++ tail) rfl
    rw [parseChunks_eq, hrun] at hi2
    simp only [count, reduceCtorEq, if_false, hlen] at hi2
    have hcc : ∀ (k t c : Nat), concatenateChunks (({ absorb cfg (({ s with ms := .chunks } : S).setL 0) ds.flatten with
        chunkSizeStr := b! "0", chunkRead := 0, chunkSize := 0, cs := .expFinalLf } : S).upd k t c) =
        ({ s with
            ms := .chunks, chunkSizeStr := b! "0", chunkRead := 0, chunkSize := 0, cs := .expFinalLf,
            msg := { s.msg with chunkCache := ds.flatten, contentLength := ds.flatten.length,
                                content := ds.flatten.map some } } : S).upd k t c := by
      intro k t c
      unfold concatenateChunks
      rw [createBuffer_ok]
      · simp [absorb, hhand, S.upd, S.setL, hcache]
      · simp only [absorb, hhand, S.upd, S.setL, hcache, Bool.false_eq_true, if_false, List.nil_append, SIZE_MOD]
        omega
    simp only [postC, hhand, true_and, if_true] at hi2
    rw [hcc] at hi2
    simp only [show ∀ (x : S) k t c, (x.upd k t c).ms = x.ms from fun _ _ _ _ => rfl, reduceCtorEq, if_false] at hi2
    exact ⟨_, outcome_of_iter2 cfg hbeg hi hwne hi2 (.inl (by simp)), hhs, rfl, rfl, hqs, hd.fault⟩

/-- A request whose content is a form: whatever the buffers are, the outcome is that of the parser for the form. -/
theorem posted (cfg : Cfg) (m : Msg) (meth r q : Bytes) (major minor : Nat) (hs : Dict)
    (hset : Setting cfg m (.request meth r q major minor) hs) (hq : m.queries = []) (hhand : cfg.handler = false)
    (body wire tail ct : Bytes) (hsent : Sent cfg.ord hs body wire) (hn : body.length + 1 < 2 ^ 64)
    (hmax : body.length ≤ cfg.maxContent)
    (hct : hs.get cfg.ord (b! "Content-Type") = ct) (hpre : (b! "multipart/form-data") <+: ct)
    (bufs : List Bytes) (hcut : Cuts bufs (wireHead (.request meth r q major minor) hs ++ wire ++ tail)) :
    ∃ o, outcome cfg (fresh cfg m) bufs = some o ∧ o.result = .yes ∧
      match Multipart.parseMultipart (urlPairs q) ct body with
      | .ret _ d => o.fault = none ∧ o.message.queries = d
      | _ => o.fault = some .multipart := by
  obtain ⟨t, ho, h1, h2, h3, h4, h5⟩ := run_to_end cfg m meth r q major minor hs hset hq hhand body wire tail hsent hn hmax bufs hcut
  refine ⟨_, ho, rfl, ?_⟩
  have hfin := parseEnd_multipart cfg t body ct hset.kind hhand hset.notHeadersOnly (by rw [h1, hct]) hpre h2 h3 h5
  rw [h4] at hfin
  exact hfin

/-- The same for a form in the text of a query. -/
theorem posted_pairs (cfg : Cfg) (m : Msg) (meth r q : Bytes) (major minor : Nat) (hs : Dict)
    (hset : Setting cfg m (.request meth r q major minor) hs) (hq : m.queries = []) (hhand : cfg.handler = false)
    (body wire tail : Bytes) (hsent : Sent cfg.ord hs body wire) (hn : body.length + 1 < 2 ^ 64)
    (hmax : body.length ≤ cfg.maxContent)
    (hpre : (b! "application/x-www-form-urlencoded") <+: hs.get cfg.ord (b! "Content-Type"))
    (bufs : List Bytes) (hcut : Cuts bufs (wireHead (.request meth r q major minor) hs ++ wire ++ tail)) :
    ∃ o, outcome cfg (fresh cfg m) bufs = some o ∧ o.result = .yes ∧ o.fault = none ∧
      o.message.queries = (Query.parseUrlEncoded (urlPairs q) body).2 := by
  obtain ⟨t, ho, h1, h2, h3, h4, h5⟩ := run_to_end cfg m meth r q major minor hs hset hq hhand body wire tail hsent hn hmax bufs hcut
  have hreq : cfg.isRequest = true := hset.kind
  have hb : (t.msg.content.take t.msg.contentLength).map (·.getD 0) = body := by
    rw [h2, h3, ← List.length_map (f := some), List.take_length, List.map_map]
    exact (List.map_congr_left (fun _ _ => rfl)).trans (List.map_id _)
  have e : ∀ s : S, s.msg.content = t.msg.content → s.msg.contentLength = t.msg.contentLength → s.msg.headers = t.msg.headers →
      finishForm cfg s = { s with msg := { s.msg with queries := (Query.parseUrlEncoded s.msg.queries body).2 } } := by
    intro s e1 e2 e3
    unfold finishForm
    dsimp only
    rw [hreq, hhand, hset.notHeadersOnly, e1, e2, e3, h1, hb, List.isPrefixOf_iff_prefix.2 hpre, if_pos (by rfl), if_pos rfl,
      if_neg (show ¬ t.msg.content.length < t.msg.contentLength by rw [h2, h3]; simp)]
  have e' := e { t with ms := .end_, msg := computeStatus { t.msg with isValid := true } true } rfl rfl rfl
  refine ⟨_, ho, rfl, ?_, ?_⟩ <;> unfold endOutcome parseEnd <;> simp only <;> rw [finish_end, e']
  · exact h5
  · rw [← h4]; rfl

/-- Content of any other type adds nothing. -/
theorem posted_other (cfg : Cfg) (m : Msg) (meth r q : Bytes) (major minor : Nat) (hs : Dict)
    (hset : Setting cfg m (.request meth r q major minor) hs) (hq : m.queries = []) (hhand : cfg.handler = false)
    (body wire tail : Bytes) (hsent : Sent cfg.ord hs body wire) (hn : body.length + 1 < 2 ^ 64)
    (hmax : body.length ≤ cfg.maxContent)
    (h1 : ¬ (b! "application/x-www-form-urlencoded") <+: hs.get cfg.ord (b! "Content-Type"))
    (h2 : ¬ (b! "multipart/form-data") <+: hs.get cfg.ord (b! "Content-Type"))
    (bufs : List Bytes) (hcut : Cuts bufs (wireHead (.request meth r q major minor) hs ++ wire ++ tail)) :
    ∃ o, outcome cfg (fresh cfg m) bufs = some o ∧ o.result = .yes ∧ o.fault = none ∧ o.message.queries = urlPairs q := by
  obtain ⟨t, ho, hh, _, _, h4, h5⟩ := run_to_end cfg m meth r q major minor hs hset hq hhand body wire tail hsent hn hmax bufs hcut
  have e : ∀ s : S, s.msg.headers = t.msg.headers → finishForm cfg s = s := by
    intro s e3
    unfold finishForm
    dsimp only
    rw [e3, hh, if_neg (fun h => h1 (List.isPrefixOf_iff_prefix.1 h)), if_neg (fun h => h2 (List.isPrefixOf_iff_prefix.1 h))]
    split <;> rfl
  have e' := e { t with ms := .end_, msg := computeStatus { t.msg with isValid := true } true } rfl
  refine ⟨_, ho, rfl, ?_, ?_⟩ <;> unfold endOutcome parseEnd <;> simp only <;> rw [finish_end, e']
  · exact h5
  · exact h4

end Verif.Props.PostedForm
