import Verif.Lemmas.HttpParse
import Verif.Spec.HttpOutcome
/-
C11 (segmentation independence), C12 (pipelined bytes survive), C17 (progress).
-/
namespace Verif.Props.HttpSegmentation
open Verif.Http

theorem observe_of_obs {r r' : Tri × S × Bytes} (h : obs r = obs r') :
    observe r.1 r.2.1 r.2.2 = observe r'.1 r'.2.1 r'.2.2 := by
  obtain ⟨rc, s, rest⟩ := r
  obtain ⟨rc', s', rest'⟩ := r'
  have h1 : rc = rc' := congrArg Prod.fst h
  subst h1
  have h3 : rest = rest' := congrArg (·.2.2) h
  subst h3
  have h2 := congrArg (·.2.1) h
  simp only [obs] at h2
  by_cases hn : rc = .no
  · subst hn
    simp only [if_true] at h2
    have e : s = s'.upd s.lastRead s.totalRead s.contentRead := by
      have : (s.upd 0 0 0).upd s.lastRead s.totalRead s.contentRead
        = (s'.upd 0 0 0).upd s.lastRead s.totalRead s.contentRead := by rw [h2]
      exact this
    rw [e]; rfl
  · simp only [hn, if_false] at h2
    rw [eq_setL h2]; rfl

theorem outcome_single (cfg : Cfg) (s : S) (a : Bytes) :
    outcome cfg s [a] = (parse cfg s a).map fun r => observe r.1 r.2.1 r.2.2 := by
  obtain ⟨r, t, hr, hp⟩ := parse_runs cfg s a
  unfold outcome
  simp only [feed, hp]
  cases h : r.1 with
  | more => simp [runs_more_rest cfg hr h]
  | yes => simp
  | no => simp

/-- Feeding buffers one by one is observably the same as feeding their concatenation at once. -/
theorem outcome_flatten (cfg : Cfg) (bufs : List Bytes) : ∀ (s : S), (∀ b ∈ bufs, b ≠ []) → bufs ≠ [] →
    outcome cfg s bufs = outcome cfg s [bufs.flatten] := by
  induction bufs with
  | nil => intro s _ h; exact absurd rfl h
  | cons a bufs ih =>
    intro s hne _
    cases bufs with
    | nil => simp
    | cons b bufs =>
      have hb : b ≠ [] := hne b (by simp)
      have hflat : (b :: bufs).flatten ≠ [] := by simp [hb]
      obtain ⟨rc, s', rest, hp, h1, h2⟩ := parse_append cfg s a (b :: bufs).flatten (hne a (by simp)) hflat
      rw [outcome_single]
      by_cases hm : rc = .more
      · subst hm
        obtain ⟨_, he⟩ := h1 rfl
        have hstep : outcome cfg s (a :: b :: bufs) = outcome cfg s' (b :: bufs) := by
          unfold outcome; rw [feed]; simp only [hp]
        rw [hstep, ih s' (fun x hx => hne x (by simp [hx])) (by simp), outcome_single]
        simp only [List.flatten_cons] at he ⊢
        obtain ⟨r1, t1, _, e1⟩ := parse_runs cfg s (a ++ (b ++ bufs.flatten))
        obtain ⟨r2, t2, _, e2⟩ := parse_runs cfg s' (b ++ bufs.flatten)
        rw [e1, e2] at he ⊢
        simp only [Option.map_some, Option.some.injEq] at he ⊢
        exact (observe_of_obs he).symm
      · have he := h2 hm
        have hstep : outcome cfg s (a :: b :: bufs) = some (observe rc s' (rest ++ (b :: bufs).flatten)) := by
          unfold outcome; rw [feed]; simp only [hp]
          cases rc <;> simp at hm ⊢
        rw [hstep]
        obtain ⟨r1, t1, _, e1⟩ := parse_runs cfg s (a ++ (b :: bufs).flatten)
        have e1' : parse cfg s (a :: b :: bufs).flatten = _ := e1
        rw [e1']
        rw [e1] at he
        simp only [Option.map_some, Option.some.injEq] at he ⊢
        exact (observe_of_obs he).symm

/-- **C11.** Cut the same byte stream into nonempty buffers in two arbitrary ways: everything the caller of
    `http::parser` can observe is the same — result, error code, message, raw headers, payload, unread bytes and
    (unless parsing fails) the byte counters. Every configuration, every starting state of the parser. -/
theorem segmentation_independent (cfg : Cfg) (s : S) (bufs₁ bufs₂ : List Bytes)
    (h₁ : ∀ b ∈ bufs₁, b ≠ []) (h₂ : ∀ b ∈ bufs₂, b ≠ []) (hflat : bufs₁.flatten = bufs₂.flatten) :
    outcome cfg s bufs₁ = outcome cfg s bufs₂ := by
  by_cases e1 : bufs₁ = []
  · subst e1
    have : bufs₂ = [] := by
      cases bufs₂ with
      | nil => rfl
      | cons b r =>
        have := h₂ b (by simp)
        simp at hflat; exact absurd hflat.1 this
    rw [this]
  · have e2 : bufs₂ ≠ [] := by
      rintro rfl
      cases bufs₁ with
      | nil => exact e1 rfl
      | cons b r =>
        have := h₁ b (by simp)
        simp at hflat; exact absurd hflat.1 this
    rw [outcome_flatten cfg bufs₁ s h₁ e1, outcome_flatten cfg bufs₂ s h₂ e2, hflat]

/-- A configuration for the examples: requests, default limits. -/
def reqCfg : Cfg := { isRequest := true }
/-- A POST request with body "hi", followed by two further bytes. -/
def exampleStream : Bytes := b! "POST /a?b=c HTTP/1.1\r\nContent-Length: 2\r\n\r\nhiXY"

-- the theorem applies to a real message, cut byte by byte and in one piece, and the message is complete
example : exampleStream.length = 47 ∧ (outcome reqCfg (fresh reqCfg {}) [exampleStream]).map
    (fun o => (o.result, o.unread, o.message.content, o.message.resource)) =
    some (.yes, b! "XY", [some 104, some 105], b! "/a") := by decide +kernel
example : (outcome reqCfg (fresh reqCfg {}) (exampleStream.map fun c => [c])).map
    (fun o => (o.result, o.unread, o.message.content, o.message.resource)) =
    some (.yes, b! "XY", [some 104, some 105], b! "/a") := by decide +kernel

/-- The exception in `counters` is necessary: after an error the code does not add the bytes of the current
    buffer, so `get_total_bytes_read()` depends on the segmentation. -/
theorem total_after_error_depends_on_segmentation :
    ∃ (bufs₁ bufs₂ : List Bytes), bufs₁.flatten = bufs₂.flatten ∧ (∀ b ∈ bufs₁ ++ bufs₂, b ≠ []) ∧
      (feed reqCfg (fresh reqCfg {}) bufs₁).map (fun r => (r.1, r.2.1.totalRead)) = some (.no, 0) ∧
      (feed reqCfg (fresh reqCfg {}) bufs₂).map (fun r => (r.1, r.2.1.totalRead)) = some (.no, 3) :=
  ⟨[b! "GET("], [b! "GET", b! "("], by decide +kernel⟩

/-- **C12.** If the bytes `a` complete a message, then the same bytes followed by anything complete the same
    message, with all of the following bytes unread. -/
theorem trailing_bytes_untouched (cfg : Cfg) (s : S) (a b : Bytes) (ha : a ≠ []) (o : Outcome)
    (h : outcome cfg s [a] = some o) (hd : o.result ≠ .more) :
    outcome cfg s [a ++ b] = some { o with unread := o.unread ++ b } := by
  by_cases hb : b = []
  · subst hb; simpa using h
  obtain ⟨rc, s', rest, hp, _, h2⟩ := parse_append cfg s a b ha hb
  rw [outcome_single, hp] at h
  simp only [Option.map_some, Option.some.injEq] at h
  have hrc : rc ≠ .more := by subst h; exact hd
  have he := h2 hrc
  obtain ⟨r1, t1, _, e1⟩ := parse_runs cfg s (a ++ b)
  rw [outcome_single, e1]
  rw [e1] at he
  simp only [Option.map_some, Option.some.injEq] at he ⊢
  rw [observe_of_obs he, ← h]
  rfl

/-- **C12, the unread bytes are a suffix of the stream**: nothing is invented, skipped or reordered. -/
theorem unread_is_suffix (cfg : Cfg) (s : S) (a : Bytes) (o : Outcome) (h : outcome cfg s [a] = some o) :
    ∃ p, a = p ++ o.unread := by
  have iter_suffix : ∀ (s : S) (buf : Bytes), ∃ p, buf = p ++ (iter cfg s buf).2.2 := by
    intro s buf
    by_cases hh : s.ms = .start ∨ s.ms = .headers ∨ s.ms = .footers
    · rw [iter_headers cfg s buf hh]
      have e : (postH cfg (parseHeaders cfg (enterH s) buf)).2.2 = (parseHeaders cfg (enterH s) buf).2.2 := by
        unfold postH; split <;> rfl
      rw [e, parseHeaders_eq, count_rest]
      exact run_suffix _ _ _
    · cases hs : s.ms with
      | start | headers | footers => simp [hs] at hh
      | chunks =>
        rw [iter_chunks cfg s buf hs]
        have e : (postC cfg (parseChunks cfg s buf)).2.2 = (parseChunks cfg s buf).2.2 := by
          unfold postC; split <;> rfl
        rw [e, parseChunks_eq, count_rest]
        exact run_suffix _ _ _
      | content =>
        unfold iter; simp only [hs]
        rw [consumeContent_eq]
        split
        · exact ⟨[], rfl⟩
        · exact ⟨buf.take (min s.remaining buf.length), (List.take_append_drop _ _).symm⟩
      | noLength =>
        unfold iter consumeAsNextChunk; simp only [hs]
        cases buf with
        | nil => exact ⟨[], rfl⟩
        | cons c t => exact ⟨c :: t, by simp⟩
      | end_ => unfold iter; simp only [hs]; exact ⟨[], rfl⟩
  have runs_suffix : ∀ {s buf r}, Runs cfg s buf r → ∃ p, buf = p ++ r.2.2 := by
    intro s buf r hr
    induction hr with
    | @stop s buf _ => exact iter_suffix s buf
    | @next s buf r _ _ _ ih =>
      obtain ⟨p1, h1⟩ := iter_suffix s buf
      obtain ⟨p2, h2⟩ := ih
      exact ⟨p1 ++ p2, by rw [List.append_assoc, ← h2]; exact h1⟩
  obtain ⟨r, t, hr, hp⟩ := parse_runs cfg s a
  rw [outcome_single, hp] at h
  simp only [Option.map_some, Option.some.injEq] at h
  subst h
  exact runs_suffix hr

/-- **C12, pipelining.** Let every message of a list be complete when parsed alone. Then their concatenation,
    followed by any bytes, parses into exactly the same messages, one after another, and leaves those bytes. -/
theorem pipeline_as_if_alone (cfg : Cfg) (m : Msg) (msgs : List (Bytes × Outcome)) (tail : Bytes)
    (hne : ∀ p ∈ msgs, p.1 ≠ [])
    (h : ∀ p ∈ msgs, outcome cfg (fresh cfg m) [p.1] = some p.2 ∧ p.2.result = .yes ∧ p.2.unread = []) :
    parsePipeline cfg m msgs.length ((msgs.map (·.1)).flatten ++ tail) = some (msgs.map (·.2), tail) := by
  induction msgs with
  | nil => rfl
  | cons p ps ih =>
    obtain ⟨h1, h2, h3⟩ := h p (by simp)
    have ht := trailing_bytes_untouched cfg (fresh cfg m) p.1 ((ps.map (·.1)).flatten ++ tail)
      (hne p (by simp)) p.2 h1 (by rw [h2]; simp)
    obtain ⟨r, t, hr, hp⟩ := parse_runs cfg (fresh cfg m) (p.1 ++ ((ps.map (·.1)).flatten ++ tail))
    rw [outcome_single, hp] at ht
    simp only [Option.map_some, Option.some.injEq, h3, List.nil_append] at ht
    have hr1 : r.1 = .yes := by
      have := congrArg Outcome.result ht
      simpa [observe, h2] using this
    have hr2 : r.2.2 = (ps.map (·.1)).flatten ++ tail := by
      have := congrArg Outcome.unread ht
      simpa [observe] using this
    have ho : observe .yes (parseEnd cfg r.1 r.2.1 t) [] = p.2 := by
      have e : observe .yes (parseEnd cfg r.1 r.2.1 t) [] =
        { observe r.1 (parseEnd cfg r.1 r.2.1 t) r.2.2 with unread := [] } := by rw [hr1]; rfl
      rw [e, ht]
      have : p.2 = { p.2 with unread := p.2.unread } := rfl
      rw [h3] at this
      exact this.symm
    have ihr := ih (fun q hq => hne q (by simp [hq])) (fun q hq => h q (by simp [hq]))
    simp only [List.map_cons, List.flatten_cons, List.length_cons, List.append_assoc]
    rw [parsePipeline, hp, hr1]
    simp only
    rw [hr2, ihr]
    rw [hr1] at ho
    simp only [Option.map_some, ho]

-- two pipelined requests; the second has a body
def exampleTwo : Bytes := b! "GET /x HTTP/1.1\r\n\r\nPUT /y HTTP/1.0\r\nContent-Length: 1\r\n\r\nZtail"
example : (parsePipeline reqCfg {} 2 exampleTwo).map
      (fun r => (r.1.map fun o => o.message.resource, r.1.map fun o => o.message.content, r.2)) =
    some ([b! "/x", b! "/y"], [[], [some 90]], b! "tail") := by decide +kernel
-- the hypotheses of `pipeline_as_if_alone` hold for such requests
example : (outcome reqCfg (fresh reqCfg {}) [b! "GET /x HTTP/1.1\r\n\r\n"]).map (fun o => (o.result, o.unread)) =
    some (.yes, []) := by decide +kernel

/-- **C17.** In every state of the parser and on every buffer, `parse` returns (the model's `none` means that the
    `do ... while` loop does not end), and when it asks for more data it has consumed the whole buffer. -/
theorem parse_terminates_and_progresses (cfg : Cfg) (s : S) (buf : Bytes) :
    ∃ rc s' rest, parse cfg s buf = some (rc, s', rest) ∧ (rc = .more → rest = []) := by
  obtain ⟨r, t, hr, hp⟩ := parse_runs cfg s buf
  exact ⟨_, _, _, hp, fun h => runs_more_rest cfg hr h⟩

-- a state in which more data is wanted
example : (parse reqCfg (fresh reqCfg {}) (b! "GET / HT")).map (fun r => (r.1, r.2.2)) = some (.more, []) := by
  decide +kernel

end Verif.Props.HttpSegmentation
