import Verif.Lemmas.HttpForward
import Verif.Props.HttpSegmentation
/-
What `parse` does with a well-formed message head, up to the body.
-/
namespace Verif.Http

/-- The parser state at the end of a well-formed head, before `finish_header_parsing`. -/
def afterHead (cfg : Cfg) (m : Msg) (h : Head) (hs : Dict) (n v : Bytes) : S :=
  let k := (wireHead h hs).length
  match h with
  | .request meth r q major minor =>
    { ms := .headers, hs := .expFinalNewline, method := meth, resource := r, query := q, headerName := n, headerValue := v,
      msg := { m with verMajor := major, verMinor := minor, headers := m.headers ++ hs },
      raw := rawAdd cfg [] (wireHead h hs), lastRead := k, totalRead := k }
  | .response major minor code text =>
    { ms := .headers, hs := .expFinalNewline, statusCode := code, statusMessage := text, headerName := n, headerValue := v,
      msg := { m with verMajor := major, verMinor := minor, headers := m.headers ++ hs },
      raw := rawAdd cfg [] (wireHead h hs), lastRead := k, totalRead := k }

theorem parseHeaders_head (cfg : Cfg) (m : Msg) (h : Head) (hs : Dict) (hr : cfg.isRequest = h.isRequest)
    (ok : h.Ok) (hok : ∀ e ∈ hs, HeaderOk e) (rest : Bytes) :
    ∃ n v, parseHeaders cfg (enterH (fresh cfg m)) (wireHead h hs ++ rest) = (.yes, afterHead cfg m h hs n v, rest) := by
  cases h with
  | request meth r q major minor =>
    have hr' : cfg.isRequest = true := hr
    have ok' : RequestLineOk meth r q major minor := ok
    have p := steps_requestLine cfg ((enterH (fresh cfg m)).setL 0) hr' (by simp [enterH, fresh, initHs, hr', S.setL])
      meth r q major minor ok' rfl
    obtain ⟨n, v, p2⟩ := run_headerBlock cfg hs { (enterH (fresh cfg m)).setL 0 with
        hs := .headerStart, method := meth, resource := r, query := q,
        msg := { m with verMajor := major, verMinor := minor },
        raw := rawAdd cfg [] (requestLine meth r q major minor) }
      (fun _ => by have := ok'.majorOk.1; simp only; omega) rfl hok rest
    refine ⟨n, v, ?_⟩
    have e := (p (headerBlock hs ++ rest)).trans p2
    rw [← List.append_assoc] at e
    rw [parseHeaders_eq]
    simp only [wireHead, Head.line]
    rw [e]
    simp only [count, reduceCtorEq, if_false, List.length_append, Nat.add_sub_cancel]
    simp [afterHead, enterH, fresh, S.setL, S.upd, wireHead, Head.line, rawAdd_append]
  | response major minor code text =>
    have hr' : cfg.isRequest = false := hr
    have ok' : StatusLineOk major minor code text := ok
    have p := steps_statusLine cfg ((enterH (fresh cfg m)).setL 0) hr' (by simp [enterH, fresh, initHs, hr', S.setL])
      major minor code text ok'
    obtain ⟨n, v, p2⟩ := run_headerBlock cfg hs { (enterH (fresh cfg m)).setL 0 with
        hs := .headerStart, statusCode := code, statusMessage := text,
        msg := { m with verMajor := major, verMinor := minor },
        raw := rawAdd cfg [] (statusLine major minor code text) }
      (fun h => by rw [hr'] at h; cases h) rfl hok rest
    refine ⟨n, v, ?_⟩
    have e := (p (headerBlock hs ++ rest)).trans p2
    rw [← List.append_assoc] at e
    rw [parseHeaders_eq]
    simp only [wireHead, Head.line]
    rw [e]
    simp only [count, reduceCtorEq, if_false, List.length_append, Nat.add_sub_cancel]
    simp [afterHead, enterH, fresh, S.setL, S.upd, wireHead, Head.line, rawAdd_append]

theorem afterHead_ms (cfg : Cfg) (m : Msg) (h : Head) (hs : Dict) (n v : Bytes) :
    (afterHead cfg m h hs n v).ms = .headers := by
  unfold afterHead; cases h <;> rfl

theorem iter_head (cfg : Cfg) (m : Msg) (h : Head) (hs : Dict) (hr : cfg.isRequest = h.isRequest)
    (ok : h.Ok) (hok : ∀ e ∈ hs, HeaderOk e) (rest : Bytes) :
    ∃ n v, iter cfg (fresh cfg m) (wireHead h hs ++ rest) =
      ((finishHeaders cfg (afterHead cfg m h hs n v)).1, (finishHeaders cfg (afterHead cfg m h hs n v)).2, rest) := by
  obtain ⟨n, v, e⟩ := parseHeaders_head cfg m h hs hr ok hok rest
  refine ⟨n, v, ?_⟩
  rw [iter_headers cfg _ _ (.inl rfl), e]
  simp [postH, afterHead_ms]

/-- The message as it is after the head `t` has been read and interpreted: what `finish_header_parsing` looks at. -/
structure HeadDone (cfg : Cfg) (m : Msg) (h : Head) (hs : Dict) (t : Bytes) (s : S) : Prop where
  stored : h.StoredIn s.msg
  headers : s.msg.headers = m.headers ++ hs
  chunked : s.msg.isChunked = match (m.headers ++ hs : Dict).find? cfg.ord (b! "Transfer-Encoding") with
      | some v => Msg.mentionsChunked v
      | none => false
  contentRead : s.contentRead = 0
  chunkCache : s.msg.chunkCache = m.chunkCache
  totalRead : s.totalRead = t.length
  payload : s.payload = []
  fault : s.fault = none
  ec : s.ec = none
  cs : s.cs = .sizeStart
  missing : s.msg.missing = m.missing
  requestMethod : s.msg.requestMethod = m.requestMethod
  contentLength : s.msg.contentLength = 0
  content : s.msg.content = m.content

theorem finishHeaders1_done (cfg : Cfg) (m : Msg) (h : Head) (hs : Dict) (n v : Bytes) (hr : cfg.isRequest = h.isRequest) :
    HeadDone cfg m h hs (wireHead h hs) (finishHeaders1 cfg (afterHead cfg m h hs n v)) := by
  cases h with
  | request meth r q major minor =>
    have hr' : cfg.isRequest = true := hr
    unfold finishHeaders1 updateMessage
    rw [if_pos hr']
    exact ⟨⟨rfl, rfl, rfl, rfl, rfl, rfl⟩, rfl, rfl, rfl, rfl, rfl, rfl, rfl, rfl, rfl, rfl, rfl, rfl, rfl⟩
  | response major minor code text =>
    have hr' : cfg.isRequest = false := hr
    unfold finishHeaders1 updateMessage
    rw [if_neg (by simp [hr'])]
    exact ⟨⟨rfl, rfl, rfl, rfl⟩, rfl, rfl, rfl, rfl, rfl, rfl, rfl, rfl, rfl, rfl, rfl, rfl, rfl⟩

/-- `parse` on a new parser and a well-formed head: the rest of the work starts in a state `s` with the properties
    listed in `HeadDone`. -/
theorem iter_wireHead (cfg : Cfg) (m : Msg) (h : Head) (hs : Dict) (hr : cfg.isRequest = h.isRequest)
    (ok : h.Ok) (hok : ∀ e ∈ hs, HeaderOk e) (rest : Bytes) :
    ∃ s, HeadDone cfg m h hs (wireHead h hs) s ∧ iter cfg (fresh cfg m) (wireHead h hs ++ rest) =
      ((finishHeaders2 cfg s).1, (finishHeaders2 cfg s).2, rest) := by
  obtain ⟨n, v, e⟩ := iter_head cfg m h hs hr ok hok rest
  exact ⟨_, finishHeaders1_done cfg m h hs n v hr, by rw [e]; rfl⟩

/-! ### From one pass to the outcome -/

theorem parseBegin_fresh (cfg : Cfg) (m : Msg) (hm : m.missing = false) : parseBegin (fresh cfg m) = fresh cfg m := by
  unfold parseBegin; simp [fresh, hm]

/-- What an observer of a finished run sees. -/
def endOutcome (cfg : Cfg) (r : Tri × S × Bytes) : Outcome :=
  observe r.1 (parseEnd cfg r.1 r.2.1 0) r.2.2

theorem observe_setL (rc : Tri) (s : S) (k : Nat) (u : Bytes) : observe rc (s.setL k) u = observe rc s u := rfl

theorem outcome_of_runs (cfg : Cfg) {s : S} {buf : Bytes} {r : Tri × S × Bytes} (h : Runs cfg (parseBegin s) buf r) :
    outcome cfg s [buf] = some (endOutcome cfg r) := by
  obtain ⟨t, ht⟩ := parse_of_runs cfg h
  rw [Verif.Props.HttpSegmentation.outcome_single, ht]
  rfl

theorem outcome_of_iter (cfg : Cfg) {s : S} {buf : Bytes} {rc : Tri} {s' : S} {rest : Bytes}
    (hb : parseBegin s = s) (h : iter cfg s buf = (rc, s', rest)) (hstop : rc ≠ .more ∨ rest = []) :
    outcome cfg s [buf] = some (endOutcome cfg (rc, s', rest)) := by
  have := Runs.stop (cfg := cfg) (s := s) (buf := buf) (by rw [h]; rintro ⟨h1, h2⟩; rcases hstop with e | e <;> contradiction)
  rw [h] at this
  exact outcome_of_runs cfg (by rw [hb]; exact this)

theorem outcome_of_iter2 (cfg : Cfg) {s : S} {buf : Bytes} {s1 : S} {rest1 : Bytes} {rc : Tri} {s' : S} {rest : Bytes}
    (hb : parseBegin s = s) (h1 : iter cfg s buf = (.more, s1, rest1)) (hne : rest1 ≠ [])
    (h2 : iter cfg s1 rest1 = (rc, s', rest)) (hstop : rc ≠ .more ∨ rest = []) :
    outcome cfg s [buf] = some (endOutcome cfg (rc, s', rest)) := by
  have r2 := Runs.stop (cfg := cfg) (s := s1) (buf := rest1)
    (by rw [h2]; rintro ⟨h1, h2⟩; rcases hstop with e | e <;> contradiction)
  have := Runs.next (cfg := cfg) (s := s) (buf := buf) (r := (rc, s', rest)) (by rw [h1]) (by rw [h1]; exact hne)
    (by rw [h1]; rw [h2] at r2; exact r2)
  exact outcome_of_runs cfg (by rw [hb]; exact this)

end Verif.Http
