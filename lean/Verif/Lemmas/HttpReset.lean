import Verif.Lemmas.HttpParse
/-
Fields of the parser which `reset()` does not clear are dead: a simulation between two parser states which agree
on everything that is live.
-/
namespace Verif.Http

/-- Replace the six fields which `reset()` leaves alone. -/
def S.six (s : S) (hn hv z : Bytes) (a b r : Nat) : S :=
  { s with headerName := hn, headerValue := hv, chunkSizeStr := z, chunkSize := a, chunkRead := b, remaining := r }

def liveN : HState → Bool
  | .headerName | .spaceBeforeValue | .headerValue => true
  | _ => false
def liveV : HState → Bool
  | .spaceBeforeValue | .headerValue => true
  | _ => false
def liveZ : CState → Bool
  | .size | .ignoredText | .expCrAfterSize | .expLfAfterSize => true
  | _ => false
def liveC : CState → Bool
  | .chunk => true
  | _ => false
def liveR : MState → Bool
  | .content => true
  | _ => false

/-- Agreement on the live fields. -/
structure Live (s : S) (hn hv z : Bytes) (a b r : Nat) : Prop where
  n : liveN s.hs = true → hn = s.headerName
  v : liveV s.hs = true → hv = s.headerValue
  z : liveZ s.cs = true → z = s.chunkSizeStr
  a : liveC s.cs = true → a = s.chunkSize
  b : liveC s.cs = true → b = s.chunkRead
  r : liveR s.ms = true → r = s.remaining

/-- Simulation relation. -/
def Sim (s t : S) : Prop := ∃ hn hv z a b r, t = s.six hn hv z a b r ∧ Live s hn hv z a b r

theorem Sim.refl (s : S) : Sim s s :=
  ⟨s.headerName, s.headerValue, s.chunkSizeStr, s.chunkSize, s.chunkRead, s.remaining, rfl,
    ⟨fun _ => rfl, fun _ => rfl, fun _ => rfl, fun _ => rfl, fun _ => rfl, fun _ => rfl⟩⟩

/-- Related outcomes of a byte. -/
inductive SimRes : HRes → HRes → Prop
  | more {s t} : Sim s t → SimRes (.more s) (.more t)
  | done {s t f} : Sim s t → SimRes (.done s f) (.done t f)
  | fail {s t e} : Sim s t → SimRes (.fail s e) (.fail t e)

macro "sim_done" h:ident : tactic =>
  `(tactic| (constructor; refine ⟨_, _, _, _, _, _, rfl, ?_⟩; constructor <;>
      first
        | exact fun _ => rfl | exact ($h).n | exact ($h).v | exact ($h).z | exact ($h).a | exact ($h).b | exact ($h).r
        | (simp [liveN, liveV, liveZ, liveC, liveR]; done)
        | (intro hx; simp [liveN, liveV, liveZ, liveC, liveR, S.startName, S.addHeader, S.noVersion] at hx; done)))

theorem hswitch_sim (cfg : Cfg) (s t : S) (c : UInt8) (h : Sim s t) : SimRes (hswitch cfg s c) (hswitch cfg t c) := by
  obtain ⟨hn, hv, z, a, b, r, rfl, hl⟩ := h
  obtain ⟨ms, hs, cs, f1, f2, f3, f4, f5, f6, hn', hv', z', a', b', r', f7, f8, f9, f10, f11, f12, f13⟩ := s
  cases hs
  case headerName =>
    have h1 : hn = hn' := hl.n rfl
    subst h1
    simp only [hswitch, S.six]
    repeat' split
    all_goals first | sim_done hl | (rename_i hq; simp only [hq, if_true, if_false]; sim_done hl)
  case spaceBeforeValue =>
    have h1 : hn = hn' := hl.n rfl
    have h2 : hv = hv' := hl.v rfl
    subst h1 h2
    simp only [hswitch, S.six, S.addHeader]
    repeat' split
    all_goals sim_done hl
  case headerValue =>
    have h1 : hn = hn' := hl.n rfl
    have h2 : hv = hv' := hl.v rfl
    subst h1 h2
    simp only [hswitch, S.six, S.addHeader]
    repeat' split
    all_goals first | sim_done hl | (rename_i hq; simp only [hq, if_true, if_false]; sim_done hl)
  all_goals
    simp only [hswitch, S.six, S.noVersion, S.startName]
    repeat' split
    all_goals first | sim_done hl | (rename_i hq; simp only [hq, if_true, if_false]; sim_done hl)

theorem hstep_sim (cfg : Cfg) (s t : S) (c : UInt8) (h : Sim s t) : SimRes (hstep cfg s c) (hstep cfg t c) := by
  unfold hstep
  cases cfg.saveRaw
  · exact hswitch_sim cfg s t c h
  · refine hswitch_sim cfg _ _ c ?_
    obtain ⟨hn, hv, z, a, b, r, rfl, hl⟩ := h
    exact ⟨hn, hv, z, a, b, r, rfl, hl.n, hl.v, hl.z, hl.a, hl.b, hl.r⟩

theorem chunkData_six (cfg : Cfg) (s : S) (c : UInt8) (hn hv z : Bytes) (r : Nat) :
    chunkData cfg (s.six hn hv z s.chunkSize s.chunkRead r) c [] =
      ((chunkData cfg s c []).1.six hn hv z (chunkData cfg s c []).1.chunkSize (chunkData cfg s c []).1.chunkRead r,
       (chunkData cfg s c []).2) := by
  have e1 : (s.six hn hv z s.chunkSize s.chunkRead r).chunkRead = s.chunkRead := rfl
  have e2 : (s.six hn hv z s.chunkSize s.chunkRead r).chunkSize = s.chunkSize := rfl
  have e3 : (s.six hn hv z s.chunkSize s.chunkRead r).msg = s.msg := rfl
  simp only [chunkData, e1, e2, e3]
  repeat' split
  all_goals rfl

theorem cbyte_sim (cfg : Cfg) (s t : S) (c : UInt8) (h : Sim s t) : SimRes (cbyte cfg s c) (cbyte cfg t c) := by
  obtain ⟨hn, hv, z, a, b, r, rfl, hl⟩ := h
  cases hc : s.cs
  case chunk =>
    have h1 : a = s.chunkSize := hl.a (by rw [hc]; rfl)
    have h2 : b = s.chunkRead := hl.b (by rw [hc]; rfl)
    subst h1 h2
    simp only [cbyte, cstep, hc, show (s.six hn hv z s.chunkSize s.chunkRead r).cs = s.cs from rfl]
    rw [chunkData_six]
    have e : (chunkData cfg s c []).1.hs = s.hs ∧ (chunkData cfg s c []).1.cs = s.cs ∧
        (chunkData cfg s c []).1.ms = s.ms ∧ (chunkData cfg s c []).1.headerName = s.headerName ∧
        (chunkData cfg s c []).1.headerValue = s.headerValue ∧ (chunkData cfg s c []).1.remaining = s.remaining := by
      unfold chunkData; (repeat' split) <;> exact ⟨rfl, rfl, rfl, rfl, rfl, rfl⟩
    generalize chunkData cfg s c [] = q at *
    obtain ⟨q, k⟩ := q
    simp only at e ⊢
    obtain ⟨e1, e2, e3, e4, e5, e6⟩ := e
    have hl' : Live q hn hv z q.chunkSize q.chunkRead r :=
      ⟨by rw [e1, e4]; exact hl.n, by rw [e1, e5]; exact hl.v, by rw [e2, hc]; simp [liveZ], fun _ => rfl, fun _ => rfl,
        by rw [e3, e6]; exact hl.r⟩
    simp only [show (q.six hn hv z q.chunkSize q.chunkRead r).chunkRead = q.chunkRead from rfl,
      show (q.six hn hv z q.chunkSize q.chunkRead r).chunkSize = q.chunkSize from rfl]
    split
    · exact .more ⟨hn, hv, z, q.chunkSize, q.chunkRead, r, rfl, hl'.n, hl'.v, by simp [liveZ], fun _ => rfl,
        fun _ => rfl, hl'.r⟩
    · exact .more ⟨hn, hv, z, q.chunkSize, q.chunkRead, r, rfl, hl'⟩
  all_goals
    obtain ⟨ms, hs, cs, f1, f2, f3, f4, f5, f6, hn', hv', z', a', b', r', f7, f8, f9, f10, f11, f12, f13⟩ := s
    simp only at hc
    subst hc
    first
      | (have h1 : z = z' := hl.z rfl
         subst h1)
      | skip
    simp only [cbyte, cstep, S.six]
    repeat' split
    all_goals simp only [CRes.toH]
    all_goals first | sim_done hl | (rename_i hq; simp only [hq, if_true, if_false]; sim_done hl)

/-- Related results of a parser function. -/
def SimR (r r' : Tri × S × Bytes) : Prop := r'.1 = r.1 ∧ r'.2.2 = r.2.2 ∧ Sim r.2.1 r'.2.1

theorem Sim.ec {s t : S} (h : Sim s t) (e : Option Err) : Sim { s with ec := e } { t with ec := e } := by
  obtain ⟨hn, hv, z, a, b, r, rfl, hl⟩ := h
  exact ⟨hn, hv, z, a, b, r, rfl, hl.n, hl.v, hl.z, hl.a, hl.b, hl.r⟩

theorem run_sim (step : S → UInt8 → HRes) (h : ∀ s t c, Sim s t → SimRes (step s c) (step t c)) (buf : Bytes) :
    ∀ s t, Sim s t → SimR (run step s buf) (run step t buf) := by
  induction buf with
  | nil => intro s t hst; exact ⟨rfl, rfl, hst⟩
  | cons c buf ih =>
    intro s t hst
    simp only [run]
    have := h s t c hst
    generalize step s c = x at *
    generalize step t c = y at *
    cases this with
    | more hx => exact ih _ _ hx
    | @done s t f hx => cases f <;> exact ⟨rfl, rfl, hx⟩
    | @fail s t e hx => exact ⟨rfl, rfl, hx.ec _⟩

theorem Sim.upd {s t : S} (h : Sim s t) (l n c : Nat) : Sim (s.upd l n c) (t.upd l n c) := by
  obtain ⟨hn, hv, z, a, b, r, rfl, hl⟩ := h
  exact ⟨hn, hv, z, a, b, r, rfl, hl.n, hl.v, hl.z, hl.a, hl.b, hl.r⟩

theorem Sim.setL {s t : S} (h : Sim s t) (l : Nat) : Sim (s.setL l) (t.setL l) := by
  obtain ⟨hn, hv, z, a, b, r, rfl, hl⟩ := h
  exact ⟨hn, hv, z, a, b, r, rfl, hl.n, hl.v, hl.z, hl.a, hl.b, hl.r⟩

theorem Sim.totalRead {s t : S} (h : Sim s t) : t.totalRead = s.totalRead ∧ t.contentRead = s.contentRead ∧
    t.lastRead = s.lastRead ∧ t.ms = s.ms ∧ t.msg = s.msg ∧ t.ec = s.ec ∧ t.payload = s.payload ∧ t.raw = s.raw
    ∧ t.fault = s.fault := by
  obtain ⟨hn, hv, z, a, b, r, rfl, hl⟩ := h
  exact ⟨rfl, rfl, rfl, rfl, rfl, rfl, rfl, rfl, rfl⟩

theorem count_sim (content : Bool) (buf : Bytes) {r r' : Tri × S × Bytes} (h : SimR r r') :
    SimR (count content buf r) (count content buf r') := by
  obtain ⟨rc, s, rest⟩ := r
  obtain ⟨rc', s', rest'⟩ := r'
  obtain ⟨h1, h2, h3⟩ := h
  simp only at h1 h2 h3
  subst h1 h2
  obtain ⟨e1, e2, -⟩ := h3.totalRead
  unfold count
  simp only
  split
  · exact ⟨rfl, rfl, h3⟩
  · refine ⟨rfl, rfl, ?_⟩
    simp only [e1, e2]
    exact h3.upd _ _ _

/-- A change of the state which depends only on, and only changes, fields other than the six (and phases). -/
theorem createBuffer_six (s : S) (hn hv z : Bytes) (a b r : Nat) :
    createBuffer (s.six hn hv z a b r) = (createBuffer s).six hn hv z a b r := by
  unfold createBuffer
  rw [show (s.six hn hv z a b r).msg = s.msg from rfl]
  split <;> rfl

theorem concatenateChunks_six (s : S) (hn hv z : Bytes) (a b r : Nat) :
    concatenateChunks (s.six hn hv z a b r) = (concatenateChunks s).six hn hv z a b r := by
  unfold concatenateChunks
  have : createBuffer { s.six hn hv z a b r with
      msg := { (s.six hn hv z a b r).msg with contentLength := (s.six hn hv z a b r).msg.chunkCache.length } }
    = (createBuffer { s with msg := { s.msg with contentLength := s.msg.chunkCache.length } }).six hn hv z a b r :=
    createBuffer_six { s with msg := { s.msg with contentLength := s.msg.chunkCache.length } } hn hv z a b r
  simp only [this]
  generalize createBuffer { s with msg := { s.msg with contentLength := s.msg.chunkCache.length } } = s'
  rw [show (s'.six hn hv z a b r).msg = s'.msg from rfl]
  split <;> rfl

/-- The phases and the six fields. -/
def key (s : S) := (s.ms, s.hs, s.cs, s.headerName, s.headerValue, s.chunkSizeStr, s.chunkSize, s.chunkRead, s.remaining)

theorem Live.of_key {s s' : S} {hn hv z a b r} (hl : Live s hn hv z a b r) (h : key s' = key s) :
    Live s' hn hv z a b r := by
  simp only [key, Prod.mk.injEq] at h
  obtain ⟨h1, h2, h3, h4, h5, h6, h7, h8, h9⟩ := h
  exact ⟨by rw [h2, h4]; exact hl.n, by rw [h2, h5]; exact hl.v, by rw [h3, h6]; exact hl.z,
    by rw [h3, h7]; exact hl.a, by rw [h3, h8]; exact hl.b, by rw [h1, h9]; exact hl.r⟩

/-- A function commuting with the six fields and keeping them is compatible with the simulation. -/
theorem Sim.map {f : S → S} (hf : ∀ s hn hv z a b r, f (s.six hn hv z a b r) = (f s).six hn hv z a b r)
    (hk : ∀ s, key (f s) = key s) {s t : S} (h : Sim s t) : Sim (f s) (f t) := by
  obtain ⟨hn, hv, z, a, b, r, rfl, hl⟩ := h
  exact ⟨hn, hv, z, a, b, r, hf _ _ _ _ _ _ _, hl.of_key (hk s)⟩

theorem createBuffer_key (s : S) : key (createBuffer s) = key s := by
  unfold createBuffer; split <;> rfl

theorem concatenateChunks_key (s : S) : key (concatenateChunks s) = key s := by
  have h := createBuffer_key { s with msg := { s.msg with contentLength := s.msg.chunkCache.length } }
  unfold concatenateChunks
  simp only
  split
  · exact h
  · exact h

theorem Sim.concatenateChunks {s t : S} (h : Sim s t) : Sim (concatenateChunks s) (concatenateChunks t) :=
  h.map concatenateChunks_six concatenateChunks_key

theorem finishHeaders2_six (cfg : Cfg) (s : S) (hn hv z : Bytes) (a b : Nat) :
    finishHeaders2 cfg (s.six hn hv z a b s.remaining) =
      ((finishHeaders2 cfg s).1, (finishHeaders2 cfg s).2.six hn hv z a b (finishHeaders2 cfg s).2.remaining) := by
  unfold finishHeaders2
  rw [show (s.six hn hv z a b s.remaining).msg = s.msg from rfl]
  split
  · rfl
  split
  · rfl
  split
  · cases s.msg.updateContentLength cfg.ord with
    | none => rfl
    | some m =>
      simp only
      split
      · rfl
      split
      · rfl
      · have h1 := createBuffer_six { s with
          ms := .content, remaining := m.contentLength,
          msg := if cfg.maxContent < m.contentLength then { m with contentLength := cfg.maxContent } else m }
          hn hv z a b m.contentLength
        have h2 := createBuffer_key { s with
          ms := .content, remaining := m.contentLength,
          msg := if cfg.maxContent < m.contentLength then { m with contentLength := cfg.maxContent } else m }
        simp only [key, Prod.mk.injEq] at h2
        rw [h2.2.2.2.2.2.2.2.2]
        exact congrArg (Prod.mk Tri.more) h1
  split <;> rfl

theorem finishHeaders2_key (cfg : Cfg) (s : S) : (finishHeaders2 cfg s).2.hs = s.hs ∧ (finishHeaders2 cfg s).2.cs = s.cs ∧
    (finishHeaders2 cfg s).2.headerName = s.headerName ∧ (finishHeaders2 cfg s).2.headerValue = s.headerValue ∧
    (finishHeaders2 cfg s).2.chunkSizeStr = s.chunkSizeStr ∧ (finishHeaders2 cfg s).2.chunkSize = s.chunkSize ∧
    (finishHeaders2 cfg s).2.chunkRead = s.chunkRead := by
  unfold finishHeaders2
  split
  · exact ⟨rfl, rfl, rfl, rfl, rfl, rfl, rfl⟩
  split
  · exact ⟨rfl, rfl, rfl, rfl, rfl, rfl, rfl⟩
  split
  · cases s.msg.updateContentLength cfg.ord with
    | none => exact ⟨rfl, rfl, rfl, rfl, rfl, rfl, rfl⟩
    | some m =>
      simp only
      split
      · exact ⟨rfl, rfl, rfl, rfl, rfl, rfl, rfl⟩
      split
      · exact ⟨rfl, rfl, rfl, rfl, rfl, rfl, rfl⟩
      · have h2 := createBuffer_key { s with
          ms := .content, remaining := m.contentLength,
          msg := if cfg.maxContent < m.contentLength then { m with contentLength := cfg.maxContent } else m }
        simp only [key, Prod.mk.injEq] at h2
        exact ⟨h2.2.1, h2.2.2.1, h2.2.2.2.1, h2.2.2.2.2.1, h2.2.2.2.2.2.1, h2.2.2.2.2.2.2.1, h2.2.2.2.2.2.2.2.1⟩
  split <;> exact ⟨rfl, rfl, rfl, rfl, rfl, rfl, rfl⟩

theorem finishHeaders_sim (cfg : Cfg) {s t : S} (h : Sim s t) :
    (finishHeaders cfg t).1 = (finishHeaders cfg s).1 ∧ Sim (finishHeaders cfg s).2 (finishHeaders cfg t).2 := by
  obtain ⟨hn, hv, z, a, b, r, rfl, hl⟩ := h
  rw [finishHeaders_eq, finishHeaders_eq]
  have e : finishHeaders1 cfg (s.six hn hv z a b r) =
      (finishHeaders1 cfg s).six hn hv z a b (finishHeaders1 cfg s).remaining := by
    unfold finishHeaders1 updateMessage; cases cfg.isRequest <;> rfl
  have k : (finishHeaders1 cfg s).hs = s.hs ∧ (finishHeaders1 cfg s).cs = s.cs ∧
      (finishHeaders1 cfg s).headerName = s.headerName ∧ (finishHeaders1 cfg s).headerValue = s.headerValue ∧
      (finishHeaders1 cfg s).chunkSizeStr = s.chunkSizeStr ∧ (finishHeaders1 cfg s).chunkSize = s.chunkSize ∧
      (finishHeaders1 cfg s).chunkRead = s.chunkRead := by
    unfold finishHeaders1 updateMessage; cases cfg.isRequest <;> exact ⟨rfl, rfl, rfl, rfl, rfl, rfl, rfl⟩
  rw [e, finishHeaders2_six]
  obtain ⟨k1, k2, k3, k4, k5, k6, k7⟩ := k
  obtain ⟨q1, q2, q3, q4, q5, q6, q7⟩ := finishHeaders2_key cfg (finishHeaders1 cfg s)
  refine ⟨rfl, hn, hv, z, a, b, _, rfl, ?_⟩
  exact ⟨by rw [q1, q3, k1, k3]; exact hl.n, by rw [q1, q4, k1, k4]; exact hl.v, by rw [q2, q5, k2, k5]; exact hl.z,
    by rw [q2, q6, k2, k6]; exact hl.a, by rw [q2, q7, k2, k7]; exact hl.b, fun _ => rfl⟩

theorem finishForm_six (cfg : Cfg) (s : S) (hn hv z : Bytes) (a b r : Nat) :
    finishForm cfg (s.six hn hv z a b r) = (finishForm cfg s).six hn hv z a b r := by
  unfold finishForm
  rw [show (s.six hn hv z a b r).msg = s.msg from rfl]
  split
  · simp only
    split
    · split <;> rfl
    split
    · split
      · rfl
      · cases Multipart.parseMultipart s.msg.queries (s.msg.headers.get cfg.ord (b! "Content-Type"))
          ((s.msg.content.take s.msg.contentLength).map (·.getD 0)) <;> rfl
    · rfl
  · rfl

theorem finishForm_key (cfg : Cfg) (s : S) : key (finishForm cfg s) = key s := by
  unfold finishForm
  split
  · simp only
    split
    · split <;> rfl
    split
    · split
      · rfl
      · cases Multipart.parseMultipart s.msg.queries (s.msg.headers.get cfg.ord (b! "Content-Type"))
          ((s.msg.content.take s.msg.contentLength).map (·.getD 0)) <;> rfl
    · rfl
  · rfl

theorem finishEnd_sim (cfg : Cfg) {s t : S} (h : Sim s t) :
    Sim (finish cfg { s with ms := .end_ }) (finish cfg { t with ms := .end_ }) := by
  rw [finish_end, finish_end]
  refine Sim.map (finishForm_six cfg) (finishForm_key cfg) ?_
  obtain ⟨hn, hv, z, a, b, r, rfl, hl⟩ := h
  exact ⟨hn, hv, z, a, b, r, rfl, hl.n, hl.v, hl.z, hl.a, hl.b, by simp [liveR]⟩

theorem enterH_sim {s t : S} (h : Sim s t) : Sim (enterH s) (enterH t) := by
  obtain ⟨hn, hv, z, a, b, r, rfl, hl⟩ := h
  unfold enterH
  rw [show (s.six hn hv z a b r).ms = s.ms from rfl]
  split
  · exact ⟨hn, hv, z, a, b, r, rfl, hl.n, hl.v, hl.z, hl.a, hl.b, by simp [liveR]⟩
  · exact ⟨hn, hv, z, a, b, r, rfl, hl⟩

theorem store_six (cfg : Cfg) (s : S) (d : Bytes) (hn hv z : Bytes) (a b r : Nat) :
    store cfg (s.six hn hv z a b r) d = (store cfg s d).six hn hv z a b r := by
  unfold store blit
  rw [show (s.six hn hv z a b r).contentRead = s.contentRead from rfl, show (s.six hn hv z a b r).msg = s.msg from rfl]
  (repeat' split) <;> rfl

theorem store_key (cfg : Cfg) (s : S) (d : Bytes) : key (store cfg s d) = key s := by
  unfold store blit
  (repeat' split) <;> rfl

theorem iter_sim (cfg : Cfg) {s t : S} (h : Sim s t) (buf : Bytes) : SimR (iter cfg s buf) (iter cfg t buf) := by
  have hms := h.totalRead.2.2.2.1
  by_cases hh : s.ms = .start ∨ s.ms = .headers ∨ s.ms = .footers
  · rw [iter_headers cfg s buf hh, iter_headers cfg t buf (by rw [hms]; exact hh), parseHeaders_eq, parseHeaders_eq]
    have hr := count_sim false buf (run_sim _ (hstep_sim cfg) buf _ _ ((enterH_sim h).setL 0))
    generalize count false buf (run (hstep cfg) ((enterH s).setL 0) buf) = r at *
    generalize count false buf (run (hstep cfg) ((enterH t).setL 0) buf) = r' at *
    obtain ⟨rc, s1, rest⟩ := r
    obtain ⟨rc', s2, rest'⟩ := r'
    obtain ⟨h1, h2, h3⟩ := hr
    simp only at h1 h2 h3
    subst h1 h2
    unfold postH
    rw [h3.totalRead.2.2.2.1]
    split
    · obtain ⟨e1, e2⟩ := finishHeaders_sim cfg h3
      exact ⟨e1, rfl, e2⟩
    · exact ⟨rfl, rfl, h3⟩
  · cases hs : s.ms with
    | start | headers | footers => simp [hs] at hh
    | chunks =>
      rw [iter_chunks cfg s buf hs, iter_chunks cfg t buf (by rw [hms]; exact hs), parseChunks_eq, parseChunks_eq]
      have hr := count_sim true buf (run_sim _ (cbyte_sim cfg) buf _ _ (h.setL 0))
      generalize count true buf (run (cbyte cfg) (s.setL 0) buf) = r at *
      generalize count true buf (run (cbyte cfg) (t.setL 0) buf) = r' at *
      obtain ⟨rc, s1, rest⟩ := r
      obtain ⟨rc', s2, rest'⟩ := r'
      obtain ⟨h1, h2, h3⟩ := hr
      simp only at h1 h2 h3
      subst h1 h2
      unfold postC
      simp only
      have h4 := h3.concatenateChunks
      rw [h4.totalRead.2.2.2.1]
      split
      · exact ⟨rfl, rfl, h4⟩
      · exact ⟨rfl, rfl, h3⟩
    | content =>
      unfold iter
      rw [hms]
      simp only [hs]
      obtain ⟨hn, hv, z, a, b, r, rfl, hl⟩ := h
      have hr : r = s.remaining := hl.r (by rw [hs]; rfl)
      subst hr
      rw [consumeContent_eq, consumeContent_eq]
      rw [show (s.six hn hv z a b s.remaining).remaining = s.remaining from rfl]
      split
      · exact ⟨rfl, rfl, hn, hv, z, a, b, _, rfl, hl⟩
      · have e := store_six cfg { s with remaining := s.remaining - min s.remaining buf.length }
          (buf.take (min s.remaining buf.length)) hn hv z a b (s.remaining - min s.remaining buf.length)
        have e' : store cfg { s.six hn hv z a b s.remaining with remaining := s.remaining - min s.remaining buf.length }
          (buf.take (min s.remaining buf.length)) = _ := e
        simp only [e']
        refine ⟨rfl, rfl, hn, hv, z, a, b, s.remaining - min s.remaining buf.length, rfl, ?_⟩
        have hk := store_key cfg { s with remaining := s.remaining - min s.remaining buf.length }
          (buf.take (min s.remaining buf.length))
        refine Live.of_key (s := { s with remaining := s.remaining - min s.remaining buf.length }) ?_ hk
        exact ⟨hl.n, hl.v, hl.z, hl.a, hl.b, fun _ => rfl⟩
    | noLength =>
      unfold iter consumeAsNextChunk
      rw [hms]
      simp only [hs]
      obtain ⟨hn, hv, z, a, b, r, rfl, hl⟩ := h
      cases buf <;> cases cfg.handler <;>
        exact ⟨rfl, rfl, hn, hv, z, a, b, r, rfl, hl.n, hl.v, hl.z, hl.a, hl.b, fun hx => hl.r (by rw [hs]; exact hx)⟩
    | end_ =>
      unfold iter
      rw [hms]
      simp only [hs]
      exact ⟨rfl, rfl, h⟩

theorem parseLoop_sim (cfg : Cfg) (fuel : Nat) : ∀ (s t : S) (buf : Bytes) (n : Nat), Sim s t →
    (parseLoop cfg fuel s buf n = none ∧ parseLoop cfg fuel t buf n = none) ∨
    ∃ rc s' t' rest n', parseLoop cfg fuel s buf n = some (rc, s', rest, n') ∧
      parseLoop cfg fuel t buf n = some (rc, t', rest, n') ∧ Sim s' t' := by
  induction fuel with
  | zero => intro s t buf n _; exact .inl ⟨rfl, rfl⟩
  | succ fuel ih =>
    intro s t buf n h
    unfold parseLoop
    have hr := iter_sim cfg h buf
    rw [h.totalRead.2.2.2.1]
    generalize iter cfg s buf = r at *
    generalize iter cfg t buf = r' at *
    obtain ⟨rc, s1, rest⟩ := r
    obtain ⟨rc', s2, rest'⟩ := r'
    obtain ⟨h1, h2, h3⟩ := hr
    simp only at h1 h2 h3
    subst h1 h2
    simp only
    rw [h3.totalRead.2.2.1]
    split
    · exact ih _ _ _ _ h3
    · exact .inr ⟨_, _, _, _, _, rfl, rfl, h3⟩

theorem parse_sim (cfg : Cfg) {s t : S} (h : Sim s t) (buf : Bytes) :
    ∃ rc s' t' rest, parse cfg s buf = some (rc, s', rest) ∧ parse cfg t buf = some (rc, t', rest) ∧ Sim s' t' := by
  have hb : Sim (parseBegin s) (parseBegin t) := by
    unfold parseBegin
    rw [h.totalRead.2.2.2.2.1]
    obtain ⟨hn, hv, z, a, b, r, rfl, hl⟩ := h
    split
    · exact ⟨hn, hv, z, a, b, r, rfl, hl.n, hl.v, hl.z, hl.a, hl.b, hl.r⟩
    · exact ⟨hn, hv, z, a, b, r, rfl, hl⟩
  have hex : parseLoop cfg 4 (parseBegin s) buf 0 ≠ none := by
    obtain ⟨r, hr⟩ := runs_exists cfg 3 (parseBegin s) buf (rank_le _)
    obtain ⟨t, ht⟩ := parseLoop_of_runs cfg hr 4 0 (by have := rank_le (parseBegin s).ms; omega)
    rw [ht]; simp
  rcases parseLoop_sim cfg 4 _ _ buf 0 hb with ⟨h1, _⟩ | ⟨rc, s', t', rest, n', h1, h2, h3⟩
  · exact absurd h1 hex
  · refine ⟨rc, parseEnd cfg rc s' n', parseEnd cfg rc t' n', rest, by simp [parse, h1], by simp [parse, h2], ?_⟩
    unfold parseEnd
    cases rc with
    | yes => exact (finishEnd_sim cfg h3).setL n'
    | more => exact h3.setL n'
    | no =>
      refine Sim.setL ?_ n'
      simp only
      rw [h3.totalRead.2.2.2.2.1]
      obtain ⟨hn, hv, z, a, b, r, rfl, hl⟩ := h3
      exact ⟨hn, hv, z, a, b, r, rfl, hl.n, hl.v, hl.z, hl.a, hl.b, hl.r⟩

theorem missingStep_sim (cfg : Cfg) {s t : S} (h : Sim s t) (len : Nat) :
    (missingStep cfg t len).1 = (missingStep cfg s len).1 ∧ Sim (missingStep cfg s len).2 (missingStep cfg t len).2 := by
  obtain ⟨hn, hv, z, a, b, r, rfl, hl⟩ := h
  unfold missingStep
  rw [show (s.six hn hv z a b r).ms = s.ms from rfl]
  cases hs : s.ms with
  | start => exact ⟨rfl, hn, hv, z, _, _, _, rfl, hl.n, hl.v, hl.z, hl.a, hl.b, fun hx => hl.r (by rw [hs]; exact hx)⟩
  | headers => exact ⟨rfl, hn, hv, z, _, _, _, rfl, hl.n, hl.v, hl.z, hl.a, hl.b, fun hx => hl.r (by rw [hs]; exact hx)⟩
  | footers => exact ⟨rfl, hn, hv, z, _, _, _, rfl, hl.n, hl.v, hl.z, hl.a, hl.b, fun hx => hl.r (by rw [hs]; exact hx)⟩
  | end_ => exact ⟨rfl, hn, hv, z, a, b, r, rfl, hl⟩
  | noLength =>
    simp only
    refine ⟨trivial, hn, hv, z, a, b, r, ?_, ?_⟩
    · unfold fillCache; cases cfg.handler <;> rfl
    · refine hl.of_key ?_
      unfold fillCache; cases cfg.handler <;> rfl
  | chunks =>
    simp only
    by_cases hc : s.cs = .chunk
    · have ha : a = s.chunkSize := hl.a (by rw [hc]; rfl)
      have hb : b = s.chunkRead := hl.b (by rw [hc]; rfl)
      subst ha hb
      rw [show (s.six hn hv z s.chunkSize s.chunkRead r).cs = s.cs from rfl,
        show (s.six hn hv z s.chunkSize s.chunkRead r).chunkRead = s.chunkRead from rfl,
        show (s.six hn hv z s.chunkSize s.chunkRead r).chunkSize = s.chunkSize from rfl]
      split
      · have e : fillCache cfg (s.six hn hv z s.chunkSize s.chunkRead r) len =
            (fillCache cfg s len).six hn hv z (fillCache cfg s len).chunkSize (fillCache cfg s len).chunkRead r := by
          unfold fillCache; cases cfg.handler <;> rfl
        have hk : key (fillCache cfg s len) = key s := by unfold fillCache; cases cfg.handler <;> rfl
        rw [e]
        have hl2 := hl.of_key hk
        generalize fillCache cfg s len = q at *
        refine ⟨rfl, ?_⟩
        simp only [show (q.six hn hv z q.chunkSize q.chunkRead r).chunkRead = q.chunkRead from rfl,
          show (q.six hn hv z q.chunkSize q.chunkRead r).chunkSize = q.chunkSize from rfl]
        split
        · exact ⟨hn, hv, z, q.chunkSize, q.chunkRead + len, r, rfl, hl2.n, hl2.v, by simp [liveZ], by simp [liveC],
            by simp [liveC], hl2.r⟩
        · exact ⟨hn, hv, z, q.chunkSize, q.chunkRead + len, r, rfl, hl2.n, hl2.v, hl2.z, fun _ => rfl, fun _ => rfl, hl2.r⟩
      · exact ⟨rfl, hn, hv, z, _, _, _, rfl, hl.n, hl.v, hl.z, hl.a, hl.b, fun hx => hl.r (by rw [hs]; exact hx)⟩
    · rw [if_neg (fun hx => hc hx.1), if_neg (fun hx => hc hx.1)]
      exact ⟨rfl, hn, hv, z, _, _, _, rfl, hl.n, hl.v, hl.z, hl.a, hl.b, fun hx => hl.r (by rw [hs]; exact hx)⟩
  | content =>
    have hr : r = s.remaining := hl.r (by rw [hs]; rfl)
    subst hr
    simp only
    rw [show (s.six hn hv z a b s.remaining).remaining = s.remaining from rfl,
      show (s.six hn hv z a b s.remaining).contentRead = s.contentRead from rfl,
      show (s.six hn hv z a b s.remaining).payload = s.payload from rfl]
    split
    · exact ⟨rfl, hn, hv, z, a, b, _, rfl, hl⟩
    split
    · exact ⟨rfl, hn, hv, z, _, _, _, rfl, hl.n, hl.v, hl.z, hl.a, hl.b, fun hx => hl.r (by rw [hs]; exact hx)⟩
    · have hb : blit (s.six hn hv z a b s.remaining) s.contentRead (List.replicate len MISSING) =
          (blit s s.contentRead (List.replicate len MISSING)).six hn hv z a b s.remaining := by
        unfold blit
        rw [show (s.six hn hv z a b s.remaining).msg = s.msg from rfl]
        split <;> rfl
      have hk : key (blit s s.contentRead (List.replicate len MISSING)) = key s := by
        unfold blit; split <;> rfl
      rw [hb]
      cases cfg.handler
      · simp only [Bool.false_eq_true, if_false]
        split
        · generalize blit s s.contentRead (List.replicate len MISSING) = q at *
          have hl2 := hl.of_key hk
          have hq : q.remaining = s.remaining := by
            simp only [key, Prod.mk.injEq] at hk; exact hk.2.2.2.2.2.2.2.2
          simp only [hq, show (q.six hn hv z a b s.remaining).remaining = s.remaining from rfl]
          exact ⟨trivial, hn, hv, z, a, b, s.remaining - len, rfl, hl2.n, hl2.v, hl2.z, hl2.a, hl2.b, fun _ => rfl⟩
        · exact ⟨rfl, hn, hv, z, a, b, s.remaining - len, rfl, hl.n, hl.v, hl.z, hl.a, hl.b, fun _ => rfl⟩
      · exact ⟨rfl, hn, hv, z, a, b, s.remaining - len, rfl, hl.n, hl.v, hl.z, hl.a, hl.b, fun _ => rfl⟩

theorem parseMissing_sim (cfg : Cfg) {s t : S} (h : Sim s t) (len : Nat) :
    (parseMissing cfg t len).1 = (parseMissing cfg s len).1 ∧
      Sim (parseMissing cfg s len).2 (parseMissing cfg t len).2 := by
  have h0 : Sim { s with msg := { s.msg with missing := true } } { t with msg := { t.msg with missing := true } } := by
    obtain ⟨hn, hv, z, a, b, r, rfl, hl⟩ := h
    exact ⟨hn, hv, z, a, b, r, rfl, hl.n, hl.v, hl.z, hl.a, hl.b, hl.r⟩
  have h1 := missingStep_sim cfg h0 len
  unfold parseMissing
  generalize missingStep cfg { s with msg := { s.msg with missing := true } } len = r at *
  generalize missingStep cfg { t with msg := { t.msg with missing := true } } len = r' at *
  obtain ⟨rc, s1⟩ := r
  obtain ⟨rc', s2⟩ := r'
  obtain ⟨e1, e2⟩ := h1
  simp only at e1 e2
  subst e1
  cases rc' with
  | yes => exact ⟨rfl, finishEnd_sim cfg e2⟩
  | more => exact ⟨rfl, e2⟩
  | no =>
    refine ⟨rfl, ?_⟩
    simp only
    rw [e2.totalRead.2.2.2.2.1]
    obtain ⟨hn, hv, z, a, b, r, rfl, hl⟩ := e2
    exact ⟨hn, hv, z, a, b, r, rfl, hl.n, hl.v, hl.z, hl.a, hl.b, hl.r⟩

theorem checkPrematureEof_sim (cfg : Cfg) {s t : S} (h : Sim s t) :
    (checkPrematureEof cfg t).1 = (checkPrematureEof cfg s).1 ∧
      Sim (checkPrematureEof cfg s).2 (checkPrematureEof cfg t).2 := by
  unfold checkPrematureEof
  rw [h.totalRead.2.2.2.1]
  split
  · exact ⟨rfl, h⟩
  · refine ⟨rfl, ?_⟩
    have h1 : Sim { s with ms := .end_ } { t with ms := .end_ } := by
      obtain ⟨hn, hv, z, a, b, r, rfl, hl⟩ := h
      exact ⟨hn, hv, z, a, b, r, rfl, hl.n, hl.v, hl.z, hl.a, hl.b, by simp [liveR]⟩
    have h2 := h1.concatenateChunks
    have e1 : ∀ x : S, x.ms = .end_ → { x with ms := .end_ } = x := by
      intro x hx
      cases x; simp only at hx; subst hx; rfl
    have := finishEnd_sim cfg h2
    rwa [e1 (Verif.Http.concatenateChunks { s with ms := .end_ }) (concatenateChunks_ms _),
      e1 (Verif.Http.concatenateChunks { t with ms := .end_ }) (concatenateChunks_ms _)] at this

theorem reset_sim (cfg : Cfg) (s : S) (m : Msg) : Sim (fresh cfg m) (reset cfg s m) := by
  refine ⟨s.headerName, s.headerValue, s.chunkSizeStr, s.chunkSize, s.chunkRead, s.remaining, rfl, ?_⟩
  constructor <;> (unfold fresh initHs; cases cfg.isRequest <;> simp [liveN, liveV, liveZ, liveC, liveR])

end Verif.Http
