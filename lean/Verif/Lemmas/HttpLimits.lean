import Verif.Lemmas.HttpInv
import Verif.Spec.HttpLimits
/-
The size limits of the message head are an invariant of the parser.
-/
namespace Verif.Http

/-- The members of the parser that accumulate bytes of the head are within the limits, and so is the message. -/
structure WI (s : S) : Prop where
  msg : Within s.msg
  method : s.method.length ≤ 1024
  resource : s.resource.length ≤ 262144
  query : s.query.length ≤ 1048576
  statusMessage : s.statusMessage.length ≤ 1024
  headerName : s.headerName.length ≤ 1024
  headerValue : s.headerValue.length ≤ 1048576
  space : s.hs = .spaceBeforeValue → s.headerValue = []

theorem Within.addHeader {m : Msg} (h : Within m) (n v : Bytes) (hn : n.length ≤ 1024) (hv : v.length ≤ 1048576) :
    Within { m with headers := m.headers.insert n v } := by
  refine ⟨h.method, h.resource, h.original, h.query, h.statusMessage, ?_, ?_⟩
  · intro e he
    simp only [Dict.insert, List.mem_append, List.mem_singleton] at he
    rcases he with he | rfl
    · exact h.headerNames e he
    · exact hn
  · intro e he
    simp only [Dict.insert, List.mem_append, List.mem_singleton] at he
    rcases he with he | rfl
    · exact h.headerValues e he
    · exact hv

/-- Changes of the message that do not concern the parts of its head. -/
theorem Within.congr {m m' : Msg} (h : Within m) (e1 : m'.method = m.method) (e2 : m'.resource = m.resource)
    (e3 : m'.originalResource = m.originalResource) (e4 : m'.queryString = m.queryString)
    (e5 : m'.statusMessage = m.statusMessage) (e6 : m'.headers = m.headers) : Within m' :=
  ⟨e1 ▸ h.method, e2 ▸ h.resource, e3 ▸ h.original, e4 ▸ h.query, e5 ▸ h.statusMessage,
    e6 ▸ h.headerNames, e6 ▸ h.headerValues⟩

theorem WI.congr {s s' : S} (h : WI s) (hm : Within s'.msg) (e1 : s'.method = s.method) (e2 : s'.resource = s.resource)
    (e3 : s'.query = s.query) (e4 : s'.statusMessage = s.statusMessage) (e5 : s'.headerName = s.headerName)
    (e6 : s'.headerValue = s.headerValue) (e7 : s'.hs = s.hs) : WI s' :=
  ⟨hm, e1 ▸ h.method, e2 ▸ h.resource, e3 ▸ h.query, e4 ▸ h.statusMessage, e5 ▸ h.headerName, e6 ▸ h.headerValue,
    by rw [e6, e7]; exact h.space⟩

theorem hswitch_WI (cfg : Cfg) (s : S) (c : UInt8) (h : WI s) : WI (hswitch cfg s c).st := by
  obtain ⟨h1, h2, h3, h4, h5, h6, h7, h8⟩ := h
  have hv : ∀ v m, Within { s.msg with verMajor := v, verMinor := m } := fun v m => h1.congr rfl rfl rfl rfl rfl rfl
  have ha := h1.addHeader _ _ h6 h7
  cases hs : s.hs <;> simp only [hswitch, hs, METHOD_MAX, RESOURCE_MAX, QUERY_STRING_MAX, STATUS_MESSAGE_MAX,
    HEADER_NAME_MAX, HEADER_VALUE_MAX]
  all_goals (repeat' split)
  all_goals simp only [HRes.st, S.noVersion, S.startName, S.addHeader]
  all_goals (constructor <;> first
    | assumption
    | exact hv _ _
    | (intro hc; cases hc; done)
    | (intro _; rfl)
    | (simp only [List.length_append, List.length_cons, List.length_nil]; omega)
    | (have := h8 hs; simp [this]))

theorem hstep_WI (cfg : Cfg) (s : S) (c : UInt8) (h : WI s) : WI (hstep cfg s c).st := by
  unfold hstep
  refine hswitch_WI cfg _ c ?_
  split
  · exact h.congr h.msg rfl rfl rfl rfl rfl rfl rfl
  · exact h

theorem cbyte_WI (cfg : Cfg) (s : S) (c : UInt8) (h : WI s) : WI (cbyte cfg s c).st := by
  cases hc : s.cs <;> simp only [cbyte, cstep, hc]
  case chunk =>
    have : WI (chunkData cfg s c []).1 := by
      unfold chunkData
      (repeat' split) <;>
        exact h.congr (h.msg.congr rfl rfl rfl rfl rfl rfl) rfl rfl rfl rfl rfl rfl rfl
    generalize chunkData cfg s c [] = q at *
    split <;> exact this.congr this.msg rfl rfl rfl rfl rfl rfl rfl
  case expFinalCrOrFooters =>
    split
    · exact h.congr h.msg rfl rfl rfl rfl rfl rfl rfl
    · exact ⟨h.msg, h.method, h.resource, h.query, h.statusMessage, h.headerName, h.headerValue, by simp [CRes.toH, HRes.st]⟩
  all_goals (repeat' split)
  all_goals exact h.congr h.msg rfl rfl rfl rfl rfl rfl rfl

theorem createBuffer_WI (s : S) (h : WI s) : WI (createBuffer s) := by
  unfold createBuffer; split <;> exact h.congr (h.msg.congr rfl rfl rfl rfl rfl rfl) rfl rfl rfl rfl rfl rfl rfl

theorem concatenateChunks_WI (s : S) (h : WI s) : WI (concatenateChunks s) := by
  have h1 : WI (createBuffer { s with msg := { s.msg with contentLength := s.msg.chunkCache.length } }) :=
    createBuffer_WI _ (h.congr (h.msg.congr rfl rfl rfl rfl rfl rfl) rfl rfl rfl rfl rfl rfl rfl)
  unfold concatenateChunks
  dsimp only
  split <;> exact h1.congr (h1.msg.congr rfl rfl rfl rfl rfl rfl) rfl rfl rfl rfl rfl rfl rfl

theorem updateMessage_WI (cfg : Cfg) (s : S) (h : WI s) : WI (updateMessage cfg s) := by
  unfold updateMessage
  split
  · exact h.congr ⟨h.method, h.resource, h.resource, h.query, h.msg.statusMessage, h.msg.headerNames,
      h.msg.headerValues⟩ rfl rfl rfl rfl rfl rfl rfl
  · exact h.congr ⟨h.msg.method, h.msg.resource, h.msg.original, h.msg.query, h.statusMessage, h.msg.headerNames,
      h.msg.headerValues⟩ rfl rfl rfl rfl rfl rfl rfl

theorem updateContentLength_within (ord : Dict.Order) (m m' : Msg) (h : m.updateContentLength ord = some m')
    (hw : Within m) : Within m' := by
  unfold Msg.updateContentLength at h
  split at h
  · simp only [Option.some.injEq] at h; subst h; exact hw.congr rfl rfl rfl rfl rfl rfl
  · simp only [Option.map_eq_some_iff] at h
    obtain ⟨n, _, rfl⟩ := h
    exact hw.congr rfl rfl rfl rfl rfl rfl

theorem finishHeaders_WI (cfg : Cfg) (s : S) (h : WI s) : WI (finishHeaders cfg s).2 := by
  rw [finishHeaders_eq]
  have h1 : WI (finishHeaders1 cfg s) :=
    updateMessage_WI cfg _ (h.congr (h.msg.congr rfl rfl rfl rfl rfl rfl) rfl rfl rfl rfl rfl rfl rfl)
  generalize finishHeaders1 cfg s = t at *
  unfold finishHeaders2
  split
  · exact h1.congr h1.msg rfl rfl rfl rfl rfl rfl rfl
  split
  · exact h1.congr h1.msg rfl rfl rfl rfl rfl rfl rfl
  split
  · cases hm : t.msg.updateContentLength cfg.ord with
    | none => exact h1.congr h1.msg rfl rfl rfl rfl rfl rfl rfl
    | some m =>
      have h2 := updateContentLength_within _ _ _ hm h1.msg
      have h3 : Within (if cfg.maxContent < m.contentLength then { m with contentLength := cfg.maxContent } else m) := by
        split
        · exact h2.congr rfl rfl rfl rfl rfl rfl
        · exact h2
      dsimp only
      split
      · exact h1.congr h2 rfl rfl rfl rfl rfl rfl rfl
      split
      · exact h1.congr h3 rfl rfl rfl rfl rfl rfl rfl
      · exact createBuffer_WI _ (h1.congr h3 rfl rfl rfl rfl rfl rfl rfl)
  split <;> exact h1.congr (h1.msg.congr rfl rfl rfl rfl rfl rfl) rfl rfl rfl rfl rfl rfl rfl

theorem blit_WI (s : S) (n : Nat) (d : Bytes) (h : WI s) : WI (blit s n d) := by
  unfold blit; split <;> exact h.congr (h.msg.congr rfl rfl rfl rfl rfl rfl) rfl rfl rfl rfl rfl rfl rfl

theorem consumeContent_WI (cfg : Cfg) (s : S) (buf : Bytes) (h : WI s) : WI (consumeContent cfg s buf).2.1 := by
  rw [consumeContent_eq]
  split
  · exact h
  · have h0 : WI { s with remaining := s.remaining - min s.remaining buf.length } :=
      h.congr h.msg rfl rfl rfl rfl rfl rfl rfl
    have h1 : WI (store cfg { s with remaining := s.remaining - min s.remaining buf.length }
        (buf.take (min s.remaining buf.length))) := by
      unfold store
      split
      · exact h0.congr h0.msg rfl rfl rfl rfl rfl rfl rfl
      split
      · exact blit_WI _ _ _ h0
      · exact h0
    exact h1.congr h1.msg rfl rfl rfl rfl rfl rfl rfl

theorem finishForm_WI (cfg : Cfg) (s : S) (h : WI s) : WI (finishForm cfg s) := by
  unfold finishForm
  dsimp only
  repeat' split
  all_goals exact h.congr (h.msg.congr rfl rfl rfl rfl rfl rfl) rfl rfl rfl rfl rfl rfl rfl

theorem inv_WI (cfg : Cfg) : Inv cfg WI where
  upd s l t c h := h.congr h.msg rfl rfl rfl rfl rfl rfl rfl
  ec s e h := h.congr h.msg rfl rfl rfl rfl rfl rfl rfl
  begin_ s h := h.congr (h.msg.congr rfl rfl rfl rfl rfl rfl) rfl rfl rfl rfl rfl rfl rfl
  enter s _ h := h.congr h.msg rfl rfl rfl rfl rfl rfl rfl
  h := hstep_WI cfg
  c := cbyte_WI cfg
  fh s h _ := finishHeaders_WI cfg s h
  cc := concatenateChunks_WI
  content s buf h _ := consumeContent_WI cfg s buf h
  noLength s buf h _ := by
    unfold consumeAsNextChunk
    dsimp only
    repeat' split
    all_goals exact h.congr (h.msg.congr rfl rfl rfl rfl rfl rfl) rfl rfl rfl rfl rfl rfl rfl
  fin s h := by
    rw [finish_end]
    exact finishForm_WI cfg _ (h.congr (h.msg.congr rfl rfl rfl rfl rfl rfl) rfl rfl rfl rfl rfl rfl rfl)
  status s b h := h.congr (h.msg.congr rfl rfl rfl rfl rfl rfl) rfl rfl rfl rfl rfl rfl rfl

theorem missingStep_WI (cfg : Cfg) (s : S) (len : Nat) (h : WI s) : WI (missingStep cfg s len).2 := by
  have hf : WI (fillCache cfg s len) := by
    unfold fillCache
    split <;> exact h.congr (h.msg.congr rfl rfl rfl rfl rfl rfl) rfl rfl rfl rfl rfl rfl rfl
  have hb := blit_WI s s.contentRead (List.replicate len MISSING) h
  unfold missingStep
  cases s.ms
  case content =>
    dsimp only
    split
    · exact h
    split
    · exact h.congr h.msg rfl rfl rfl rfl rfl rfl rfl
    · cases cfg.handler
      · simp only [Bool.false_eq_true, if_false]
        split
        · exact hb.congr hb.msg rfl rfl rfl rfl rfl rfl rfl
        · exact h.congr h.msg rfl rfl rfl rfl rfl rfl rfl
      · exact h.congr h.msg rfl rfl rfl rfl rfl rfl rfl
  all_goals dsimp only
  all_goals (repeat' split)
  all_goals first
    | exact h.congr h.msg rfl rfl rfl rfl rfl rfl rfl
    | exact hf.congr hf.msg rfl rfl rfl rfl rfl rfl rfl

theorem reach_WI {cfg : Cfg} {M : Msg → Prop} (hM : ∀ m, M m → Within m) {s : S} (h : Reach cfg M s) : WI s := by
  refine (inv_WI cfg).reach (M := M) ?_ ?_ (missingStep_WI cfg) h
  · intro s m hs hm
    rcases hs with hs | rfl
    · exact ⟨hM m hm, Nat.zero_le _, Nat.zero_le _, Nat.zero_le _, Nat.zero_le _, hs.headerName, hs.headerValue, by
        unfold reset initHs; cases cfg.isRequest <;> simp⟩
    · exact ⟨hM m hm, Nat.zero_le _, Nat.zero_le _, Nat.zero_le _, Nat.zero_le _, Nat.zero_le _, Nat.zero_le _, by
        unfold reset initHs; cases cfg.isRequest <;> simp⟩
  · intro s h; exact h.congr (h.msg.congr rfl rfl rfl rfl rfl rfl) rfl rfl rfl rfl rfl rfl rfl

end Verif.Http
