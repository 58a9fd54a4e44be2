import Mathlib.Tactic.Common
import Verif.Lemmas.FileNames
import Verif.Spec.FileAnswers
import Verif.Props.FileService
import Verif.Props.FileSender
import Verif.Props.Responses
import Verif.Props.HttpDate
import Verif.Props.Conversation
/-
C79: what the file service answers is what its client receives.
-/
namespace Verif.Props.FileAnswers
open Verif.Http hiding run Op
open Verif.Writer Verif.Spec.Writer Verif.Props.Dict Verif.Props.HttpBody Verif.Props.Writer Verif.Props.Responses
open Verif.Spec.Responses (markup)
open Verif.FileAnswers Verif.Spec.FileAnswers Verif.FileService Verif.Spec.FileService Verif.Spec.Path Verif.Spec.FileSender

/-- A response writer for 200 with these headers. -/
private def okWriter (req : Msg) (lc : Lifecycle) (hds : Dict) : W :=
  { newResponseWriterFor req lc with
    msg := { responseTo req with statusCode := 200, statusMessage := b! "OK", headers := hds } }

/-- What a client gets for a file: the status, the content and these headers. -/
private structure Got (m : Msg) (file : Bytes) (hds : Dict) : Prop where
  code : m.statusCode = 200
  text : m.statusMessage = b! "OK"
  content : m.content = file.map some
  length : m.contentLength = file.length
  headers : ∀ k, plainName k → (matching m.headers k).Perm (matching hds k)

private theorem not_bodyless {rm : Bytes} (h : rm ≠ b! "HEAD") (a b : Nat) (x : Bytes) : ¬ (Head.response a b 200 x).Bodyless rm := by
  rintro (h' | h')
  · exact h h'
  · simp at h'

private theorem many_pieces (cfg : Http.Cfg) (hk : cfg.isRequest = false) (m0 : Msg) (hb : Blank m0) (hord : Http.OrderOk cfg.ord)
    (hho : cfg.headersOnly = false) (hhand : cfg.handler = false) (t : TableOrder) (ht : t.Ok) (req : Msg)
    (lc : Lifecycle) (hds : Dict) (hhs : ∀ e ∈ hds, HeaderOk e ∧ plainName e.1) (hm : m0.requestMethod ≠ b! "HEAD")
    {m : Nat} {content : Bytes} {p q : Bytes} {ps : List Bytes} (hp : Pieces m content (p :: q :: ps))
    (hsize : content.length ≤ 2 ^ 63 - 1) (hmax : content.length ≤ cfg.maxContent) :
    ((req.verMajor = 1 ∧ 1 ≤ req.verMinor) → ∀ (tail : Bytes) (bufs : List Bytes),
      Cuts bufs ((run t (okWriter req lc hds) (calls true (p :: q :: ps))).wire ++ tail) →
      ∃ o, outcome cfg (fresh cfg m0) bufs = some o ∧ o.result = .yes ∧ o.error = none ∧ o.unread = tail ∧
        Got o.message content hds) ∧
    (¬ (req.verMajor = 1 ∧ 1 ≤ req.verMinor) → (run t (okWriter req lc hds) (calls true (p :: q :: ps))).lifecycle = .close ∧
      ∀ (bufs : List Bytes), Cuts bufs (run t (okWriter req lc hds) (calls true (p :: q :: ps))).wire →
      ∃ o, outcomeAtEof cfg (fresh cfg m0) bufs = some (false, o) ∧ o.result = .yes ∧ o.error = none ∧
        Got o.message content hds) := by
  obtain ⟨hf1, hf2, hf3, hf4, hf5⟩ := responseTo_facts req
  have hsw : (okWriter req lc hds).supportsChunks = (newResponseWriterFor req lc).supportsChunks := rfl
  have hcw : (okWriter req lc hds).msg.chunksSupported = (newResponseWriterFor req lc).msg.chunksSupported := rfl
  generalize hw : okWriter req lc hds = w at hsw hcw ⊢
  have hmsg : w.msg = { responseTo req with statusCode := 200, statusMessage := b! "OK", headers := hds } := by rw [← hw]; rfl
  have hreq : w.isRequest = false := by rw [← hw]; rfl
  have hi : Initial w [] := by
    rw [← hw]; exact ⟨⟨rfl, fun _ => rfl⟩, rfl, rfl, rfl, rfl, rfl⟩
  have hhd : w.msg.head w.isRequest = .response (responseTo req).verMajor (responseTo req).verMinor 200 (b! "OK") := by
    rw [hreq, hmsg]; rfl
  have hsent : ∀ (ka uc : Bool) (n : Nat), n < 2 ^ 64 → ∀ e ∈ t.iter (Msg.sentHeaders t w.isRequest ka uc { w.msg with contentLength := n }),
      HeaderOk e := by
    intro ka uc n hn e he
    exact sentHeaders_ok t ht _ _ _ _ (by rw [hmsg]; exact fun e he => (hhs e he).1)
      (by rw [hmsg]; dsimp only; rw [hf2]; simp) hn e ((ht _).subset he)
  have hplain : ∀ (ka uc : Bool) (n : Nat) k, plainName k →
      (matching (t.iter (Msg.sentHeaders t w.isRequest ka uc { w.msg with contentLength := n })) k).Perm (matching hds k) := by
    intro ka uc n k hk
    refine (matching_perm (ht _) _).trans ?_
    rw [matching_sent_plain _ _ _ _ _ _ hk, hmsg]
    dsimp only
    rw [hf2]
    have := (ht ([] : Dict)).eq_nil
    rw [this]
    simp [matching]
  have hok : Sendable {} := sendable_of 200 (b! "OK") rfl rfl (by decide +kernel) ((onlyWrites_iff _).2 rfl) nofun
  have hset : ∀ (ka uc : Bool) (n : Nat), n < 2 ^ 64 → Setting cfg m0 (w.msg.head w.isRequest)
      (t.iter (Msg.sentHeaders t w.isRequest ka uc { w.msg with contentLength := n })) := by
    intro ka uc n hn
    exact ⟨hb, hord, by rw [hhd, hk]; rfl, by rw [hhd]; exact ⟨hok.text, hok.textSize, hf4, hf5, by decide⟩, hsent ka uc n hn, hho⟩
  have hgot : ∀ {tail : Bytes} {o : Outcome} {hs : Dict}, HttpBody.Complete (w.msg.head w.isRequest) hs tail o →
      (∀ k, plainName k → (matching hs k).Perm (matching hds k)) →
      o.message.content = content.map some → o.message.contentLength = content.length → Got o.message content hds := by
    intro tail o hs hc hpl h1 h2
    have hst := hc.stored
    rw [hhd] at hst
    exact ⟨hst.1, hst.2.1, h1, h2, by rw [hc.headers]; exact hpl⟩
  constructor
  · intro hv tail bufs hcut
    obtain ⟨hs1, hs2⟩ := response_chunks req lc hv
    obtain ⟨hs, name, n, h1, h2, h3⟩ := Writer.chunked_wire t ht w hi (hsw.trans hs1) (hcw.trans hs2)
      ((p :: q :: ps).dropLast.map fun d => [.buffer d]) [.buffer ((p :: q :: ps).getLast (by simp))]
      (by intro c hc; obtain ⟨d, -, rfl⟩ := List.mem_map.1 hc; exact FileSender.onlyWrites_buffer d) (FileSender.onlyWrites_buffer _)
    rw [FileSender.chunkData_pieces _ (by simp) hp.nonempty, ← FileSender.calls_chunked, ← FileSender.calls_chunked_first _ _ (by simp)] at h1
    rw [sentHeaders_chunked_length, ← sentHeaders_chunked_length t _ _ _ 0] at h3
    rw [h1] at hcut
    obtain ⟨o, ho, hc, hbody, -⟩ := chunked_exact cfg m0 _ hs (by rw [h3]; exact hset _ _ 0 (by omega))
      ⟨_, find?_single hord h2, [], [], by decide +kernel⟩ (p :: q :: ps) tail
      (fun d hd => ⟨hp.nonempty d hd, by
        have : d.length ≤ content.length := by rw [← hp.whole]; exact (List.sublist_flatten_of_mem hd).length_le
        omega⟩) (fun _ => by rw [hp.whole]; exact hmax) (by rw [hp.whole]; omega) bufs hcut
    rw [hhand] at hbody
    simp only [Bool.false_eq_true, if_false, hp.whole] at hbody
    exact ⟨o, ho, hc.result, hc.error, hc.unread, hgot hc (by rw [h3]; exact hplain _ _ 0) hbody.1 hbody.2⟩
  · intro hv
    have hs0 := hsw.trans (response_no_chunks req lc hv)
    have hc0 : w.msg.chunksSupported = false := by
      rw [hcw]; exact response_no_chunks req lc hv
    have hrun := run_spec t (calls true (p :: q :: ps)) w _ _ _ _ _ hi.sim
    have hpay : payload false false [] (calls true (p :: q :: ps)) = content := by rw [FileSender.payload_plain, hp.whole]
    rw [hi.wire, List.nil_append, if_neg (by simp), hs0, hpay] at hrun
    have hfirst : atFirstSend false false w.lifecycle [] (calls true (p :: q :: ps)) = some (true, .close, p.length) := rfl
    rw [hfirst] at hrun
    have hpl : 0 < p.length := List.length_pos_iff.2 (hp.nonempty p List.mem_cons_self)
    simp only [headFor, Msg.prepareBuffers_eq, if_pos hpl] at hrun
    refine ⟨?_, fun bufs hcut => ?_⟩
    · show (run t (step t (step t w (.buffer p)) .sendChunk) (.clear :: calls false (q :: ps))).lifecycle = .close
      refine FileSender.close_stays t _ _ (Writer.sendChunk_closes t _ ?_)
      show (writeBuffer w p).supportsChunks = false
      unfold writeBuffer flush
      split
      · exact hs0
      · split
        · exact hs0
        · split <;> exact hs0
    · rw [hrun] at hcut
      have hl : p.length < 2 ^ 64 := by
        have : p.length ≤ content.length := by
          rw [← hp.whole]; exact (List.sublist_flatten_of_mem List.mem_cons_self).length_le
        omega
      have hcl : ∀ k, iequals k (b! "Connection") = false → (∀ e ∈ hds, iequals e.1 k = false) →
          iequals (b! "Set-Cookie") k = false →
          matching (t.iter (Msg.sentHeaders t w.isRequest false true { w.msg with contentLength := p.length })) k = [] := by
        intro k h1 h2 h3
        refine List.Perm.eq_nil ((matching_perm (ht _) _).trans ?_)
        unfold Msg.sentHeaders
        rw [matching_append, matching_cookies _ _ _ (by rw [hreq]; exact h3), List.append_nil]
        unfold Msg.prepareHeaders Msg.changeHeader
        simp only [hc0, if_true, Bool.false_eq_true, if_false]
        rw [matching_change_other _ _ _ _ _ h1, hmsg]
        have : matching hds k = [] := by
          unfold matching
          rw [List.filter_eq_nil_iff]
          intro e he
          rw [h2 e he]; simp
        rw [this]
      have hte := hcl (b! "Transfer-Encoding") (by decide +kernel) (fun e he => (hhs e he).2.2.2) (by decide +kernel)
      have hle := hcl (b! "Content-Length") (by decide +kernel) (fun e he => (hhs e he).2.2.1) (by decide +kernel)
      have hnone : ∀ {hs : Dict} {k : Bytes}, matching hs k = [] → hs.find? cfg.ord k = none := by
        intro hs k h
        cases hf : hs.find? cfg.ord k with
        | none => rfl
        | some v =>
          obtain ⟨name, hmem⟩ := find?_mem hord hf
          rw [h] at hmem; cases hmem
      obtain ⟨o, ho, hc, h1, h2⟩ := end_of_stream_delimits cfg m0 _ _ (hset false true p.length hl) (by rw [hhd]; rfl) hhand
        (by rintro ⟨v, hv, -⟩; rw [hnone hte] at hv; cases hv) (by rw [hhd]; exact not_bodyless hm _ _ _) (hnone hle) content
        (by omega) bufs hcut
      rw [List.take_of_length_le hmax] at h1
      rw [Nat.min_eq_left hmax] at h2
      exact ⟨o, ho, hc.result, hc.error, hgot hc (hplain _ _ _) h1 h2⟩

private theorem one_piece (cfg : Http.Cfg) (hk : cfg.isRequest = false) (m0 : Msg) (hb : Blank m0) (hord : Http.OrderOk cfg.ord)
    (hho : cfg.headersOnly = false) (hhand : cfg.handler = false) (t : TableOrder) (ht : t.Ok) (req : Msg)
    (lc : Lifecycle) (hds : Dict) (hhs : ∀ e ∈ hds, HeaderOk e ∧ plainName e.1) (hm : m0.requestMethod ≠ b! "HEAD")
    (ops : List Op) (hops : OnlyWrites ops) (hsize : (written ops).length ≤ 2 ^ 63 - 1) (hmax : (written ops).length ≤ cfg.maxContent)
    (tail : Bytes) (bufs : List Bytes) (hcut : Cuts bufs ((run t (okWriter req lc hds) (ops ++ [.send])).wire ++ tail)) :
    ∃ o, outcome cfg (fresh cfg m0) bufs = some o ∧ o.result = .yes ∧ o.error = none ∧ o.unread = tail ∧
      Got o.message (written ops) hds := by
  have hr : Sendable { headers := hds, writes := ops } :=
    sendable_of 200 (b! "OK") rfl rfl (by decide +kernel) hops fun e he => ⟨(hhs e he).1, (hhs e he).2.2.2⟩
  obtain ⟨o, ho, g1, g2, g3, _, g5⟩ := reply_same cfg hk m0 hb hord hho hhand t ht req lc _ hr (.inl hm) (by
    show (written ops).length + 1 < _; omega) hmax tail bufs hcut
  refine ⟨o, ho, g1, g2, g3, g5.firstLine.1, g5.firstLine.2.1, g5.content, g5.contentLength, ?_⟩
  intro k hk
  by_cases hc : iequals k (b! "Set-Cookie") = true
  · have := g5.cookies
    rw [(responseTo_facts req).2.1] at this
    simp only [Bool.false_eq_true, if_false, List.map_nil, List.append_nil] at this
    rw [matching_congr hc, matching_congr hc]
    exact this
  · exact g5.others k hk.1 hk.2.1 (by simpa using hc)

/-! ### Files -/

/-- The client receives a message with the property from what the writer
    has sent, however that is cut into buffers. If `untilClose`, the connection is closed after it and its end ends the
    message; otherwise the message ends by itself, and whatever follows is left for the next one. -/
def Receives (cfg : Http.Cfg) (m0 : Msg) (untilClose : Prop) (w : W) (Q : Msg → Prop) : Prop :=
  (¬ untilClose → ∀ (tail : Bytes) (bufs : List Bytes), Cuts bufs (w.wire ++ tail) →
    ∃ o, outcome cfg (fresh cfg m0) bufs = some o ∧ o.result = .yes ∧ o.error = none ∧ o.unread = tail ∧ Q o.message) ∧
  (untilClose → w.lifecycle = .close ∧ ∀ (bufs : List Bytes), Cuts bufs w.wire →
    ∃ o, outcomeAtEof cfg (fresh cfg m0) bufs = some (false, o) ∧ o.result = .yes ∧ o.error = none ∧ Q o.message)

/-- The settings of a client that waits for the answer to a request with this method. -/
structure Client (cfg : Http.Cfg) (m0 : Msg) (method : Bytes) : Prop where
  isResponse : cfg.isRequest = false
  order : Http.OrderOk cfg.ord
  wholeMessages : cfg.headersOnly = false
  noHandler : cfg.handler = false
  blank : Blank m0
  method : m0.requestMethod = method

/-- A response of this many bytes is sent to be ended by the end of the connection: it does not fit into one piece, and
    the client does not know of chunks. -/
def UntilClose (maxChunk major minor length : Nat) : Prop :=
  ¬ (major = 1 ∧ 1 ≤ minor) ∧ 0 < maxChunk ∧ maxChunk < length

private theorem pieces_two {m : Nat} {content : Bytes} {ps : List Bytes} (hp : Pieces m content ps) :
    (0 < m ∧ m < content.length) ↔ ∃ p q l, ps = p :: q :: l := by
  constructor
  · rintro ⟨h1, h2⟩
    match ps, hp with
    | [], hp =>
      have := hp.whole
      rw [List.flatten_nil] at this
      rw [← this] at h2; simp at h2
    | [p], hp =>
      have h3 := hp.short h1 p List.mem_cons_self
      have h4 := hp.whole
      simp only [List.flatten_cons, List.flatten_nil, List.append_nil] at h4
      rw [h4] at h3; omega
    | p :: q :: l, _ => exact ⟨p, q, l, rfl⟩
  · rintro ⟨p, q, l, rfl⟩
    by_contra h
    have h1 : m = 0 ∨ content.length ≤ m := by omega
    have h2 := hp.single h1 (by
      rintro rfl
      have := hp.whole
      have hp' := hp.nonempty p List.mem_cons_self
      simp at this
      exact hp' this.1)
    simp at h2

private theorem callsOf_map (ops : List Op) (es : List FileSender.Ev) : callsOf (ops.map .call ++ es) = ops ++ callsOf es := by
  induction ops with
  | nil => rfl
  | cons a ops ih => simp only [List.map_cons, List.cons_append, callsOf, ih]

private theorem mime_ok : ∀ e ∈ mimeTypes, HeaderOk (b! "Content-Type", e.2) := by
  intro e he
  refine headerOk_of (by decide +kernel) (valueChar_of ?_) ?_
  · have : mimeTypes.all (fun e => e.2.all (fun c => c = 0x09 || !isControl c)) = true := by decide +kernel
    exact List.all_eq_true.1 this e he
  · have : mimeTypes.all (fun e => decide (e.2.length ≤ 1048576)) = true := by decide +kernel
    simpa using List.all_eq_true.1 this e he

/-- Every type is a legal header. -/
theorem type_ok (name : Bytes) : HeaderOk (b! "Content-Type", findMimeType name) := by
  unfold findMimeType
  split
  · rename_i e he
    exact mime_ok e (List.mem_of_find?_eq_some he)
  · exact headerOk_of (by decide +kernel) (valueChar_of (by decide +kernel)) (by decide +kernel)

private theorem typeAndTime_ok (path lm : Bytes) (h : HeaderOk (b! "Last-Modified", lm)) :
    ∀ e ∈ typeAndTime path lm, HeaderOk e ∧ plainName e.1 := by
  intro e he
  simp only [typeAndTime, List.mem_cons, List.not_mem_nil, or_false] at he
  rcases he with rfl | rfl
  · exact ⟨type_ok _, show plainName (b! "Content-Type") by unfold plainName; decide +kernel⟩
  · exact ⟨h, show plainName (b! "Last-Modified") by unfold plainName; decide +kernel⟩

private theorem values_of_perm {hs hds : Dict} {k : Bytes} {v : Bytes} (h : (matching hs k).Perm (matching hds k))
    (hm : (matching hds k).map (·.2) = [v]) : values hs k = [v] := by
  have := h.map (·.2)
  rw [hm] at this
  exact List.perm_singleton.1 this

/-- What the file sender makes the writer do for a complete file. -/
private theorem sendFile_calls (t : TableOrder) (c : FileService.Cfg) (fs : Fs) (byte : Option UInt8 → UInt8) (d : DiskFile)
    {content : Bytes} (hc : FileSender.Complete (sender c fs byte d) content) :
    ∃ ps, Pieces c.maxChunk content ps ∧ ∀ req lc, sendFile t c fs byte req lc d (d.size + 1) =
      run t (okWriter req lc (typeAndTime d.path d.lastModified)) (calls true ps) := by
  have hst : sender c fs byte d = FileSender.start d.size (sender c fs byte d).cached (sender c fs byte d).disk c.maxChunk := rfl
  have hsz : d.size = content.length := hc.1
  rw [hst] at hc
  obtain ⟨ps, hp, hdel⟩ := FileSender.deliver_partial hc
  have hlen : ps.length ≤ content.length := by
    rw [← hp.whole]
    have : ∀ l : List Bytes, (∀ p ∈ l, p ≠ []) → l.length ≤ l.flatten.length := by
      intro l
      induction l with
      | nil => simp
      | cons a l ih =>
        intro hl
        have h1 := ih fun p hp => hl p (List.mem_cons_of_mem _ hp)
        have h2 := List.length_pos_iff.2 (hl a List.mem_cons_self)
        simp only [List.flatten_cons, List.length_append, List.length_cons]
        omega
    exact this ps hp.nonempty
  refine ⟨ps, hp, fun req lc => ?_⟩
  have h1 := (hdel (List.replicate (d.size + 1) .ok)).1 (fun w hw => List.eq_of_mem_replicate (List.mem_of_mem_take hw))
    (by rw [List.length_replicate]; omega)
  unfold sendFile
  rw [hst, h1, callsOf_map, show callsOf [.finish] = [] from rfl, List.append_nil]
  rfl

/-- **C65, C79 (files in a conversation).** What the sender sends for a complete file is one of the answers of C65: as a
    whole if the file fits into one piece, otherwise in parts. So files can be fetched one after another over one connection,
    mixed with any other answers (`Conversation.conversation_partial`). -/
theorem file_is_answer (cfg : Http.Cfg) (t : TableOrder) (c : FileService.Cfg) (fs : Fs) (byte : Option UInt8 → UInt8) (d : DiskFile)
    {content : Bytes} (hc : FileSender.Complete (sender c fs byte d) content) (hlm : HeaderOk (b! "Last-Modified", d.lastModified))
    (hsize : content.length ≤ 2 ^ 63 - 1) (hmax : content.length ≤ cfg.maxContent)
    (r : Spec.Conversation.Request) (hr : r.major = 1) :
    ∃ a : Conversation.Answer, (∀ req lc, sendFile t c fs byte req lc d (d.size + 1) = a.writer t req lc) ∧
      Conversation.AnswerFits cfg r a ∧ a.reply.code = 200 ∧ a.reply.text = b! "OK" ∧
      a.reply.headers = [(b! "Content-Type", findMimeType (fileName d.path)), (b! "Last-Modified", d.lastModified)] ∧
      Spec.Conversation.body a = content ∧ (a.chunks ≠ none ↔ 0 < c.maxChunk ∧ c.maxChunk < content.length) := by
  obtain ⟨ps, hp, hw⟩ := sendFile_calls t c fs byte d hc
  have hhs := typeAndTime_ok d.path d.lastModified hlm
  by_cases h2 : 0 < c.maxChunk ∧ c.maxChunk < content.length
  · obtain ⟨p, q, l, rfl⟩ := (pieces_two hp).1 h2
    have hok : Sendable { headers := typeAndTime d.path d.lastModified, writes := [.buffer ((p :: q :: l).getLast (by simp))] } :=
      sendable_of 200 (b! "OK") rfl rfl (by decide +kernel) (FileSender.onlyWrites_buffer _) fun e he => ⟨(hhs e he).1, (hhs e he).2.2.2⟩
    let a : Conversation.Answer :=
      { reply := { headers := typeAndTime d.path d.lastModified, writes := [.buffer ((p :: q :: l).getLast (by simp))] },
        chunks := some ((p :: q :: l).dropLast.map fun d => [.buffer d]) }
    have hbody : Spec.Conversation.body a = content := by
      rw [Lemmas.Answers.body_chunks (a := a) rfl, ← Lemmas.Answers.flatten_ne_nil]
      show (Writer.chunkData _ _).flatten = _
      rw [FileSender.chunkData_pieces _ (by simp) hp.nonempty, hp.whole]
    have hnone : ∀ k, (∀ e ∈ typeAndTime d.path d.lastModified, iequals e.1 k = false) →
        matching (typeAndTime d.path d.lastModified) k = [] := by
      intro k h
      unfold matching
      rw [List.filter_eq_nil_iff]
      intro e he
      rw [h e he]; simp
    refine ⟨a, fun req lc => ?_, ?_, rfl, rfl, rfl, hbody, by simp [a, h2]⟩
    · rw [hw]
      unfold Conversation.Answer.writer
      rw [Lemmas.Answers.calls_chunks a rfl, FileSender.calls_chunked_first _ _ (by simp), FileSender.calls_chunked]
      rfl
    · refine ⟨⟨rfl, hok.code, hok.text, hok.textSize, hok.headers, ?_, hok.writes⟩, hr, fun _ => ⟨not_bodyless (by decide +kernel) _ _ _,
        hnone _ fun e he => (hhs e he).2.2.2, hnone _ fun e he => (hhs e he).2.2.1⟩, by rw [hbody]; exact hsize,
        by rw [hbody]; exact hmax⟩
      intro c hc
      obtain ⟨d, -, rfl⟩ := List.mem_map.1 hc
      exact FileSender.onlyWrites_buffer d
  · have hone : ∃ ops, OnlyWrites ops ∧ written ops = content ∧ calls true ps = ops ++ [.send] := by
      match ps, hp with
      | [], hp => exact ⟨[], (by intro op h; cases h), hp.whole, rfl⟩
      | [p], hp =>
        have h4 := hp.whole
        simp only [List.flatten_cons, List.flatten_nil, List.append_nil] at h4
        exact ⟨[.buffer p], FileSender.onlyWrites_buffer p, by simp [written, h4], rfl⟩
      | p :: q :: l, hp => exact absurd ((pieces_two hp).2 ⟨p, q, l, rfl⟩) h2
    obtain ⟨ops, ho1, ho2, ho3⟩ := hone
    have hok : Sendable { headers := typeAndTime d.path d.lastModified, writes := ops } :=
      sendable_of 200 (b! "OK") rfl rfl (by decide +kernel) ho1 fun e he => ⟨(hhs e he).1, (hhs e he).2.2.2⟩
    refine ⟨{ reply := { headers := typeAndTime d.path d.lastModified, writes := ops } }, fun req lc => ?_, ⟨hok, ?_, ?_⟩, rfl, rfl, rfl, ?_,
      by simp [h2]⟩
    · rw [hw, ho3]; rfl
    · show (written ops).length + 1 < _
      rw [ho2]; omega
    · show (written ops).length ≤ _
      rw [ho2]; exact hmax
    · simpa [Spec.Conversation.body] using ho2

/-- A complete file that is given to the sender is received, with its type and time. -/
theorem file_received {cfg : Http.Cfg} {m0 : Msg} {method : Bytes} (hcl : Client cfg m0 method) (hm : method ≠ b! "HEAD")
    (t : TableOrder) (ht : t.Ok) (c : FileService.Cfg) (fs : Fs) (byte : Option UInt8 → UInt8) (req : Msg) (lc : Lifecycle) (d : DiskFile)
    {content : Bytes} (hc : FileSender.Complete (sender c fs byte d) content) (hlm : HeaderOk (b! "Last-Modified", d.lastModified))
    (hsize : content.length ≤ 2 ^ 63 - 1) (hmax : content.length ≤ cfg.maxContent) :
    Receives cfg m0 (UntilClose c.maxChunk req.verMajor req.verMinor content.length) (sendFile t c fs byte req lc d (d.size + 1))
      (Downloaded · content (findMimeType (fileName d.path)) d.lastModified) := by
  obtain ⟨ps, hp, hcalls⟩ := sendFile_calls t c fs byte d hc
  replace hcalls := hcalls req lc
  rw [hcalls]
  have hgot : ∀ m, Got m content (typeAndTime d.path d.lastModified) →
      Downloaded m content (findMimeType (fileName d.path)) d.lastModified := by
    intro m g
    refine ⟨g.code, g.text, g.content, g.length, values_of_perm (g.headers _ (by unfold plainName; decide +kernel)) ?_,
      values_of_perm (g.headers _ (by unfold plainName; decide +kernel)) ?_⟩
    · have h1 : iequals (b! "Content-Type") (b! "Content-Type") = true := by decide +kernel
      have h2 : iequals (b! "Last-Modified") (b! "Content-Type") = false := by decide +kernel
      simp [matching, typeAndTime, h1, h2]
    · have h1 : iequals (b! "Content-Type") (b! "Last-Modified") = false := by decide +kernel
      have h2 : iequals (b! "Last-Modified") (b! "Last-Modified") = true := by decide +kernel
      simp [matching, typeAndTime, h1, h2]
  have hm' : m0.requestMethod ≠ b! "HEAD" := by rw [hcl.method]; exact hm
  have hhs := typeAndTime_ok d.path d.lastModified hlm
  by_cases h2 : 0 < c.maxChunk ∧ c.maxChunk < content.length
  · obtain ⟨p, q, l, rfl⟩ := (pieces_two hp).1 h2
    obtain ⟨k1, k2⟩ := many_pieces cfg hcl.isResponse m0 hcl.blank hcl.order hcl.wholeMessages hcl.noHandler t ht req lc _ hhs hm' hp
      hsize hmax
    constructor
    · intro hu tail bufs hcut
      obtain ⟨o, h1, h2, h3, h4, h5⟩ := k1 (by by_contra hv; exact hu ⟨hv, h2⟩) tail bufs hcut
      exact ⟨o, h1, h2, h3, h4, hgot _ h5⟩
    · intro hu
      obtain ⟨k3, k4⟩ := k2 hu.1
      refine ⟨k3, fun bufs hcut => ?_⟩
      obtain ⟨o, h1, h2, h3, h4⟩ := k4 bufs hcut
      exact ⟨o, h1, h2, h3, hgot _ h4⟩
  · refine ⟨fun _ tail bufs hcut => ?_, fun hu => absurd hu.2 h2⟩
    have hone : ∃ ops, OnlyWrites ops ∧ written ops = content ∧ calls true ps = ops ++ [.send] := by
      match ps, hp with
      | [], hp => exact ⟨[], (by intro op h; cases h), hp.whole, rfl⟩
      | [p], hp =>
        have h4 := hp.whole
        simp only [List.flatten_cons, List.flatten_nil, List.append_nil] at h4
        exact ⟨[.buffer p], FileSender.onlyWrites_buffer p, by simp [written, h4], rfl⟩
      | p :: q :: l, hp => exact absurd ((pieces_two hp).2 ⟨p, q, l, rfl⟩) h2
    obtain ⟨ops, ho1, ho2, ho3⟩ := hone
    rw [ho3] at hcut
    obtain ⟨o, h1, h2, h3, h4, h5⟩ := one_piece cfg hcl.isResponse m0 hcl.blank hcl.order hcl.wholeMessages hcl.noHandler t ht req lc _ hhs
      hm' ops ho1 (by rw [ho2]; exact hsize) (by rw [ho2]; exact hmax) tail bufs hcut
    rw [ho2] at h5
    exact ⟨o, h1, h2, h3, h4, hgot _ h5⟩

/-- **C79 (files; partial: files the server may not read are missing, cache=2, and names that are not plain).** A GET request
    for a file that is served is answered so that the client receives exactly the content of the file as it is now, with the
    type for the name asked for and the time of modification: whatever has happened to the service and its files before,
    whatever the limits for caching and for chunks, whatever version of HTTP the client has, and however the stream is cut.
    With cache=1 a file must not have changed without a change of its length or time of modification (`same_time_stale`). -/
theorem download_partial {c : FileService.Cfg} (hd : DirOk c) {past : List Fs} {s : St} (hh : Hist c past s) (hr : AllReadable past)
    (hcache : c.cache ≤ 1) (t : TableOrder) (ht : t.Ok) (ord : Dict.Order) (req : Msg) (hget : req.method = b! "GET")
    (lc : Lifecycle) (now : Int) (byte : Option UInt8 → UInt8) (hbyte : ∀ x, byte (some x) = x) (diagnostic error : Bytes)
    (hserves : FileService.Serves c s (toReq ord req)) {f : File}
    (hf : s.fs (requested c (relative c req.resource)) = some (.file f))
    (hscan : (c.scan = 1 ∨ c.scan = 3) → (s.cache.find? (relative c req.resource)).isSome)
    (hnew : req.headers.get ord (b! "If-Modified-Since") ≠ c.date f.mtime)
    (hstable : c.cache = 1 → ∀ fs ∈ past, ∀ g, fs (requested c (relative c req.resource)) = some (.file g) →
      g.mtime = f.mtime → g.content.length = f.content.length → g.content = f.content)
    (hname : Plain (fileName (asked c (relative c req.resource)))) (hdate : HeaderOk (b! "Last-Modified", c.date f.mtime))
    {cfg : Http.Cfg} {m0 : Msg} (hcl : Client cfg m0 (b! "GET"))
    (hsize : f.content.length ≤ 2 ^ 63 - 1) (hmax : f.content.length ≤ cfg.maxContent) :
    Receives cfg m0 (UntilClose c.maxChunk req.verMajor req.verMinor f.content.length) (respond t ord c byte diagnostic error s req lc now).1
      (Downloaded · f.content (findMimeType (fileName (asked c (relative c req.resource)))) (c.date f.mtime)) := by
  obtain ⟨hpast, -⟩ := hist_inv hd hh
  have hfr : f.readable = true := hr _ hpast _ _ hf
  have hans := FileService.get_answered hd hh hcache (toReq ord req) now hserves (.inl hget) hf hfr hscan
  rw [if_neg (show ¬ (toReq ord req).ifModifiedSince = _ from hnew), if_neg (by rw [show (toReq ord req).method = b! "GET" from hget]; decide)] at hans
  obtain ⟨d, hfile⟩ := hans
  have hname' := (handle_path (toReq ord req) now (hist_named hd hh)).2 d hfile hname
  have hcopy : ∃ g, s.fs (requested c (relative c req.resource)) = some (.file g) ∧ d.size = g.content.length ∧
      d.lastModified = c.date g.mtime ∧ resolve c.cwd d.path = requested c (relative c req.resource) ∧
      (d.content = none ∨ d.content = some (g.content.map some)) := by
    rcases Nat.le_one_iff_eq_zero_or_eq_one.1 hcache with h0 | h1
    · obtain ⟨g, g1, g2, g3, g4, g5⟩ := FileService.get_current hd hh h0 (toReq ord req) now hfile
      exact ⟨g, g1, g2, g3, g4, .inl g5⟩
    · obtain ⟨g, g1, g2, g3, g4, g5⟩ := FileService.get_fresh_partial hd hh hr h1 (toReq ord req) now hfile
      refine ⟨g, g1, g2, g3, g4, g5.imp id ?_⟩
      rintro ⟨fs, hfs, x, x1, x2, x3, x4⟩
      have e : g = f := by
        have := g1.symm.trans hf
        cases this; rfl
      subst e
      rw [x4, hstable h1 fs hfs x x1 x2 x3]
  obtain ⟨g, g1, g2, g3, g4, g5⟩ := hcopy
  have e : g = f := by
    have := g1.symm.trans hf
    cases this; rfl
  subst e
  have hcomp : FileSender.Complete (sender c s.fs byte d) g.content := by
    refine ⟨g2, ?_⟩
    rcases g5 with g5 | g5
    · right
      refine ⟨by simp [sender, g5], g.content, ?_, le_refl _, List.take_length⟩
      have : s.fs (resolve c.cwd d.path) = some (.file g) := by rw [g4]; exact hf
      simp [sender, this, hfr]
    · left
      refine ⟨(g.content.map some).map byte, by simp only [sender, g5, Option.map_some], ?_⟩
      rw [List.map_map, show byte ∘ some = id from funext hbyte, List.map_id]
  have hres : (respond t ord c byte diagnostic error s req lc now).1 = sendFile t c s.fs byte req lc d (d.size + 1) := by
    unfold respond
    cases hx : handle c s (toReq ord req) now with
    | mk o s' =>
      rw [hx] at hfile
      dsimp only at hfile
      subst hfile
      rfl
  rw [hres]
  have := file_received hcl (by decide) t ht c s.fs byte req lc d hcomp (by rw [g3]; exact hdate) hsize hmax
  rw [hname', g3] at this
  exact this

/-- **C79 (from the request to the file; partial: as `download_partial`).** The bytes of a GET request for a file are read
    by the server as a request, for which it sends what the client reads as that file. -/
theorem download_end_to_end_partial {c : FileService.Cfg} (hd : DirOk c) {past : List Fs} {s : St} (hh : Hist c past s)
    (hr : AllReadable past) (hcache : c.cache ≤ 1) (t : TableOrder) (ht : t.Ok) {scfg : Http.Cfg} {sm : Msg} (hsb : Blank sm)
    (hso : Http.OrderOk scfg.ord) (hsk : scfg.isRequest = true) (hsh : scfg.headersOnly = false) (hsn : scfg.handler = false)
    (q : Spec.Conversation.Request) (hq : q.Ok scfg) (hget : q.method = b! "GET")
    (lc : Lifecycle) (now : Int) (byte : Option UInt8 → UInt8) (hbyte : ∀ x, byte (some x) = x) (diagnostic error : Bytes)
    (hserves : FileService.Serves c s { method := b! "GET", resource := q.resource }) {f : File}
    (hf : s.fs (requested c (relative c q.resource)) = some (.file f))
    (hscan : (c.scan = 1 ∨ c.scan = 3) → (s.cache.find? (relative c q.resource)).isSome)
    (hnew : q.headers.get scfg.ord (b! "If-Modified-Since") ≠ c.date f.mtime)
    (hstable : c.cache = 1 → ∀ fs ∈ past, ∀ g, fs (requested c (relative c q.resource)) = some (.file g) →
      g.mtime = f.mtime → g.content.length = f.content.length → g.content = f.content)
    (hname : Plain (fileName (asked c (relative c q.resource)))) (hdate : HeaderOk (b! "Last-Modified", c.date f.mtime))
    {cfg : Http.Cfg} {m0 : Msg} (hcl : Client cfg m0 (b! "GET"))
    (hsize : f.content.length ≤ 2 ^ 63 - 1) (hmax : f.content.length ≤ cfg.maxContent) :
    Conversation.Reads scfg sm q.bytes fun m =>
      Receives cfg m0 (UntilClose c.maxChunk q.major q.minor f.content.length) (respond t scfg.ord c byte diagnostic error s m lc now).1
        (Downloaded · f.content (findMimeType (fileName (asked c (relative c q.resource)))) (c.date f.mtime)) := by
  obtain ⟨h0, h1⟩ := Conversation.request_reads scfg sm hsb hso hsk hsh hsn q hq
  refine ⟨h0, fun tail bufs hcut => ?_⟩
  obtain ⟨o, ho, g1, g2, g3, g4⟩ := h1 tail bufs hcut
  obtain ⟨l1, l2, _, _, l4, l5⟩ := g4.line
  refine ⟨o, ho, g1, g2, g3, ?_⟩
  have := download_partial hd hh hr hcache t ht scfg.ord o.message (l1.trans hget) lc now byte hbyte diagnostic error
    (by
      obtain ⟨⟨p, hp⟩, hw⟩ := hserves
      exact ⟨⟨p, by show target c (relative c o.message.resource) = _; rw [l2]; exact hp⟩,
        by show ∀ w, s.fs (requested c (relative c o.message.resource)) ≠ _; rw [l2]; exact hw⟩) (f := f)
    (by rw [l2]; exact hf) (by rw [l2]; exact hscan) (by rw [g4.headers]; exact hnew) (by rw [l2]; exact hstable)
    (by rw [l2]; exact hname) hdate hcl hsize hmax
  rw [l2, l4, l5] at this
  exact this

/-! ### Everything else -/

private theorem date_chars (d : Spec.HttpDate.Date) : ∀ x ∈ d.text, valueChar x := by
  have hnum : ∀ n, ∀ x ∈ toDec n, valueChar x := by
    intro n x hx
    have h := toDec_isDigit n x hx
    have : ∀ k : Fin 256, isDigit (UInt8.ofNat k.val) = true → isControl (UInt8.ofNat k.val) = false := by decide +kernel
    right
    have := this ⟨x.toNat, x.toNat_lt⟩
    simpa using this (by simpa using h)
  have hfix : ∀ l : Bytes, (l.all (fun c => c = 0x09 || !isControl c) = true) → ∀ x ∈ l, valueChar x := fun l h => valueChar_of h
  have hpad : ∀ n, ∀ x ∈ Spec.HttpDate.pad n, valueChar x := by
    intro n x hx
    unfold Spec.HttpDate.pad at hx
    split at hx
    · rcases List.mem_append.1 hx with h | h
      · exact hfix (b! "0") (by decide +kernel) x h
      · exact hnum _ x h
    · exact hnum _ x hx
  have hyear : ∀ y, ∀ x ∈ Spec.HttpDate.yearText y, valueChar x := by
    intro n x hx
    unfold Spec.HttpDate.yearText at hx
    split at hx
    · rcases List.mem_append.1 hx with h | h
      · exact hfix (b! "-") (by decide +kernel) x h
      · exact hnum _ x h
    · exact hnum _ x hx
  have hget : ∀ (l : List Bytes) (n : Nat), (l.all (fun s => s.all (fun c => c = 0x09 || !isControl c)) = true) →
      ∀ x ∈ l.getD n [], valueChar x := by
    intro l n h x hx
    rw [List.getD_eq_getElem?_getD] at hx
    cases hl : l[n]? with
    | none => rw [hl] at hx; cases hx
    | some s =>
      rw [hl] at hx
      exact valueChar_of (List.all_eq_true.1 h s (List.mem_of_getElem? hl)) x hx
  intro x hx
  unfold Spec.HttpDate.Date.text at hx
  simp only [List.mem_append, or_assoc] at hx
  rcases hx with h | h | h | h | h | h | h | h | h | h | h | h | h | h
  · exact hget _ _ (by decide +kernel) x h
  · exact hfix (b! ", ") (by decide +kernel) x h
  · exact hpad _ x h
  · exact hfix (b! " ") (by decide +kernel) x h
  · exact hget _ _ (by decide +kernel) x h
  · exact hfix (b! " ") (by decide +kernel) x h
  · exact hyear _ x h
  · exact hfix (b! " ") (by decide +kernel) x h
  · exact hpad _ x h
  · exact hfix (b! ":") (by decide +kernel) x h
  · exact hpad _ x h
  · exact hfix (b! ":") (by decide +kernel) x h
  · exact hpad _ x h
  · exact hfix (b! " GMT") (by decide +kernel) x h

/-- The text of a time is a legal header. -/
theorem date_ok {t : Int} {s : Bytes} (h : HttpDate.dateString t = some s) : HeaderOk (b! "Last-Modified", s) := by
  obtain ⟨d, -, -, hd⟩ := HttpDate.denotes h
  refine headerOk_of (by decide +kernel) (by rw [hd]; exact date_chars d) ?_
  unfold HttpDate.dateString at h
  cases hg : HttpDate.gmtime t with
  | none => rw [hg] at h; cases h
  | some tm =>
    rw [hg] at h
    simp only [Option.map_some, Option.some.injEq, HttpDate.strftime] at h
    rw [← h]
    split
    · omega
    · simp

/-- What the service can answer. -/
private structure Shape (c : FileService.Cfg) (r : Req) (o : Out) : Prop where
  page : ∀ st t, o = .page st t → (st = 201 ∨ st = 204 ∨ st = 403 ∨ st = 404 ∨ st = 405 ∨ st = 500 ∨ st = 501) ∧
    (∃ x, t = FileService.escape x) ∧ (r.method = b! "HEAD" → st = 403 ∨ st = 404)
  headers : ∀ st lm, o = .headers st lm → (st = 304 ∨ (st = 200 ∧ r.method = b! "HEAD")) ∧ ∃ t, lm = c.date t

private theorem shape_page {c : FileService.Cfg} {r : Req} (st : Nat) (x : Bytes)
    (h : st = 201 ∨ st = 204 ∨ st = 403 ∨ st = 404 ∨ st = 405 ∨ st = 500 ∨ st = 501)
    (hh : r.method = b! "HEAD" → st = 403 ∨ st = 404) : Shape c r (.page st (FileService.escape x)) :=
  ⟨fun st' t e => (by cases e; exact ⟨h, ⟨x, rfl⟩, hh⟩), fun _ _ e => (by cases e)⟩

private theorem shape_thrown (c : FileService.Cfg) (r : Req) : Shape c r .thrown :=
  ⟨fun _ _ e => (by cases e), fun _ _ e => (by cases e)⟩

private theorem shape_file (c : FileService.Cfg) (r : Req) (d : DiskFile) : Shape c r (.file d) :=
  ⟨fun _ _ e => (by cases e), fun _ _ e => (by cases e)⟩

private theorem shape_answer {c : FileService.Cfg} {r : Req} {d : DiskFile} (h : ∃ t, d.lastModified = c.date t) : Shape c r (answer r d) := by
  unfold answer
  split
  · exact ⟨fun _ _ e => (by cases e), fun st lm e => by cases e; exact ⟨.inl rfl, h⟩⟩
  · split
    · rename_i hh
      exact ⟨fun _ _ e => (by cases e), fun st lm e => by cases e; exact ⟨.inr ⟨rfl, by simpa [isHead] using hh⟩, h⟩⟩
    · exact shape_file c r d

private theorem escape_nil : FileService.escape [] = [] := by decide +kernel

private theorem handle_shape {c : FileService.Cfg} (hd : DirOk c) {past : List Fs} {s : St} (hh : Hist c past s) (r : Req) (now : Int) :
    Shape c r (handle c s r now).1 := by
  obtain ⟨hfs, hm⟩ := hist_inv hd hh
  have hun : ∀ rel path, Shape c r (getUncached c s r rel path).1 := by
    intro rel path
    unfold getUncached
    split
    · exact shape_page 404 _ (by simp) (by simp)
    · split
      · exact shape_thrown c r
      · rename_i d hu
        obtain ⟨h1, h2, h3, f, hf, hcp⟩ := fresh_entry hfs hu
        split
        · split
          · split
            · split
              · exact shape_thrown c r
              · exact shape_file c r _
            · exact shape_file c r _
          · exact shape_file c r _
        · exact shape_answer ⟨_, hcp.text⟩
  have hget : ∀ rel path, Shape c r (FileService.get c s r rel path).1 := by
    intro rel path
    unfold FileService.get
    split
    · split
      · split
        · exact shape_page 404 _ (by simp) (by simp)
        · exact hun _ _
      · rename_i e hf
        split
        · split
          · exact shape_thrown c r
          · rename_i d hu
            obtain ⟨h1, h2, h3, f, hf, hcp⟩ := fresh_entry hfs hu
            exact shape_answer ⟨_, hcp.text⟩
        · rw [getCached_eq]
          cases hr : refresh c s.fs e with
          | mk e' x =>
            obtain ⟨ok, updated⟩ := x
            obtain ⟨-, h1⟩ := refresh_spec hfs (hm rel e (find_mem hf)) hr
            simp only []
            split
            · rename_i hok
              obtain ⟨⟨_, _, g, _, hcp⟩, -⟩ := h1 hok
              exact shape_answer ⟨_, hcp.text⟩
            · exact shape_thrown c r
    · exact hun _ _
  unfold handle
  simp only []
  split
  · exact shape_page 404 _ (by simp) (by simp)
  · exact shape_page 403 _ (by simp) (by simp)
  · split
    · exact shape_page 403 _ (by simp) (by simp)
    · split
      · exact hget _ _
      · rename_i hne
        have hnh : r.method = b! "HEAD" → False := fun h => hne (.inr (by rw [h]; rfl))
        split
        · split
          · exact shape_page 405 _ (by simp) (fun h => (hnh h).elim)
          · split
            · unfold putPost
              simp only []
              split
              · exact shape_page 404 _ (by simp) (by simp)
              · split
                · exact shape_page 500 _ (by simp) (fun h => (hnh h).elim)
                · dsimp only
                  split
                  · have := shape_page (c := c) (r := r) 204 [] (by simp) (fun h => (hnh h).elim)
                    rw [escape_nil] at this; exact this
                  · exact shape_page 201 _ (by simp) (fun h => (hnh h).elim)
            · unfold delete
              simp only []
              split
              · exact shape_page 404 _ (by simp) (by simp)
              · split
                · have := shape_page (c := c) (r := r) 204 [] (by simp) (fun h => (hnh h).elim)
                  rw [escape_nil] at this; exact this
                · exact shape_page 500 _ (by simp) (fun h => (hnh h).elim)
        · exact shape_page 501 _ (by simp) (fun h => (hnh h).elim)

/-- A reply without a page. -/
private theorem sendable_bare {r : Responses.Reply} (code : Nat) (text : Bytes) (h1 : r.code = code) (h2 : r.text = text)
    (hs : (decide (code < 65536) && text.all (fun c => !isControl c) && decide (text.length ≤ 1024)) = true) (hw : r.writes = [])
    (hh : ∀ e ∈ r.headers, HeaderOk e ∧ iequals e.1 (b! "Transfer-Encoding") = false) : Sendable r := by
  subst h1 h2
  simp only [Bool.and_eq_true, decide_eq_true_eq, List.all_eq_true, Bool.not_eq_true'] at hs
  refine ⟨hs.1.1, hs.1.2, hs.2, fun e he => (hh e he).1, notChunked_of fun e he => (hh e he).2, ?_, ?_⟩
  · rw [hw]; intro op h; cases h
  · intro _; unfold page; rw [hw]; rfl

private theorem onlyWrites_page (a x b : Bytes) : OnlyWrites (pageWrites a x b) := (onlyWrites_iff _).2 rfl

/-- The reply to a request whose path can be part of a header. -/
private theorem reply_sendable {c : FileService.Cfg} {s : St} {r : Req} {o : Out} (hs : Shape c r o) (diagnostic error : Bytes)
    (hnf : ∀ d, o ≠ .file d) (hloc : HeaderOk (b! "Location", r.resource)) (hdate : ∀ t, HeaderOk (b! "Last-Modified", c.date t)) :
    Sendable (reply c s r diagnostic error o) ∧
      (r.method = b! "HEAD" → o ≠ .thrown → page (reply c s r diagnostic error o) = []) := by
  have hl : ∀ e ∈ ([(b! "Location", r.resource)] : Dict), HeaderOk e ∧ iequals e.1 (b! "Transfer-Encoding") = false := by
    intro e he
    cases List.mem_singleton.1 he
    exact ⟨hloc, show iequals (b! "Location") _ = false by decide +kernel⟩
  cases o with
  | file d => exact absurd rfl (hnf d)
  | thrown => exact ⟨builtin_sendable (.serverError error), fun _ h => absurd rfl h⟩
  | headers st lm =>
    obtain ⟨h1, t, rfl⟩ := hs.headers st lm rfl
    refine ⟨?_, fun _ _ => rfl⟩
    have hh : ∀ e ∈ typeAndTime (servedPath c s r) (c.date t), HeaderOk e ∧ iequals e.1 (b! "Transfer-Encoding") = false :=
      fun e he => ⟨(typeAndTime_ok _ _ (hdate t) e he).1, (typeAndTime_ok _ _ (hdate t) e he).2.2.2⟩
    rcases h1 with rfl | ⟨rfl, -⟩
    · exact sendable_bare 304 (b! "Not Modified") rfl rfl (by decide +kernel) rfl hh
    · exact sendable_bare 200 (b! "OK") rfl rfl (by decide +kernel) rfl hh
  | page st x =>
    obtain ⟨h1, -, h3⟩ := hs.page st x rfl
    have hforb : ∀ b, Sendable (forbiddenPage r.method x b) := by
      intro b
      refine sendable_of 403 (b! "Forbidden") rfl rfl (by decide +kernel) ?_ nofun
      unfold forbiddenPage
      dsimp only
      split
      · intro op h; cases h
      · exact onlyWrites_page _ _ _
    have hnotf : Sendable (notFoundPage r.method x) := by
      refine sendable_of 404 (b! "Not Found") rfl rfl (by decide +kernel) ?_ nofun
      unfold notFoundPage
      dsimp only
      split
      · intro op h; cases h
      · exact onlyWrites_page _ _ _
    have hdir : Sendable (noDirectoryPage x) :=
      sendable_of 404 (b! "Not Found") rfl rfl (by decide +kernel) (onlyWrites_page _ _ _) nofun
    have hput : Sendable (putFailedPage r.resource x) :=
      sendable_of 500 (b! "Server Error") rfl rfl (by decide +kernel) ((onlyWrites_iff _).2 rfl) hl
    have hdel : Sendable (deleteFailedPage x diagnostic) :=
      sendable_of 500 (b! "Server Error") rfl rfl (by decide +kernel) ((onlyWrites_iff _).2 rfl) nofun
    have hite : ∀ {p : Prop} [Decidable p] {a b : Responses.Reply}, Sendable a → Sendable b → Sendable (if p then a else b) := by
      intro p _ a b ha hb; split <;> assumption
    refine ⟨?_, fun hm _ => ?_⟩
    · rcases h1 with rfl | rfl | rfl | rfl | rfl | rfl | rfl
      · exact sendable_of 201 (b! "Created") rfl rfl (by decide +kernel) (onlyWrites_page _ _ _) hl
      · exact sendable_bare 204 (b! "No Content") rfl rfl (by decide +kernel) rfl nofun
      · exact hforb _
      · show Sendable (if _ then noDirectoryPage x else notFoundPage r.method x)
        exact hite hdir hnotf
      · refine sendable_of 405 (b! "Method Not Allowed") rfl rfl (by decide +kernel) (onlyWrites_page _ _ _) ?_
        intro e he
        cases List.mem_singleton.1 he
        exact ⟨headerOk_of (by decide +kernel) (valueChar_of (by decide +kernel)) (by decide +kernel), by decide +kernel⟩
      · show Sendable (if _ then putFailedPage r.resource x else deleteFailedPage x diagnostic)
        exact hite hput hdel
      · exact sendable_of 501 (b! "Not Implemented") rfl rfl (by decide +kernel) (onlyWrites_page _ _ _) nofun
    · rcases h3 hm with rfl | rfl
      · show written (forbiddenPage r.method x _).writes = []
        unfold forbiddenPage
        dsimp only
        rw [if_pos hm]; rfl
      · show page (if _ then noDirectoryPage x else notFoundPage r.method x) = []
        rw [if_neg (fun h => by rw [hm] at h; exact absurd h.1 (by decide))]
        show written (notFoundPage r.method x).writes = []
        unfold notFoundPage
        dsimp only
        rw [if_pos hm]; rfl

/-- What the client reads of an answer that is not a file. -/
private theorem answer_same {c : FileService.Cfg} (hd : DirOk c) {past : List Fs} {s : St} (hh : Hist c past s)
    (t : TableOrder) (ht : t.Ok) (ord : Dict.Order) (req : Msg) (lc : Lifecycle) (now : Int) (byte : Option UInt8 → UInt8)
    (diagnostic error : Bytes) (hloc : HeaderOk (b! "Location", req.resource))
    (hdate : ∀ t, HeaderOk (b! "Last-Modified", c.date t)) {o : Out} (ho : (handle c s (toReq ord req) now).1 = o)
    (hnf : ∀ d, o ≠ .file d) (hhead : req.method = b! "HEAD" → o ≠ .thrown)
    {cfg : Http.Cfg} {m0 : Msg} (hcl : Client cfg m0 req.method)
    (hsize : (page (reply c s (toReq ord req) diagnostic error o)).length + 1 < 2 ^ 64)
    (hmax : (page (reply c s (toReq ord req) diagnostic error o)).length ≤ cfg.maxContent) :
    Receives cfg m0 False (respond t ord c byte diagnostic error s req lc now).1 fun m =>
      let r := reply c s (toReq ord req) diagnostic error o
      Message.SameMessage false (lc != .close)
        { responseTo req with statusCode := r.code, statusMessage := r.text, headers := r.headers } (page r) m := by
  obtain ⟨hs, he⟩ := reply_sendable (s := s) (by rw [← ho]; exact handle_shape hd hh (toReq ord req) now) diagnostic error hnf hloc hdate
  refine ⟨fun _ tail bufs hcut => ?_, False.elim⟩
  have hres : (respond t ord c byte diagnostic error s req lc now).1 = (reply c s (toReq ord req) diagnostic error o).writer t req lc := by
    unfold respond
    cases hx : handle c s (toReq ord req) now with
    | mk o' s' =>
      rw [hx] at ho
      dsimp only at ho
      subst ho
      cases o' with
      | file d => exact absurd rfl (hnf d)
      | page st x => rfl
      | headers st x => rfl
      | thrown => rfl
  rw [hres] at hcut
  obtain ⟨x, hx, g1, g2, g3, _, g5⟩ := reply_same cfg hcl.isResponse m0 hcl.blank hcl.order hcl.wholeMessages hcl.noHandler t ht req lc _ hs
    (by
      rw [hcl.method]
      by_cases hm : req.method = b! "HEAD"
      · exact .inr (he hm (hhead hm))
      · exact .inl hm) hsize hmax tail bufs hcut
  exact ⟨x, hx, g1, g2, g3, g5⟩

/-- **C79 (everything that is not a file; partial: an exception while HEAD is handled, see `head_answer_unread`).** Whatever the
    service answers, if it is not a file, arrives as it is meant: the client receives one response with the status, the
    headers and the page of the reply, however the stream is cut; what follows is left for the next response. -/
theorem answer_received_partial {c : FileService.Cfg} (hd : DirOk c) {past : List Fs} {s : St} (hh : Hist c past s)
    (t : TableOrder) (ht : t.Ok) (ord : Dict.Order) (req : Msg) (lc : Lifecycle) (now : Int) (byte : Option UInt8 → UInt8)
    (diagnostic error : Bytes) (hloc : HeaderOk (b! "Location", req.resource))
    (hdate : ∀ t, HeaderOk (b! "Last-Modified", c.date t)) {o : Out} (ho : (handle c s (toReq ord req) now).1 = o)
    (hnf : ∀ d, o ≠ .file d) (hhead : req.method = b! "HEAD" → o ≠ .thrown)
    {cfg : Http.Cfg} {m0 : Msg} (hcl : Client cfg m0 req.method)
    (hsize : (page (reply c s (toReq ord req) diagnostic error o)).length + 1 < 2 ^ 64)
    (hmax : (page (reply c s (toReq ord req) diagnostic error o)).length ≤ cfg.maxContent) :
    Receives cfg m0 False (respond t ord c byte diagnostic error s req lc now).1 fun m =>
      let r := reply c s (toReq ord req) diagnostic error o
      Spec.Responses.Holds m r.code r.text r.headers (page r) := by
  refine ⟨fun hn tail bufs hcut => ?_, False.elim⟩
  obtain ⟨x, hx, g1, g2, g3, g4⟩ := (answer_same hd hh t ht ord req lc now byte diagnostic error hloc hdate ho hnf hhead hcl hsize hmax).1
    hn tail bufs hcut
  exact ⟨x, hx, g1, g2, g3, holds_of_same g4 (responseTo_facts req).2.1⟩

private theorem servedPath_named {c : FileService.Cfg} (hd : DirOk c) {past : List Fs} {s : St} (hh : Hist c past s) (r : Req)
    (hs : FileService.Serves c s r) : Named c (relative c r.resource) (servedPath c s r) := by
  obtain ⟨⟨p, hp⟩, -⟩ := hs
  unfold servedPath
  simp only [hp]
  split
  · split
    · rename_i e he
      exact hist_named hd hh _ _ (find_mem he)
    · exact named_target hp
  · exact named_target hp

/-- Answers with a type and a time but no content. -/
private theorem headers_received {c : FileService.Cfg} (hd : DirOk c) {past : List Fs} {s : St} (hh : Hist c past s)
    (t : TableOrder) (ht : t.Ok) (ord : Dict.Order) (req : Msg) (lc : Lifecycle) (now : Int) (byte : Option UInt8 → UInt8)
    (diagnostic error : Bytes) (hloc : HeaderOk (b! "Location", req.resource))
    (hdate : ∀ t, HeaderOk (b! "Last-Modified", c.date t)) {st : Nat} {lm : Bytes}
    (ho : (handle c s (toReq ord req) now).1 = .headers st lm)
    (hserves : FileService.Serves c s (toReq ord req)) (hname : Plain (fileName (asked c (relative c req.resource))))
    {cfg : Http.Cfg} {m0 : Msg} (hcl : Client cfg m0 req.method) :
    Receives cfg m0 False (respond t ord c byte diagnostic error s req lc now).1 fun m =>
      Described m st (if st = 304 then b! "Not Modified" else b! "OK")
        (findMimeType (fileName (asked c (relative c req.resource)))) lm ∧ values m.headers (b! "Content-Length") = [b! "0"] := by
  refine ⟨fun hn tail bufs hcut => ?_, False.elim⟩
  obtain ⟨x, hx, g1, g2, g3, g4⟩ := (answer_same hd hh t ht ord req lc now byte diagnostic error hloc hdate ho (fun d => by simp)
    (fun _ => by simp) hcl (show (written []).length + 1 < 2 ^ 64 by decide) (Nat.zero_le _)).1
    hn tail bufs hcut
  refine ⟨x, hx, g1, g2, g3, ⟨g4.firstLine.1, g4.firstLine.2.1, g4.content, ?_, ?_⟩, ?_⟩
  · refine values_of_perm (g4.others _ (by decide +kernel) (by decide +kernel) (by decide +kernel)) ?_
    have h1 : iequals (b! "Content-Type") (b! "Content-Type") = true := by decide +kernel
    have h2 : iequals (b! "Last-Modified") (b! "Content-Type") = false := by decide +kernel
    simp only [reply, matching, typeAndTime, List.filter_cons, h1, h2, if_true, Bool.false_eq_true, if_false, List.filter_nil,
      List.map_cons, List.map_nil]
    rw [servedPath_named hd hh _ hserves hname]
    rfl
  · refine values_of_perm (g4.others _ (by decide +kernel) (by decide +kernel) (by decide +kernel)) ?_
    have h1 : iequals (b! "Content-Type") (b! "Last-Modified") = false := by decide +kernel
    have h2 : iequals (b! "Last-Modified") (b! "Last-Modified") = true := by decide +kernel
    simp only [reply, matching, typeAndTime, List.filter_cons, h1, h2, if_true, Bool.false_eq_true, if_false, List.filter_nil,
      List.map_cons, List.map_nil]
  · obtain ⟨name, hl⟩ := g4.length
    show (matching x.message.headers (b! "Content-Length")).map (·.2) = _
    rw [hl]
    show [toDec (written []).length] = _
    decide +kernel

/-- **C79 (unchanged files; partial: as `download_partial`).** A GET or HEAD request with the time of modification of the
    file in `If-Modified-Since` is answered with 304, the type and that time, without content. -/
theorem unchanged_received_partial {c : FileService.Cfg} (hd : DirOk c) {past : List Fs} {s : St} (hh : Hist c past s)
    (hr : AllReadable past) (hcache : c.cache ≤ 1) (t : TableOrder) (ht : t.Ok) (ord : Dict.Order) (req : Msg)
    (hget : req.method = b! "GET" ∨ req.method = b! "HEAD") (lc : Lifecycle) (now : Int) (byte : Option UInt8 → UInt8)
    (diagnostic error : Bytes) (hloc : HeaderOk (b! "Location", req.resource))
    (hdate : ∀ t, HeaderOk (b! "Last-Modified", c.date t)) (hserves : FileService.Serves c s (toReq ord req)) {f : File}
    (hf : s.fs (requested c (relative c req.resource)) = some (.file f))
    (hscan : (c.scan = 1 ∨ c.scan = 3) → (s.cache.find? (relative c req.resource)).isSome)
    (hold : req.headers.get ord (b! "If-Modified-Since") = c.date f.mtime)
    (hname : Plain (fileName (asked c (relative c req.resource)))) {cfg : Http.Cfg} {m0 : Msg} (hcl : Client cfg m0 req.method) :
    Receives cfg m0 False (respond t ord c byte diagnostic error s req lc now).1
      (Described · 304 (b! "Not Modified") (findMimeType (fileName (asked c (relative c req.resource)))) (c.date f.mtime)) := by
  obtain ⟨hpast, -⟩ := hist_inv hd hh
  have hans := FileService.get_answered hd hh hcache (toReq ord req) now hserves hget hf (hr _ hpast _ _ hf) hscan
  rw [if_pos (show (toReq ord req).ifModifiedSince = _ from hold)] at hans
  refine ⟨fun hn tail bufs hcut => ?_, False.elim⟩
  obtain ⟨x, hx, g1, g2, g3, g4, -⟩ := (headers_received hd hh t ht ord req lc now byte diagnostic error hloc hdate hans hserves hname hcl).1
    hn tail bufs hcut
  exact ⟨x, hx, g1, g2, g3, g4⟩

/-- **C79 (HEAD; partial: as `download_partial`).** A HEAD request for a file is answered with the status, the type and the
    time of a GET request, without content. Finding: the length announced is 0, whatever the length of the file. -/
theorem head_received_partial {c : FileService.Cfg} (hd : DirOk c) {past : List Fs} {s : St} (hh : Hist c past s)
    (hr : AllReadable past) (hcache : c.cache ≤ 1) (t : TableOrder) (ht : t.Ok) (ord : Dict.Order) (req : Msg)
    (hget : req.method = b! "HEAD") (lc : Lifecycle) (now : Int) (byte : Option UInt8 → UInt8)
    (diagnostic error : Bytes) (hloc : HeaderOk (b! "Location", req.resource))
    (hdate : ∀ t, HeaderOk (b! "Last-Modified", c.date t)) (hserves : FileService.Serves c s (toReq ord req)) {f : File}
    (hf : s.fs (requested c (relative c req.resource)) = some (.file f))
    (hscan : (c.scan = 1 ∨ c.scan = 3) → (s.cache.find? (relative c req.resource)).isSome)
    (hnew : req.headers.get ord (b! "If-Modified-Since") ≠ c.date f.mtime)
    (hname : Plain (fileName (asked c (relative c req.resource)))) {cfg : Http.Cfg} {m0 : Msg} (hcl : Client cfg m0 req.method) :
    Receives cfg m0 False (respond t ord c byte diagnostic error s req lc now).1 fun m =>
      Described m 200 (b! "OK") (findMimeType (fileName (asked c (relative c req.resource)))) (c.date f.mtime) ∧
      values m.headers (b! "Content-Length") = [b! "0"] := by
  obtain ⟨hpast, -⟩ := hist_inv hd hh
  have hans := FileService.get_answered hd hh hcache (toReq ord req) now hserves (.inr hget) hf (hr _ hpast _ _ hf) hscan
  rw [if_neg (show ¬ (toReq ord req).ifModifiedSince = _ from hnew), if_pos (show (toReq ord req).method = _ from hget)] at hans
  exact headers_received hd hh t ht ord req lc now byte diagnostic error hloc hdate hans hserves hname hcl

/-- **C79 (a request that modifies, on a service that is not writable).** The client receives 405 and the methods that are
    allowed. -/
theorem not_allowed_received {c : FileService.Cfg} (hd : DirOk c) {past : List Fs} {s : St} (hh : Hist c past s)
    (t : TableOrder) (ht : t.Ok) (ord : Dict.Order) (req : Msg) (lc : Lifecycle) (now : Int) (byte : Option UInt8 → UInt8)
    (diagnostic error : Bytes) (hloc : HeaderOk (b! "Location", req.resource))
    (hdate : ∀ t, HeaderOk (b! "Last-Modified", c.date t)) (hserves : FileService.Serves c s (toReq ord req))
    (hw : c.writable = false) (hm : req.method = b! "POST" ∨ req.method = b! "PUT" ∨ req.method = b! "DELETE")
    {cfg : Http.Cfg} {m0 : Msg} (hcl : Client cfg m0 req.method) (hmax : 200 ≤ cfg.maxContent) :
    Receives cfg m0 False (respond t ord c byte diagnostic error s req lc now).1 fun m =>
      m.statusCode = 405 ∧ m.statusMessage = b! "Method Not Allowed" ∧ values m.headers (b! "Allow") = [b! "GET, HEAD"] := by
  have ho : (handle c s (toReq ord req) now).1 = .page 405 (FileService.escape req.method) := by
    rw [FileService.not_allowed (r := toReq ord req) now hserves hw hm]; rfl
  have hlen : (page (reply c s (toReq ord req) diagnostic error (.page 405 (FileService.escape req.method)))).length ≤ 200 := by
    show (page (notAllowedPage (FileService.escape req.method))).length ≤ 200
    rcases hm with hm | hm | hm <;> rw [hm] <;> decide +kernel
  refine ⟨fun hn tail bufs hcut => ?_, False.elim⟩
  obtain ⟨x, hx, g1, g2, g3, g4⟩ := (answer_same hd hh t ht ord req lc now byte diagnostic error hloc hdate ho (fun d => by simp)
    (fun _ => by simp) hcl (Nat.lt_of_le_of_lt (Nat.succ_le_succ hlen) (by decide)) (Nat.le_trans hlen hmax)).1 hn tail bufs hcut
  refine ⟨x, hx, g1, g2, g3, g4.firstLine.1, g4.firstLine.2.1, ?_⟩
  refine values_of_perm (g4.others _ (by decide +kernel) (by decide +kernel) (by decide +kernel)) ?_
  show (matching [(b! "Allow", b! "GET, HEAD")] (b! "Allow")).map (·.2) = _
  decide +kernel

/-- **C79 (a new file).** The client of a request that creates a file receives 201 and the name of the file. -/
theorem created_received {c : FileService.Cfg} (hd : DirOk c) {past : List Fs} {s : St} (hh : Hist c past s)
    (t : TableOrder) (ht : t.Ok) (ord : Dict.Order) (req : Msg) (lc : Lifecycle) (now : Int) (byte : Option UInt8 → UInt8)
    (diagnostic error : Bytes) (hloc : HeaderOk (b! "Location", req.resource))
    (hdate : ∀ t, HeaderOk (b! "Last-Modified", c.date t)) (hserves : FileService.Serves c s (toReq ord req))
    (hw : c.writable = true) (hm : req.method = b! "POST" ∨ req.method = b! "PUT")
    (hnone : s.fs (requested c (relative c req.resource)) = none)
    (hdir : s.fs (requested c (relative c req.resource)).dropLast = some (.dir true))
    {cfg : Http.Cfg} {m0 : Msg} (hcl : Client cfg m0 req.method)
    (hsize : (page (createdPage req.resource (FileService.escape req.resource))).length + 1 < 2 ^ 64)
    (hmax : (page (createdPage req.resource (FileService.escape req.resource))).length ≤ cfg.maxContent) :
    Receives cfg m0 False (respond t ord c byte diagnostic error s req lc now).1 fun m =>
      m.statusCode = 201 ∧ m.statusMessage = b! "Created" ∧ values m.headers (b! "Location") = [req.resource] := by
  have ho : (handle c s (toReq ord req) now).1 = .page 201 (FileService.escape req.resource) :=
    (FileService.created (r := toReq ord req) now hserves hw hm hnone hdir).1
  refine ⟨fun hn tail bufs hcut => ?_, False.elim⟩
  obtain ⟨x, hx, g1, g2, g3, g4⟩ := (answer_same hd hh t ht ord req lc now byte diagnostic error hloc hdate ho (fun d => by simp)
    (fun _ => by simp) hcl hsize hmax).1 hn tail bufs hcut
  refine ⟨x, hx, g1, g2, g3, g4.firstLine.1, g4.firstLine.2.1, ?_⟩
  refine values_of_perm (g4.others _ (by decide +kernel) (by decide +kernel) (by decide +kernel)) ?_
  show (matching [(b! "Location", req.resource)] (b! "Location")).map (·.2) = _
  have h : iequals (b! "Location") (b! "Location") = true := by decide +kernel
  simp only [matching, List.filter_cons, h, if_true, List.filter_nil, List.map_cons, List.map_nil]

/-- **C79 (files that cannot be read; finding).** If the file has gone, or must not be read, when it is to be sent, and its
    content is not kept in memory, nothing of it is sent; nor is any other answer, however many writes are possible. -/
theorem unreadable_silent (t : TableOrder) (c : FileService.Cfg) (fs : Fs) (byte : Option UInt8 → UInt8) (req : Msg) (lc : Lifecycle)
    (d : DiskFile) (n : Nat) (hc : d.content = none) (hs : 0 < d.size)
    (hr : ∀ f, fs (Spec.Path.resolve c.cwd d.path) = some (.file f) → f.readable = false) :
    (sendFile t c fs byte req lc d n).wire = [] := by
  have hdisk : (sender c fs byte d).disk = none := by
    unfold sender
    dsimp only
    split
    · rename_i f hf
      rw [hr f hf]; rfl
    · rfl
  have hsend : FileSender.send (sender c fs byte d) = .gaveUp := by
    have h1 : ¬ (sender c fs byte d).size ≤ (sender c fs byte d).sent := by
      show ¬ d.size ≤ 0
      omega
    have h2 : (sender c fs byte d).cached = none := by
      unfold sender
      dsimp only
      rw [hc]; rfl
    unfold FileSender.send FileSender.block
    rw [if_neg h1]
    simp only [hdisk, h2]
  unfold sendFile FileSender.deliver
  rw [hsend]
  rfl

example : (sendFile {} FileService.cachedCfg (fun _ => none) (·.getD 0) {} .keepAlive
    { path := b! "/var/www/index.html", content := none, size := 5, lastModified := [] } 9).wire = [] := by decide +kernel

/-! ### Pages -/

private theorem escape_same (x : Bytes) : FileService.escape x = Responses.escape x := rfl

/-- **C79 (pages).** What a request contains adds no tags or attributes to the pages of the service: the pages for any
    escaped text have the markup of those for an empty one. (The failed DELETE request is excepted, see
    `delete_markup_violated`.) -/
theorem pages_markup (method resource x : Bytes) (outside : Bool) :
    markup (page (forbiddenPage method (FileService.escape x) outside)) = markup (page (forbiddenPage method [] outside)) ∧
    markup (page (notFoundPage method (FileService.escape x))) = markup (page (notFoundPage method [])) ∧
    markup (page (noDirectoryPage (FileService.escape x))) = markup (page (noDirectoryPage [])) ∧
    markup (page (notAllowedPage (FileService.escape x))) = markup (page (notAllowedPage [])) ∧
    markup (page (notImplementedPage (FileService.escape x))) = markup (page (notImplementedPage [])) ∧
    markup (page (createdPage resource (FileService.escape x))) = markup (page (createdPage [] [])) ∧
    markup (page (putFailedPage resource (FileService.escape x))) = markup (page (putFailedPage [] [])) := by
  have h : ∀ a b, markup (written (pageWrites a (FileService.escape x) b)) = markup (written (pageWrites a [] b)) := by
    intro a b
    have h' : markup (FileService.escape x) = markup [] := markup_escape x
    simp only [pageWrites, written, markup_append, h']
  refine ⟨?_, ?_, h _ _, h _ _, h _ _, h _ _, ?_⟩
  · unfold forbiddenPage page; dsimp only; split
    · rfl
    · exact h _ _
  · unfold notFoundPage page; dsimp only; split
    · rfl
    · exact h _ _
  · unfold putFailedPage page createdWrites; dsimp only
    rw [written_append, written_append, markup_append, markup_append, h, h]

/-- The part that holds of a failed DELETE request. -/
theorem delete_markup_partial (x diagnostic : Bytes) (h : markup diagnostic = []) :
    markup (page (deleteFailedPage (FileService.escape x) diagnostic)) = markup (page (deleteFailedPage [] [])) := by
  have h' : markup (FileService.escape x) = markup [] := markup_escape x
  simp only [page, deleteFailedPage, written, markup_append, h, h']
  rfl

/-- **The page after a failed DELETE request is not safe**: the description of the exception is written as it is, and it
    has the path of the request in it: `diagnostic_information` of a `filesystem_error` includes the path in quotation
    marks. -/
theorem delete_markup_violated : ∃ diagnostic, markup (page (deleteFailedPage [] diagnostic)) ≠ markup (page (deleteFailedPage [] [])) :=
  ⟨b! "boost::filesystem::remove: Permission denied: \"/var/www/<script>\"", by decide +kernel⟩

/-- The pages of the service with nothing of a request in them. -/
def fixedPages : List Bytes :=
  [[], page (forbiddenPage [] [] true), page (forbiddenPage [] [] false), page (notFoundPage [] []), page (noDirectoryPage []),
   page (notAllowedPage []), page (notImplementedPage []), page (createdPage [] []), page (putFailedPage [] []),
   page (deleteFailedPage [] []), page (Responses.serverError [])]

/-- **C79 (no markup from requests; partial: diagnostics with markup, see `delete_markup_violated`).** Whatever the request and
    the history of the service: the answer, if it is not a file, has the tags and attributes of one of eleven fixed pages. -/
theorem answer_markup_partial {c : FileService.Cfg} (hd : DirOk c) {past : List Fs} {s : St} (hh : Hist c past s) (r : Req) (now : Int)
    (diagnostic error : Bytes) (hdiag : markup diagnostic = []) :
    ∃ p ∈ fixedPages, markup (page (reply c s r diagnostic error (handle c s r now).1)) = markup p := by
  have hs := handle_shape hd hh r now
  generalize handle c s r now = x at hs ⊢
  obtain ⟨o, s'⟩ := x
  dsimp only at hs ⊢
  cases o with
  | file d => exact ⟨[], by simp [fixedPages], rfl⟩
  | thrown => exact ⟨page (Responses.serverError []), by simp [fixedPages], (Responses.pages_markup {} error []).2.1⟩
  | headers st lm => exact ⟨[], by simp [fixedPages], rfl⟩
  | page st x =>
    obtain ⟨h1, ⟨y, rfl⟩, -⟩ := hs.page st x rfl
    obtain ⟨-, -, m3, m4, m5, m6, m7⟩ := pages_markup r.method r.resource y true
    have hforb : ∀ b, ∃ p ∈ fixedPages, markup (page (forbiddenPage r.method (FileService.escape y) b)) = markup p := by
      intro b
      by_cases hm : r.method = b! "HEAD"
      · refine ⟨[], by simp [fixedPages], ?_⟩
        unfold forbiddenPage page; dsimp only; rw [if_pos hm]; rfl
      · refine ⟨page (forbiddenPage [] [] b), by cases b <;> simp [fixedPages], ?_⟩
        rw [(pages_markup r.method [] y b).1]
        unfold forbiddenPage page; dsimp only
        rw [if_neg hm, if_neg (show ¬ ([] : Bytes) = b! "HEAD" by decide)]
    have hnotf : ∃ p ∈ fixedPages, markup (page (notFoundPage r.method (FileService.escape y))) = markup p := by
      by_cases hm : r.method = b! "HEAD"
      · refine ⟨[], by simp [fixedPages], ?_⟩
        unfold notFoundPage page; dsimp only; rw [if_pos hm]; rfl
      · refine ⟨page (notFoundPage [] []), by simp [fixedPages], ?_⟩
        rw [(pages_markup r.method [] y true).2.1]
        unfold notFoundPage page; dsimp only; rw [if_neg hm, if_neg (by decide)]
    have hite : ∀ {q : Prop} [Decidable q] {a b : Responses.Reply}, (∃ p ∈ fixedPages, markup (page a) = markup p) →
        (∃ p ∈ fixedPages, markup (page b) = markup p) → ∃ p ∈ fixedPages, markup (page (if q then a else b)) = markup p := by
      intro q _ a b ha hb; split <;> assumption
    rcases h1 with rfl | rfl | rfl | rfl | rfl | rfl | rfl
    · exact ⟨_, by simp [fixedPages], m6⟩
    · exact ⟨[], by simp [fixedPages], rfl⟩
    · exact hforb _
    · exact hite (a := noDirectoryPage _) (b := notFoundPage _ _) ⟨_, by simp [fixedPages], m3⟩ hnotf
    · exact ⟨_, by simp [fixedPages], m4⟩
    · exact hite (a := putFailedPage _ _) (b := deleteFailedPage _ _) ⟨_, by simp [fixedPages], m7⟩
        ⟨_, by simp [fixedPages], delete_markup_partial y diagnostic hdiag⟩
    · exact ⟨_, by simp [fixedPages], m5⟩

/-- A page: its title, its heading, and what it says. -/
def htmlPage (title heading body : Bytes) : Bytes :=
  b! "<html><head>\n<title>" ++ title ++ b! "</title>\n</head><body>\n<h1>" ++ heading ++ b! "</h1>\n<p>" ++ body ++ b! "</p>\n</body></html>\n"

/-- C79, what the pages say: the title of each is the code and the phrase of the status line, and the text names what was asked
    for. -/
theorem pages_say (method resource x diagnostic : Bytes) (hm : method ≠ b! "HEAD") :
    page (forbiddenPage method x true) = htmlPage (b! "403 Forbidden") (b! "Forbidden")
      (b! "The requested URL " ++ x ++ b! " is not in the configured directory.") ∧
    page (forbiddenPage method x false) = htmlPage (b! "403 Forbidden") (b! "Forbidden")
      (b! "The requested URL " ++ x ++ b! " is a directory.") ∧
    page (notFoundPage method x) = htmlPage (b! "404 Not Found") (b! "Not Found")
      (b! "The requested URL " ++ x ++ b! " was not found on this server.") ∧
    page (noDirectoryPage x) = htmlPage (b! "404 Not Found") (b! "Not Found")
      (b! "The directory of the requested URL " ++ x ++ b! " was not found on this server.") ∧
    page (notAllowedPage x) = htmlPage (b! "405 Method Not Allowed") (b! "Not Allowed")
      (b! "The requested method " ++ x ++ b! " is not allowed on this server.") ∧
    page (notImplementedPage x) = htmlPage (b! "501 Not Implemented") (b! "Not Implemented")
      (b! "The requested method " ++ x ++ b! " is not implemented on this server.") ∧
    page (createdPage resource x) = htmlPage (b! "201 Created") (b! "Created") x ∧
    page (deleteFailedPage x diagnostic) = htmlPage (b! "500 Server Error") (b! "Server Error")
      (b! "Could not delete " ++ x ++ b! ".</p><p>" ++ diagnostic ++ b! ".") := by
  refine ⟨?_, ?_, ?_, ?_, ?_, ?_, ?_, ?_⟩ <;>
    simp [page, forbiddenPage, notFoundPage, noDirectoryPage, notAllowedPage, notImplementedPage, createdPage, createdWrites, deleteFailedPage,
      pageWrites, written, htmlPage, hm]

/-- C79, which page is sent: a request whose target lies outside of the directory is told so; so is one for a directory; and of one for
    a path in the directory that is not a directory, the page depends on what was wrong. -/
theorem page_told (c : FileService.Cfg) (s : St) (r : Req) (diagnostic error path : Bytes) (now : Int) (hm : r.method ≠ b! "HEAD") :
    let sent := page (reply c s r diagnostic error (handle c s r now).1)
    let url := FileService.escape r.resource
    let p := Spec.Path.resolve c.cwd path
    let post := r.method = b! "POST" ∨ r.method = b! "PUT"
    let told (title heading body : Bytes) := sent = htmlPage title heading body
    (target c (relative c r.resource) = .outside →
      told (b! "403 Forbidden") (b! "Forbidden") (b! "The requested URL " ++ url ++ b! " is not in the configured directory.")) ∧
    (target c (relative c r.resource) = .path path →
      (∀ x, s.fs p = some (.dir x) →
        told (b! "403 Forbidden") (b! "Forbidden") (b! "The requested URL " ++ url ++ b! " is a directory.")) ∧
      ((∀ x, s.fs p ≠ some (.dir x)) →
        (post ∨ r.method = b! "DELETE" → c.writable = false →
          told (b! "405 Method Not Allowed") (b! "Not Allowed") (b! "The requested method " ++ FileService.escape r.method ++ b! " is not allowed on this server.")) ∧
        (r.method ∉ [b! "GET", b! "POST", b! "PUT", b! "DELETE"] →
          told (b! "501 Not Implemented") (b! "Not Implemented")
            (b! "The requested method " ++ FileService.escape r.method ++ b! " is not implemented on this server.")) ∧
        (r.method = b! "DELETE" → c.writable = true → s.fs p = none →
          told (b! "404 Not Found") (b! "Not Found") (b! "The requested URL " ++ url ++ b! " was not found on this server.")) ∧
        (r.method = b! "DELETE" → c.writable = true → s.fs p ≠ none → s.fs p.dropLast ≠ some (.dir true) →
          told (b! "500 Server Error") (b! "Server Error") (b! "Could not delete " ++ url ++ b! ".</p><p>" ++ diagnostic ++ b! ".")) ∧
        (post → c.writable = true → s.fs p = none → s.fs p.dropLast = none →
          told (b! "404 Not Found") (b! "Not Found") (b! "The directory of the requested URL " ++ url ++ b! " was not found on this server.")) ∧
        (post → c.writable = true → s.fs p = none → s.fs p.dropLast ≠ none → s.fs p.dropLast ≠ some (.dir true) →
          sent = htmlPage (b! "201 Created") (b! "Created") url ++
            htmlPage (b! "500 Server Error") (b! "Server Error") (b! "Error writing to " ++ url ++ b! ".")))) := by
  intro sent url p post told
  have hh : isHead r.method = false := by simpa [isHead] using hm
  obtain ⟨q1, q2, q3, q4, q5, q6, -, q8⟩ := pages_say r.method r.resource url diagnostic hm
  obtain ⟨-, -, -, -, q5', q6', -, -⟩ := pages_say r.method r.resource (FileService.escape r.method) diagnostic hm
  have q7 : page (putFailedPage r.resource url) = htmlPage (b! "201 Created") (b! "Created") url ++
      htmlPage (b! "500 Server Error") (b! "Server Error") (b! "Error writing to " ++ url ++ b! ".") := by
    simp [page, putFailedPage, createdWrites, pageWrites, written, htmlPage]
  constructor
  · intro ht
    show page _ = _
    unfold handle reply
    simp only [ht]
    simpa using q1
  · intro ht
    refine ⟨?_, ?_⟩
    · intro x hx
      show page _ = _
      unfold handle reply
      simp only [ht, show s.fs (Spec.Path.resolve c.cwd path) = some (.dir x) from hx]
      simpa using q2
    · intro hd
      have eq : handle c s r now = if isGet r.method ∨ isHead r.method then FileService.get c s r (relative c r.resource) path
          else if r.method = b! "POST" ∨ r.method = b! "PUT" ∨ r.method = b! "DELETE" then
            if c.writable = false then (.page 405 (FileService.escape r.method), s)
            else if r.method = b! "POST" ∨ r.method = b! "PUT" then FileService.putPost c s r path now
            else FileService.delete c s r path
          else (.page 501 (FileService.escape r.method), s) := by
        unfold handle
        simp only [ht]
        split
        · rename_i x hx
          exact absurd hx (hd x)
        · rfl
      have hg : ∀ m, r.method = m → m ≠ b! "GET" → isGet r.method = false := by
        intro m e hm'
        rw [e]
        simpa [isGet] using hm'
      refine ⟨?_, ?_, ?_, ?_, ?_, ?_⟩
      · intro h1 h2
        have h1' : r.method = b! "POST" ∨ r.method = b! "PUT" ∨ r.method = b! "DELETE" := or_assoc.1 h1
        have hng : ¬(isGet r.method = true ∨ isHead r.method = true) := by
          rcases h1' with e | e | e <;> rw [e] <;> decide +kernel
        show page (reply c s r diagnostic error (handle c s r now).1) = _
        rw [eq, if_neg hng, if_pos h1', if_pos h2]
        exact q5'
      · intro h1
        have hng : ¬(isGet r.method = true ∨ isHead r.method = true) := by
          simp only [List.mem_cons, not_or] at h1
          simp [isGet, hh, h1.1]
        have h1' : ¬(r.method = b! "POST" ∨ r.method = b! "PUT" ∨ r.method = b! "DELETE") := by
          simp only [List.mem_cons, not_or] at h1
          simp [h1]
        show page (reply c s r diagnostic error (handle c s r now).1) = _
        rw [eq, if_neg hng, if_neg h1']
        exact q6'
      all_goals
        intro h1 h2 h3
        have hng : ¬(isGet r.method = true ∨ isHead r.method = true) := by
          first
            | (rcases h1 with e | e <;> rw [e] <;> decide +kernel)
            | (rw [h1]; decide +kernel)
        have hc2 : ¬c.writable = false := by simp [h2]
      · have h1' : ¬(r.method = b! "POST" ∨ r.method = b! "PUT") := by rw [h1]; decide +kernel
        show page (reply c s r diagnostic error (handle c s r now).1) = _
        rw [eq, if_neg hng, if_pos (Or.inr (Or.inr h1)), if_neg hc2, if_neg h1']
        unfold FileService.delete
        simp only [show s.fs (Spec.Path.resolve c.cwd path) = none from h3, Option.isNone_none, if_true]
        simpa [reply, h1'] using q3
      · intro h4
        have h1' : ¬(r.method = b! "POST" ∨ r.method = b! "PUT") := by rw [h1]; decide +kernel
        have e : FileService.delete c s r path = (.page 500 url, s) := by
          unfold FileService.delete
          dsimp only
          rw [if_neg (by simpa using h3)]
          split
          · rename_i hx
            exact absurd hx h4
          · rfl
        show page (reply c s r diagnostic error (handle c s r now).1) = _
        rw [eq, if_neg hng, if_pos (Or.inr (Or.inr h1)), if_neg hc2, if_neg h1', e]
        simpa [reply, h1'] using q8
      · intro h4
        have h1' : r.method = b! "POST" ∨ r.method = b! "PUT" ∨ r.method = b! "DELETE" := or_assoc.1 (Or.inl h1)
        show page (reply c s r diagnostic error (handle c s r now).1) = _
        rw [eq, if_neg hng, if_pos h1', if_neg hc2, if_pos h1]
        unfold FileService.putPost
        dsimp only
        rw [if_pos (by simpa using ⟨h3, h4⟩)]
        have h1 : r.method = b! "POST" ∨ r.method = b! "PUT" := h1
        simpa [reply, h1, ht, h2] using q4
      · intro h4 h5
        have h1' : r.method = b! "POST" ∨ r.method = b! "PUT" ∨ r.method = b! "DELETE" := or_assoc.1 (Or.inl h1)
        have hw : ∀ b, FileService.write s.fs p b r.body now = s.fs := by
          intro b
          unfold FileService.write
          rw [h3]
          dsimp only
          split
          · rename_i hx
            exact absurd hx h5
          · rfl
        have e : FileService.putPost c s r path now = (.page 500 url, s) := by
          unfold FileService.putPost
          dsimp only
          rw [if_neg (by simpa using fun _ => h4), hw, if_pos (by simpa using h3)]
        show page (reply c s r diagnostic error (handle c s r now).1) = _
        rw [eq, if_neg hng, if_pos h1', if_neg hc2, if_pos h1, e]
        have h1 : r.method = b! "POST" ∨ r.method = b! "PUT" := h1
        simpa [reply, h1] using q7

/-- A page for HEAD has no text. -/
theorem no_page_for_head (x : Bytes) (outside : Bool) : page (forbiddenPage (b! "HEAD") x outside) = [] ∧ page (notFoundPage (b! "HEAD") x) = [] :=
  ⟨rfl, rfl⟩

/-- Finding: the page for a file that could not be written says that it was created, and then that it was not. -/
theorem put_failed_page : page (putFailedPage (b! "/files/x") (b! "/files/x")) =
    b! "<html><head>\n<title>201 Created</title>\n</head><body>\n<h1>Created</h1>\n<p>/files/x</p>\n</body></html>\n<html><head>\n<title>500 Server Error</title>\n</head><body>\n<h1>Server Error</h1>\n<p>Error writing to /files/x.</p>\n</body></html>\n" := by
  decide +kernel

/-! ### Types -/

private theorem lower_of_same {e x : Bytes} (h : iequals e x = true) : e.map Config.toLower = x.map Config.toLower := by
  have hc : ∀ k l : Fin 256, toUpper (UInt8.ofNat k.val) = toUpper (UInt8.ofNat l.val) →
      Config.toLower (UInt8.ofNat k.val) = Config.toLower (UInt8.ofNat l.val) := by decide +kernel
  have hc' : ∀ a b : UInt8, toUpper a = toUpper b → Config.toLower a = Config.toLower b := by
    intro a b hab
    have := hc ⟨a.toNat, a.toNat_lt⟩ ⟨b.toNat, b.toNat_lt⟩
    simp only [UInt8.ofNat_toNat] at this
    exact this hab
  unfold iequals at h
  rw [beq_iff_eq] at h
  induction e generalizing x with
  | nil => cases x with
    | nil => rfl
    | cons b x => cases h
  | cons a e ih => cases x with
    | nil => cases h
    | cons b x =>
      simp only [List.map_cons, List.cons.injEq] at h ⊢
      exact ⟨hc' a b h.1, ih h.2⟩

/-- The type depends on what follows the last dot only, and not on its case. -/
theorem type_by_ending {name ending : Bytes} (h : EndsWith name ending) :
    findMimeType name = match mimeTypes.find? (·.1 = ending.map Config.toLower) with
      | some e => e.2
      | none => b! "application/octet-stream" := by
  obtain ⟨stem, e, rfl, h1, h2⟩ := h
  unfold findMimeType
  rw [afterLast_append (c! ".") stem h1, lower_of_same h2]
  rfl

/-- **C79 (types; partial: eot).** A file whose name has one of the usual endings, in whatever case, has the type that
    belongs to it. -/
theorem type_expected_partial {name ending ty : Bytes} (h : EndsWith name ending) (ht : (ending, ty) ∈ usualTypes)
    (he : ending ≠ b! "eot") : findMimeType name = ty := by
  rw [type_by_ending h]
  have : usualTypes.all (fun p => p.1 = b! "eot" ∨ (match mimeTypes.find? (·.1 = p.1.map Config.toLower) with
      | some e => e.2
      | none => b! "application/octet-stream") = p.2) = true := by decide +kernel
  have := List.all_eq_true.1 this _ ht
  simpa [he] using this

/-- A file with any other ending than those of the table has no particular type. -/
theorem type_unknown {name ending : Bytes} (h : EndsWith name ending) (hn : ∀ e ∈ mimeTypes, iequals e.1 ending = false) :
    findMimeType name = b! "application/octet-stream" := by
  rw [type_by_ending h]
  have : mimeTypes.find? (·.1 = ending.map Config.toLower) = none := by
    rw [List.find?_eq_none]
    intro e he hx
    simp only [decide_eq_true_eq] at hx
    have h1 := hn e he
    rw [hx] at h1
    have hc : ∀ k : Fin 256, toUpper (Config.toLower (UInt8.ofNat k.val)) = toUpper (UInt8.ofNat k.val) := by decide +kernel
    have h2 : iequals (ending.map Config.toLower) ending = true := by
      unfold iequals
      rw [beq_iff_eq, List.map_map]
      apply List.map_congr_left
      intro a _
      have := hc ⟨a.toNat, a.toNat_lt⟩
      simpa using this
    rw [h2] at h1; cases h1
  rw [this]

/-- **The type of eot files is not known**: the table has "eof" instead. -/
theorem eot_violated : EndsWith (b! "font.eot") (b! "eot") ∧ (b! "eot", b! "application/vnd.ms-fontobject") ∈ usualTypes ∧
    findMimeType (b! "font.eot") = b! "application/octet-stream" :=
  ⟨⟨b! "font", b! "eot", by decide +kernel, by decide +kernel, by decide +kernel⟩, by decide +kernel, by decide +kernel⟩

/-- Finding: a file without an ending gets the type for an ending if it has its name. -/
theorem no_ending : findMimeType (b! "html") = b! "text/html" := by decide +kernel

example : EndsWith (b! "a.b.JPeG") (b! "jpeg") ∧ findMimeType (b! "a.b.JPeG") = b! "image/jpeg" :=
  ⟨⟨b! "a.b", b! "JPeG", by decide +kernel, by decide +kernel, by decide +kernel⟩, by decide +kernel⟩
example : EndsWith (b! "a.tar.gz") (b! "gz") ∧ ∀ e ∈ mimeTypes, iequals e.1 (b! "gz") = false :=
  ⟨⟨b! "a.tar", b! "gz", by decide +kernel, by decide +kernel, by decide +kernel⟩, by decide +kernel⟩

/-! ### The conditions are met -/

/-- The example service, with files in pieces of 3 bytes. -/
def piecesCfg : FileService.Cfg := { FileService.cachedCfg with maxChunk := 3, date := fun _ => b! "Thu, 01 Jan 1970 00:16:40 GMT" }

def getIndex (minor : Nat) : Spec.Conversation.Request :=
  { method := b! "GET", resource := b! "/files/index.html", minor := minor, headers := [], framing := .bare }

theorem getIndex_ok {minor : Nat} (h : minor < 65536) : (getIndex minor).Ok Conversation.scfg :=
  ⟨⟨show Token (b! "GET") from ⟨by decide +kernel, by decide +kernel, by decide +kernel⟩,
      by show ∀ c ∈ b! "/files/index.html", uriChar c; unfold uriChar; decide +kernel,
      by show (b! "/files/index.html").length ≤ _; decide +kernel, nofun, Nat.zero_le _, ⟨Nat.le_refl 1, by show 1 < 65536; decide⟩, h⟩,
    nofun, ⟨(by rintro ⟨v, hv, -⟩; cases hv), rfl⟩, Nat.zero_le _, by show 0 + 1 < 2 ^ 64; decide⟩

/-- The whole theorem applied: a request for the example's file after a change of it, of version 1.1 or 1.0. -/
theorem example_download (minor : Nat) (hm : minor < 65536) (t : TableOrder) (ht : t.Ok) (lc : Lifecycle) :
    Conversation.Reads Conversation.scfg {} (getIndex minor).bytes fun m =>
      Receives Conversation.ccfg { requestMethod := b! "GET" } (UntilClose 3 1 minor 5)
        (respond t Conversation.scfg.ord piecesCfg (·.getD 0) [] [] { fs := FileService.exampleFs } m lc 0).1
        (Downloaded · (b! "hello") (b! "text/html") (b! "Thu, 01 Jan 1970 00:16:40 GMT")) := by
  have hf : FileService.exampleFs (requested piecesCfg (relative piecesCfg (getIndex minor).resource)) =
      some (.file { content := b! "hello", mtime := 1000 }) := by
    show FileService.exampleFs (requested piecesCfg (relative piecesCfg (b! "/files/index.html"))) = _
    decide +kernel
  have := download_end_to_end_partial (c := piecesCfg) (by unfold DirOk; decide) (.init FileService.exampleFs)
    (by
      intro fs hfs p f hp
      cases List.mem_singleton.1 hfs
      revert hp
      unfold FileService.exampleFs
      repeat' split
      all_goals intro hp; cases hp
      all_goals rfl)
    (by decide) t ht (scfg := Conversation.scfg) (sm := {}) ⟨rfl, rfl, rfl, rfl⟩ (fun l => .refl l) rfl rfl rfl (getIndex minor)
    (getIndex_ok hm) rfl lc 0 (·.getD 0) (fun _ => rfl) [] []
    ⟨⟨b! "/var/www/index.html", by show target piecesCfg (relative piecesCfg (b! "/files/index.html")) = _; decide +kernel⟩,
      fun w hw => by cases hf.symm.trans hw⟩ hf (by rintro (h | h) <;> exact absurd h (by decide))
    (by show ([] : Bytes) ≠ _; decide +kernel)
    (by
      intro _ fs hfs g hg _ _
      cases List.mem_singleton.1 hfs
      cases hf.symm.trans hg; rfl)
    (by show Plain (fileName (asked piecesCfg (relative piecesCfg (b! "/files/index.html")))); decide +kernel)
    (headerOk_of (by decide +kernel) (valueChar_of (by decide +kernel)) (by decide +kernel))
    (cfg := Conversation.ccfg) (m0 := { requestMethod := b! "GET" }) ⟨rfl, fun l => .refl l, rfl, rfl, ⟨rfl, rfl, rfl, rfl⟩, rfl⟩
    (by decide) (by decide)
  have ht : findMimeType (fileName (asked piecesCfg (relative piecesCfg (getIndex minor).resource))) = b! "text/html" := by
    show findMimeType (fileName (asked piecesCfg (relative piecesCfg (b! "/files/index.html")))) = _
    decide +kernel
  rw [ht] at this
  exact this

/-- Both ways of ending the response occur: for 1.0 by the end of the connection, for 1.1 not. -/
example : UntilClose 3 1 0 5 ∧ ¬ UntilClose 3 1 1 5 := by unfold UntilClose; decide

/-- A file that meets the conditions of `file_is_answer`. -/
example : FileSender.Complete (sender piecesCfg FileService.exampleFs (·.getD 0)
      { path := b! "/var/www/index.html", content := none, size := 5, lastModified := b! "Thu, 01 Jan 1970 00:16:40 GMT" }) (b! "hello") ∧
    HeaderOk (b! "Last-Modified", b! "Thu, 01 Jan 1970 00:16:40 GMT") :=
  ⟨⟨rfl, .inr ⟨rfl, b! "hello", by decide +kernel, by decide +kernel, by decide +kernel⟩⟩,
    headerOk_of (by decide +kernel) (valueChar_of (by decide +kernel)) (by decide +kernel)⟩

/-- What is sent for the two versions. -/
def sentFor (minor : Nat) : Bytes :=
  (respond {} Conversation.scfg.ord piecesCfg (·.getD 0) [] [] { fs := FileService.exampleFs }
    { method := b! "GET", resource := b! "/files/index.html", verMinor := minor } .keepAlive 0).1.wire

example : sentFor 0 = b! "HTTP/1.1 200 OK\r\nContent-Type: text/html\r\nLast-Modified: Thu, 01 Jan 1970 00:16:40 GMT\r\nConnection: close\r\n\r\nhello" := by
  decide +kernel
example : sentFor 1 = b! "HTTP/1.1 200 OK\r\nContent-Type: text/html\r\nLast-Modified: Thu, 01 Jan 1970 00:16:40 GMT\r\nConnection: Keep-Alive\r\nTransfer-Encoding: chunked\r\n\r\n3\r\nhel\r\n2\r\nlo\r\n0\r\n\r\n" := by
  decide +kernel

/-- What is sent for other requests. -/
def answered (method resource since : Bytes) : Bytes :=
  (respond {} Conversation.scfg.ord { piecesCfg with writable := true } (·.getD 0) [] [] { fs := FileService.exampleFs }
    { method := method, resource := resource, headers := [(b! "If-Modified-Since", since)], content := (b! "x").map some } .keepAlive 0).1.wire

example : answered (b! "HEAD") (b! "/files/index.html") [] =
    b! "HTTP/1.1 200 OK\r\nContent-Type: text/html\r\nLast-Modified: Thu, 01 Jan 1970 00:16:40 GMT\r\nConnection: Keep-Alive\r\nContent-Length: 0\r\n\r\n" := by
  decide +kernel
example : answered (b! "GET") (b! "/files/index.html") (b! "Thu, 01 Jan 1970 00:16:40 GMT") =
    b! "HTTP/1.1 304 Not Modified\r\nContent-Type: text/html\r\nLast-Modified: Thu, 01 Jan 1970 00:16:40 GMT\r\nConnection: Keep-Alive\r\nContent-Length: 0\r\n\r\n" := by
  decide +kernel
example : answered (b! "PUT") (b! "/files/<new>") [] =
    b! "HTTP/1.1 201 Created\r\nLocation: /files/<new>\r\nConnection: Keep-Alive\r\nContent-Length: 112\r\n\r\n<html><head>\n<title>201 Created</title>\n</head><body>\n<h1>Created</h1>\n<p>/files/&lt;new&gt;</p>\n</body></html>\n" := by
  decide +kernel

example : FileService.exampleFs [b! "var", b! "www", b! "new"] = none ∧ FileService.exampleFs [b! "var", b! "www"] = some (.dir true) := by
  decide +kernel
/-- The answer to a request that is not allowed. -/
example : (respond {} Conversation.scfg.ord piecesCfg (·.getD 0) [] [] { fs := FileService.exampleFs }
    { method := b! "PUT", resource := b! "/files/new" } .keepAlive 0).1.wire =
    b! "HTTP/1.1 405 Method Not Allowed\r\nAllow: GET, HEAD\r\nConnection: Keep-Alive\r\nContent-Length: 164\r\n\r\n<html><head>\n<title>405 Method Not Allowed</title>\n</head><body>\n<h1>Not Allowed</h1>\n<p>The requested method PUT is not allowed on this server.</p>\n</body></html>\n" := by
  decide +kernel

/-- Cases of `page_told`: a file in a directory that cannot be written to, and one that is not there. -/
def lockedFs : FileService.Fs := FileService.exampleFs.set [b! "var", b! "www"] (some (.dir false))

example : target { piecesCfg with writable := true } (relative piecesCfg (b! "/files/index.html")) = .path (b! "/var/www/index.html") ∧
    lockedFs (Spec.Path.resolve piecesCfg.cwd (b! "/var/www/index.html")) ≠ none ∧
    (∀ x, lockedFs (Spec.Path.resolve piecesCfg.cwd (b! "/var/www/index.html")) ≠ some (.dir x)) ∧
    lockedFs (Spec.Path.resolve piecesCfg.cwd (b! "/var/www/new")) = none ∧
    lockedFs (Spec.Path.resolve piecesCfg.cwd (b! "/var/www/new")).dropLast ≠ none ∧
    lockedFs (Spec.Path.resolve piecesCfg.cwd (b! "/var/www/index.html")).dropLast ≠ some (.dir true) := by
  refine ⟨by decide +kernel, by decide +kernel, ?_, by decide +kernel, by decide +kernel, by decide +kernel⟩
  intro x
  cases x <;> decide +kernel

end Verif.Props.FileAnswers
