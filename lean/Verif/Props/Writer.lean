import Verif.Props.Message
import Verif.Spec.Writer
/-
C28 (what `http::writer` puts on the wire) and the sending side of C14 (chunked round trip).
-/
namespace Verif.Props.Writer
open Verif.Http hiding run
open Verif.Writer Verif.Spec.Writer Verif.Props.Dict Verif.Props.HttpBody

/-- The states of a writer: the length counted is the length of the buffers, and the stream is empty when it is said
    to be. -/
structure WF (w : W) : Prop where
  length : w.contentLength = w.buffers.flatten.length
  stream : w.streamEmpty = true → w.stream = []

/-- The data written and not cleared. -/
def pending (w : W) : Bytes := w.buffers.flatten ++ w.stream

theorem flush_spec (w : W) (h : WF w) : ∃ b n, flush w = { w with buffers := b, contentLength := n, stream := [], streamEmpty := true } ∧
    b.flatten = pending w ∧ n = (pending w).length := by
  unfold flush pending
  split
  · rename_i he
    refine ⟨w.buffers, w.contentLength, ?_, by simp [h.stream he], by simp [h.stream he, h.length]⟩
    have := h.stream he
    cases w; simp_all
  · split
    · rename_i he
      have he : w.stream = [] := by simpa using he
      refine ⟨w.buffers, w.contentLength, ?_, by simp [he], by simp [he, h.length]⟩
      cases w; simp_all
    · exact ⟨_, _, rfl, by simp, by simp [h.length]⟩

theorem WF.mk_flushed {w : W} {b : List Bytes} {n : Nat} (hb : n = b.flatten.length) :
    WF { w with buffers := b, contentLength := n, stream := [], streamEmpty := true } := ⟨hb, fun _ => rfl⟩

/-- The head that is sent with the first `send` call: what the message's headers are then, for the given connection
    state, mode and length of the data. -/
def headFor (t : TableOrder) (isRequest : Bool) (m : Msg) (lc : Lifecycle) (sending : Bool) (n : Nat) : Bytes :=
  ((if 0 < n then { m with contentLength := n } else m).prepareBuffers t isRequest (lc != .close) sending).2

/-- The fields that decide what the next calls send. -/
structure Sim (w : W) (supports sending sent : Bool) (lc : Lifecycle) (p : Bytes) : Prop where
  wf : WF w
  isOpen : w.isOpen = true
  supports : w.supportsChunks = supports
  sending : w.sendingChunks = sending
  sent : w.sentHeaders = sent
  lc : w.lifecycle = lc
  pending : pending w = p

theorem sendMore_spec (t : TableOrder) (w : W) (final : Bool) {su se st : Bool} {lc : Lifecycle} {p : Bytes}
    (h : Sim w su se st lc p) :
    Sim (sendMore t w final) su se true lc p ∧ (sendMore t w final).isRequest = w.isRequest ∧
    (sendMore t w final).wire = w.wire ++ (if st then [] else headFor t w.isRequest w.msg lc se p.length) ++
      piece (su && se) p ++ (if final && su && se then lastChunk else []) := by
  obtain ⟨b, n, hf, hb, hn⟩ := flush_spec w h.wf
  have hpay : ∀ w' : W, w'.contentLength = n → w'.buffers = b → w'.supportsChunks = su → w'.sendingChunks = se →
      payloadPart w' = piece (su && se) p := by
    intro w' h1 h2 h3 h4
    unfold payloadPart piece
    rw [h1, h2, h3, h4, hb, hn, h.pending]
    by_cases hp : p = []
    · subst hp; simp
    · rw [if_pos (List.length_pos_iff.2 hp), if_neg hp]
      simp [chunkWire, CRLF]
  have hfin : ∀ w' : W, w'.supportsChunks = su → w'.sendingChunks = se →
      finalPart w' final = if final && su && se then lastChunk else [] := by
    intro w' h3 h4; unfold finalPart; rw [h3, h4]; rfl
  unfold sendMore
  rw [if_pos h.isOpen, hf]
  dsimp only
  unfold headPart
  cases st with
  | true =>
    rw [if_pos h.sent]
    dsimp only
    refine ⟨⟨⟨by simp [hb, hn], fun _ => rfl⟩, h.isOpen, h.supports, h.sending, h.sent, h.lc, ?_⟩, rfl, ?_⟩
    · simp [pending, hb]; exact h.pending
    · rw [hpay _ (by rfl) (by rfl) (by exact h.supports) (by exact h.sending),
        hfin _ (by exact h.supports) (by exact h.sending)]; simp
  | false =>
    rw [if_neg (by rw [h.sent]; simp)]
    unfold prepareBuffers
    dsimp only
    refine ⟨⟨⟨by simp [hb, hn], fun _ => rfl⟩, h.isOpen, h.supports, h.sending, rfl, h.lc, ?_⟩, rfl, ?_⟩
    · simp [pending, hb]; exact h.pending
    · rw [hpay _ (by rfl) (by rfl) (by exact h.supports) (by exact h.sending),
        hfin _ (by exact h.supports) (by exact h.sending)]
      simp only [headFor, Bool.false_eq_true, if_false, h.lc, h.sending, hn, h.pending]
      simp

theorem writeText_spec (w : W) (d : Bytes) {su se st : Bool} {lc : Lifecycle} {p : Bytes} (h : Sim w su se st lc p) :
    Sim (writeText w d) su se st lc (p ++ d) ∧ (writeText w d).isRequest = w.isRequest ∧ (writeText w d).msg = w.msg ∧
    (writeText w d).wire = w.wire :=
  ⟨⟨⟨h.wf.length, fun hh => by cases hh⟩, h.isOpen, h.supports, h.sending, h.sent, h.lc, by
    rw [← h.pending]; simp [writeText, pending]⟩, rfl, rfl, rfl⟩

theorem writeBuffer_spec (w : W) (d : Bytes) {su se st : Bool} {lc : Lifecycle} {p : Bytes} (h : Sim w su se st lc p) :
    Sim (writeBuffer w d) su se st lc (p ++ d) ∧ (writeBuffer w d).isRequest = w.isRequest ∧
    (writeBuffer w d).msg = w.msg ∧ (writeBuffer w d).wire = w.wire := by
  unfold writeBuffer
  split
  · rename_i he
    have he : d = [] := by simpa using he
    subst he
    exact ⟨by rw [List.append_nil]; exact h, rfl, rfl, rfl⟩
  · obtain ⟨b, n, hf, hb, hn⟩ := flush_spec w h.wf
    rw [hf]
    refine ⟨⟨⟨?_, fun _ => rfl⟩, h.isOpen, h.supports, h.sending, h.sent, h.lc, ?_⟩, rfl, rfl, rfl⟩
    · simp [hb, hn]
    · simp [pending, hb]; rw [← h.pending]; simp [pending]

theorem clear_spec (w : W) {su se st : Bool} {lc : Lifecycle} {p : Bytes} (h : Sim w su se st lc p) :
    Sim (clear w) su se st lc [] :=
  ⟨⟨rfl, fun _ => rfl⟩, h.isOpen, h.supports, h.sending, h.sent, h.lc, rfl⟩

/-- The parts of a sequence of calls up to the first one that sends: the mode, the connection state and the data at
    that moment. -/
def atFirstSend (chunks : Bool) : (sending : Bool) → Lifecycle → (pending : Bytes) → List Op → Option (Bool × Lifecycle × Nat)
  | _, _, _, [] => none
  | s, lc, p, .text d :: ops => atFirstSend chunks s lc (p ++ d) ops
  | s, lc, p, .buffer d :: ops => atFirstSend chunks s lc (p ++ d) ops
  | s, lc, _, .clear :: ops => atFirstSend chunks s lc [] ops
  | s, lc, p, .send :: _ => some (s, lc, p.length)
  | _, lc, p, .sendChunk :: _ => some (true, if chunks then lc else .close, p.length)
  | _, lc, p, .sendFinal :: _ => some (true, lc, p.length)

theorem run_spec (t : TableOrder) (ops : List Op) : ∀ (w : W) (su se st : Bool) (lc : Lifecycle) (p : Bytes),
    Sim w su se st lc p →
    (run t w ops).wire = w.wire ++ (if st then [] else
      match atFirstSend su se lc p ops with
      | none => []
      | some (s, l, n) => headFor t w.isRequest w.msg l s n) ++ payload su se p ops := by
  induction ops with
  | nil => intro w su se st lc p h; cases st <;> simp [run, payload, atFirstSend]
  | cons op ops ih =>
    intro w su se st lc p h
    have hr : run t w (op :: ops) = run t (step t w op) ops := rfl
    rw [hr]
    cases op with
    | text d =>
      obtain ⟨h1, h2, h3, h4⟩ := writeText_spec w d h
      rw [step, ih _ _ _ _ _ _ h1, h2, h3, h4]; rfl
    | buffer d =>
      obtain ⟨h1, h2, h3, h4⟩ := writeBuffer_spec w d h
      rw [step, ih _ _ _ _ _ _ h1, h2, h3, h4]; rfl
    | clear => rw [step, ih _ _ _ _ _ _ (clear_spec w h)]; rfl
    | send =>
      obtain ⟨h1, h2, h3⟩ := sendMore_spec t w false h
      rw [step, ih _ _ _ _ _ _ h1, h3]
      cases st <;> simp [atFirstSend, payload]
    | sendChunk =>
      cases su with
      | true =>
        have h' : Sim { w with sendingChunks := true } true true st lc p :=
          ⟨⟨h.wf.length, h.wf.stream⟩, h.isOpen, h.supports, rfl, h.sent, h.lc, h.pending⟩
        obtain ⟨h1, h2, h3⟩ := sendMore_spec t _ false h'
        rw [step]; dsimp only; rw [if_pos (by exact h.supports), ih _ _ _ _ _ _ h1, h3]
        cases st <;> simp [atFirstSend, payload]
      | false =>
        have h' : Sim { w with sendingChunks := true, lifecycle := .close } false true st .close p :=
          ⟨⟨h.wf.length, h.wf.stream⟩, h.isOpen, h.supports, rfl, h.sent, rfl, h.pending⟩
        obtain ⟨h1, h2, h3⟩ := sendMore_spec t _ false h'
        rw [step]; dsimp only; rw [if_neg (by rw [h.supports]; simp), ih _ _ _ _ _ _ h1, h3]
        cases st <;> simp [atFirstSend, payload]
    | sendFinal =>
      have h' : Sim { w with sendingChunks := true } su true st lc p :=
        ⟨⟨h.wf.length, h.wf.stream⟩, h.isOpen, h.supports, rfl, h.sent, h.lc, h.pending⟩
      obtain ⟨h1, h2, h3⟩ := sendMore_spec t _ true h'
      rw [step, ih _ _ _ _ _ _ h1, h3]
      cases st <;> cases su <;> simp [atFirstSend, payload]

/-- A writer at the beginning: nothing sent, the connection open, the data `p` to be sent (the content of the message
    it was created for, or nothing). -/
structure Initial (w : W) (p : Bytes) : Prop where
  wf : WF w
  isOpen : w.isOpen = true
  nothingSent : w.sentHeaders = false
  noChunks : w.sendingChunks = false
  wire : w.wire = []
  data : pending w = p

theorem Initial.sim {w : W} {p : Bytes} (h : Initial w p) : Sim w w.supportsChunks false false w.lifecycle p :=
  ⟨h.wf, h.isOpen, rfl, h.noChunks, h.nothingSent, rfl, h.data⟩

/-- **C28 (order, headers once).** For every sequence of calls: nothing is sent before a call that sends; then the wire
    has one message head, and after it the data in the order of the calls (each time everything written since the last
    `clear`, as a chunk or as it is). -/
theorem wire_exact (t : TableOrder) (w : W) (p : Bytes) (hi : Initial w p) (ops : List Op) :
    (ops.any Sends = false → (run t w ops).wire = []) ∧
    (ops.any Sends = true → ∃ hs, (run t w ops).wire =
      wireHead (w.msg.head w.isRequest) hs ++ payload w.supportsChunks false p ops) := by
  have hrun := run_spec t ops w _ _ _ _ _ hi.sim
  rw [hi.wire, List.nil_append, if_neg (by simp)] at hrun
  have hnone : ∀ su se lc p, ops.any Sends = false → atFirstSend su se lc p ops = none ∧ payload su se p ops = [] := by
    clear hrun
    intro su se lc p h
    induction ops generalizing se lc p with
    | nil => exact ⟨rfl, rfl⟩
    | cons op ops ih =>
      rw [List.any_cons, Bool.or_eq_false_iff] at h
      have ih := fun se lc p => ih se lc p h.2
      cases op with
      | text d => exact ih _ _ _
      | buffer d => exact ih _ _ _
      | clear => exact ih _ _ _
      | send => exact absurd h.1 (by simp [Sends])
      | sendChunk => exact absurd h.1 (by simp [Sends])
      | sendFinal => exact absurd h.1 (by simp [Sends])
  have hsome : ∀ su se lc p, ops.any Sends = true → atFirstSend su se lc p ops ≠ none := by
    clear hrun hnone
    induction ops with
    | nil => intro su se lc p h; cases h
    | cons op ops ih =>
      intro su se lc p h
      cases op with
      | text d => exact ih _ _ _ _ h
      | buffer d => exact ih _ _ _ _ h
      | clear => exact ih _ _ _ _ h
      | send => simp [atFirstSend]
      | sendChunk => simp [atFirstSend]
      | sendFinal => simp [atFirstSend]
  constructor
  · intro h
    rw [hrun, (hnone w.supportsChunks false w.lifecycle p h).1, (hnone w.supportsChunks false w.lifecycle p h).2]
    rfl
  · intro h
    rw [hrun]
    cases hf : atFirstSend w.supportsChunks false w.lifecycle p ops with
    | none => exact absurd hf (hsome _ _ _ _ h)
    | some x =>
      obtain ⟨s, l, n⟩ := x
      simp only [headFor, Msg.prepareBuffers_eq]
      by_cases hn : 0 < n
      · simp only [hn, if_true]; exact ⟨_, rfl⟩
      · simp only [hn, if_false]; exact ⟨_, rfl⟩

theorem onlyWrites_payload (su se : Bool) (rest : List Op) : ∀ (ops : List Op) (p : Bytes), OnlyWrites ops →
    payload su se p (ops ++ rest) = payload su se (p ++ written ops) rest := by
  intro ops
  induction ops with
  | nil => intro p _; simp [written]
  | cons op ops ih =>
    intro p h
    have ht := fun op hop => h op (List.mem_cons_of_mem _ hop)
    obtain ⟨d, rfl | rfl⟩ := h op List.mem_cons_self
    · rw [List.cons_append, payload, ih _ ht, written, List.append_assoc]
    · rw [List.cons_append, payload, ih _ ht, written, List.append_assoc]

theorem onlyWrites_first (su se : Bool) (lc : Lifecycle) (rest : List Op) : ∀ (ops : List Op) (p : Bytes), OnlyWrites ops →
    atFirstSend su se lc p (ops ++ rest) = atFirstSend su se lc (p ++ written ops) rest := by
  intro ops
  induction ops with
  | nil => intro p _; simp [written]
  | cons op ops ih =>
    intro p h
    have ht := fun op hop => h op (List.mem_cons_of_mem _ hop)
    obtain ⟨d, rfl | rfl⟩ := h op List.mem_cons_self
    · rw [List.cons_append, atFirstSend, ih _ ht, written, List.append_assoc]
    · rw [List.cons_append, atFirstSend, ih _ ht, written, List.append_assoc]

/-- **C28 (Content-Length; partial: see `nul_content_lost`).** Any sequence of `write` and `write_no_copy` calls and then `send`: the wire is a message
    head followed by the data in the order of the calls, and the head has exactly one Content-Length header, which is
    the number of bytes of the data. If no data at all is written, the message must not have a content length of its
    own (`nul_content_lost` shows what happens otherwise). -/
theorem send_exact_partial (t : TableOrder) (ht : t.Ok) (w : W) (p : Bytes) (hi : Initial w p) (ops : List Op)
    (hops : OnlyWrites ops) (hd : w.msg.doNotSendContentLength = false)
    (hlen : p ++ written ops ≠ [] ∨ w.msg.contentLength = 0) :
    ∃ hs name, (run t w (ops ++ [.send])).wire = wireHead (w.msg.head w.isRequest) hs ++ (p ++ written ops) ∧
      matching hs (b! "Content-Length") = [(name, toDec (p ++ written ops).length)] := by
  have hrun := run_spec t (ops ++ [.send]) w _ _ _ _ _ hi.sim
  rw [hi.wire, List.nil_append, if_neg (by simp), onlyWrites_payload _ _ _ _ _ hops, onlyWrites_first _ _ _ _ _ _ hops] at hrun
  generalize p ++ written ops = d at hrun hlen ⊢
  simp only [atFirstSend, payload, Bool.and_false, List.append_nil, headFor] at hrun
  rw [Msg.prepareBuffers_eq] at hrun
  have hpiece : piece false d = d := by unfold piece; split <;> simp_all
  rw [hpiece] at hrun
  by_cases h0 : d = []
  · subst h0
    obtain ⟨name, hm⟩ := matching_sent_length t w.isRequest (w.lifecycle != .close) w.msg hd
    refine ⟨_, name, hrun, ?_⟩
    rw [matching_iter ht (by exact hm)]
    rcases hlen with h | h
    · exact absurd rfl h
    · rw [h]; rfl
  · have hpos : 0 < d.length := List.length_pos_iff.2 h0
    simp only [hpos, if_true] at hrun
    obtain ⟨name, hm⟩ := matching_sent_length t w.isRequest (w.lifecycle != .close) { w.msg with contentLength := d.length } hd
    exact ⟨_, name, hrun, by rw [matching_iter ht (by exact hm)]⟩

theorem sentHeaders_content (t : TableOrder) (isRequest ka uc : Bool) (m : Msg) (n : Nat) (c : List (Option UInt8)) :
    Msg.sentHeaders t isRequest ka uc { m with contentLength := n, content := c } =
      Msg.sentHeaders t isRequest ka uc { m with contentLength := n } := by
  unfold Msg.sentHeaders Msg.prepareHeaders Msg.changeHeader
  dsimp only
  split
  · split <;> rfl
  · split <;> rfl

/-- Writing data and calling `send` once puts on the wire what `message::send` does for the message with that content. -/
theorem send_eq_transmit (t : TableOrder) (w : W) (p : Bytes) (hi : Initial w p) (ops : List Op)
    (hops : OnlyWrites ops) (hlen : p ++ written ops ≠ [] ∨ w.msg.contentLength = 0) :
    ∃ m', Msg.transmit t w.isRequest (w.lifecycle != .close) false
      { w.msg with contentLength := (p ++ written ops).length, content := (p ++ written ops).map some } =
        some (m', (run t w (ops ++ [.send])).wire) := by
  have hrun := run_spec t (ops ++ [.send]) w _ _ _ _ _ hi.sim
  rw [hi.wire, List.nil_append, if_neg (by simp), onlyWrites_payload _ _ _ _ _ hops, onlyWrites_first _ _ _ _ _ _ hops] at hrun
  generalize p ++ written ops = d at hrun hlen ⊢
  simp only [atFirstSend, payload, Bool.and_false, List.append_nil, headFor] at hrun
  rw [Msg.prepareBuffers_eq] at hrun
  have hpiece : piece false d = d := by unfold piece; split <;> simp_all
  rw [hpiece] at hrun
  have key : (run t w (ops ++ [.send])).wire = wireHead (w.msg.head w.isRequest)
      (t.iter (Msg.sentHeaders t w.isRequest (w.lifecycle != .close) false { w.msg with contentLength := d.length })) ++ d := by
    by_cases h0 : d = []
    · subst h0
      rcases hlen with h | h
      · exact absurd rfl h
      · have : ({ w.msg with contentLength := ([] : Bytes).length } : Msg) = w.msg := by
          cases hm : w.msg; rw [hm] at h; dsimp only at h ⊢; rw [h]; rfl
        rw [this]
        exact hrun
    · have hpos : 0 < d.length := List.length_pos_iff.2 h0
      simp only [hpos, if_true] at hrun
      exact hrun
  clear hrun
  rw [← sentHeaders_content t _ _ _ w.msg d.length (d.map some)] at key
  rw [key]
  exact ⟨_, Message.transmit_eq t w.isRequest (w.lifecycle != .close) _ d rfl rfl⟩

/-- **C28 (what the receiver gets; partial: see `nul_content_lost` for the content a writer starts with, and
    `head_answer_unread` in `Verif.Props.Responses` for responses that must not have a body).** What is written and sent with
    one `send` call is received as one message with exactly the data written as its content, however the stream is cut into
    buffers and whatever follows. -/
theorem send_received_partial (cfg : Cfg) (m0 : Msg) (hb : Blank m0) (hord : Http.OrderOk cfg.ord)
    (hho : cfg.headersOnly = false) (hhand : cfg.handler = false) (t : TableOrder) (ht : t.Ok) (w : W) (p : Bytes)
    (hi : Initial w p) (hkind : cfg.isRequest = w.isRequest) (ops : List Op) (hops : OnlyWrites ops) (d : Bytes)
    (hd : d = p ++ written ops) (hhead : (w.msg.head w.isRequest).Ok) (hhs : ∀ e ∈ w.msg.headers, HeaderOk e)
    (hck : ∀ c ∈ w.msg.cookies, HeaderOk (Msg.cookieHeader w.isRequest c)) (hnc : Message.NotChunked w.msg.headers)
    (hdn : w.msg.doNotSendContentLength = false) (hlen : d ≠ [] ∨ w.msg.contentLength = 0) (hsize : d.length + 1 < 2 ^ 64)
    (hmax : d.length ≤ cfg.maxContent) (hba : (w.msg.head w.isRequest).Bodyless m0.requestMethod → d = [])
    (tail : Bytes) (bufs : List Bytes) (hcut : Cuts bufs ((run t w (ops ++ [.send])).wire ++ tail)) :
    ∃ o, outcome cfg (fresh cfg m0) bufs = some o ∧ o.result = .yes ∧ o.error = none ∧ o.unread = tail ∧
      o.message.isValid = true ∧ Message.SameMessage w.isRequest (w.lifecycle != .close) w.msg d o.message := by
  subst hd
  obtain ⟨m', htr⟩ := send_eq_transmit t w p hi ops hops hlen
  generalize hm : ({ w.msg with contentLength := (p ++ written ops).length, content := (p ++ written ops).map some } : Msg) = m at htr
  have hbl : (w.msg.head w.isRequest).Bodyless [] → p ++ written ops = [] := by
    intro h
    apply hba
    revert h
    cases w.msg.head w.isRequest with
    | request => exact id
    | response => rintro (h | h); exact absurd h (by decide); exact .inr h
  have hhd : m.head w.isRequest = w.msg.head w.isRequest := by rw [← hm]; rfl
  have hw : Message.Writable cfg.isRequest m (p ++ written ops) := by
    rw [hkind]
    exact ⟨by rw [hhd]; exact hhead, by rw [← hm]; exact hhs, by rw [← hm]; exact hck, by rw [← hm], by rw [← hm], hsize,
      by rw [← hm]; exact hdn, by rw [← hm]; exact hnc, by rw [hhd]; exact hbl⟩
  obtain ⟨m'', wire, htr', hall⟩ := Message.transmit_parse cfg m0 hb hord hho hhand t ht (w.lifecycle != .close) m _ hw
    (by rw [hkind, hhd]; exact hba) hmax tail
  rw [hkind, htr] at htr'
  obtain ⟨-, rfl⟩ := Prod.mk.inj (Option.some.inj htr')
  obtain ⟨o, ho, h1, h2, h3, h4, -, -, h7⟩ := hall bufs hcut
  rw [hkind] at h7
  refine ⟨o, ho, h1, h2, h3, h4, ?_⟩
  subst hm
  exact ⟨h7.firstLine, h7.content, h7.contentLength, h7.connection, h7.length, h7.cookies, h7.others⟩

/-- A chunk: writing calls, `send_chunk`, and `clear` before the next one. -/
def chunkCalls (ws : List Op) : List Op := ws ++ [.sendChunk, .clear]

/-- A chunked message: some chunks, then perhaps more writing, then `send_final_chunk`. -/
def chunkedCalls (chunks : List (List Op)) (last : List Op) : List Op := (chunks.map chunkCalls).flatten ++ (last ++ [.sendFinal])

/-- The data of the chunks that are not empty. -/
def chunkData (chunks : List (List Op)) (last : List Op) : List Bytes := ((chunks ++ [last]).map written).filter (· ≠ [])

theorem payload_chunked (chunks : List (List Op)) (last : List Op) (hc : ∀ c ∈ chunks, OnlyWrites c) (hl : OnlyWrites last) :
    ∀ se, payload true se [] (chunkedCalls chunks last) = chunkedWire (chunkData chunks last) := by
  induction chunks with
  | nil =>
    intro se
    unfold chunkedCalls chunkData
    rw [List.map_nil, List.flatten_nil, List.nil_append, onlyWrites_payload _ _ _ _ _ hl]
    simp only [payload, piece, List.nil_append, List.map_cons, List.map_nil, if_true, List.append_nil]
    by_cases h : written last = []
    · simp [h, chunkedWire]
    · simp [h, chunkedWire]
  | cons c cs ih =>
    intro se
    have hc' := fun x hx => hc x (List.mem_cons_of_mem _ hx)
    have e : chunkedCalls (c :: cs) last = c ++ (.sendChunk :: .clear :: chunkedCalls cs last) := by
      simp [chunkedCalls, chunkCalls]
    rw [e, onlyWrites_payload _ _ _ _ _ (hc c List.mem_cons_self)]
    simp only [payload, List.nil_append]
    rw [ih hc']
    unfold piece chunkData
    by_cases h : written c = []
    · simp [h]
    · simp [h, chunkedWire]

theorem chunked_first (chunks : List (List Op)) (last : List Op) (hc : ∀ c ∈ chunks, OnlyWrites c) (hl : OnlyWrites last)
    (lc : Lifecycle) : ∃ n, atFirstSend true false lc [] (chunkedCalls chunks last) = some (true, lc, n) := by
  cases chunks with
  | nil =>
    unfold chunkedCalls
    rw [List.map_nil, List.flatten_nil, List.nil_append, onlyWrites_first _ _ _ _ _ _ hl]
    exact ⟨_, rfl⟩
  | cons c cs =>
    have e : chunkedCalls (c :: cs) last = c ++ (.sendChunk :: .clear :: chunkedCalls cs last) := by
      simp [chunkedCalls, chunkCalls]
    rw [e, onlyWrites_first _ _ _ _ _ _ (hc c List.mem_cons_self)]
    exact ⟨_, rfl⟩

/-- **C14, C28 (chunked).** A message sent in chunks to a receiver that understands them, by a message object that
    knows it: the wire is the head, with `Transfer-Encoding: chunked`, and the chunks. -/
theorem chunked_wire (t : TableOrder) (ht : t.Ok) (w : W) (hi : Initial w []) (hsu : w.supportsChunks = true)
    (hmsg : w.msg.chunksSupported = true) (chunks : List (List Op)) (last : List Op) (hc : ∀ c ∈ chunks, OnlyWrites c)
    (hl : OnlyWrites last) :
    ∃ hs name n, (run t w (chunkedCalls chunks last)).wire =
        wireHead (w.msg.head w.isRequest) hs ++ chunkedWire (chunkData chunks last) ∧
      matching hs (b! "Transfer-Encoding") = [(name, b! "chunked")] ∧
      hs = t.iter (Msg.sentHeaders t w.isRequest (w.lifecycle != .close) true { w.msg with contentLength := n }) := by
  have hrun := run_spec t (chunkedCalls chunks last) w _ _ _ _ _ hi.sim
  obtain ⟨n, hn⟩ := chunked_first chunks last hc hl w.lifecycle
  rw [hi.wire, List.nil_append, if_neg (by simp), hsu, payload_chunked chunks last hc hl, hn] at hrun
  simp only [headFor, Msg.prepareBuffers_eq] at hrun
  have key : ∃ n', (if 0 < n then { w.msg with contentLength := n } else w.msg) = { w.msg with contentLength := n' } := by
    split
    · exact ⟨n, rfl⟩
    · exact ⟨w.msg.contentLength, rfl⟩
  obtain ⟨n', hn'⟩ := key
  rw [hn'] at hrun
  obtain ⟨name, hm⟩ := matching_sent_te_chunked t w.isRequest (w.lifecycle != .close) { w.msg with contentLength := n' } hmsg
  exact ⟨_, name, n', hrun, matching_iter ht hm, rfl⟩

/-- The head does not depend on the length when chunks are sent. -/
theorem sentHeaders_chunked_length (t : TableOrder) (isRequest ka : Bool) (m : Msg) (n : Nat) :
    Msg.sentHeaders t isRequest ka true { m with contentLength := n } = Msg.sentHeaders t isRequest ka true m := by
  unfold Msg.sentHeaders Msg.prepareHeaders Msg.changeHeader
  dsimp only
  split
  · split <;> rfl
  · rename_i h; exact absurd rfl h

/-- **C14 (round trip; partial: see `chunked_request_not_announced`).** What `http::writer` sends in chunks is received by `http::parser`, whatever the chunks are,
    however the stream is cut into buffers and whatever follows: the content is the concatenation of the data written. -/
theorem chunked_roundtrip_partial (cfg : Cfg) (m0 : Msg) (hb : Blank m0) (hord : Http.OrderOk cfg.ord)
    (hho : cfg.headersOnly = false) (t : TableOrder) (ht : t.Ok) (w : W) (hi : Initial w []) (hkind : cfg.isRequest = w.isRequest)
    (hsu : w.supportsChunks = true) (hmsg : w.msg.chunksSupported = true) (hhead : (w.msg.head w.isRequest).Ok)
    (hhs : ∀ e ∈ w.msg.headers, HeaderOk e) (hck : ∀ c ∈ w.msg.cookies, HeaderOk (Msg.cookieHeader w.isRequest c))
    (chunks : List (List Op)) (last : List Op) (hc : ∀ c ∈ chunks, OnlyWrites c) (hl : OnlyWrites last) (body : Bytes)
    (hbody : body = ((chunks ++ [last]).map written).flatten) (hsize : body.length ≤ 2 ^ 63 - 1)
    (hmax : cfg.handler = false → body.length ≤ cfg.maxContent) (tail : Bytes) (bufs : List Bytes)
    (hcut : Cuts bufs ((run t w (chunkedCalls chunks last)).wire ++ tail)) :
    ∃ o, outcome cfg (fresh cfg m0) bufs = some o ∧ o.result = .yes ∧ o.error = none ∧ o.unread = tail ∧
      (w.msg.head w.isRequest).StoredIn o.message ∧ o.message.isValid = true ∧
      (if cfg.handler then o.payload = body
       else o.message.content = body.map some ∧ o.message.contentLength = body.length) := by
  obtain ⟨hs, name, n, hw, hm, hhseq⟩ := chunked_wire t ht w hi hsu hmsg chunks last hc hl
  have hflat : (chunkData chunks last).flatten = body := by
    rw [hbody, chunkData]
    generalize (chunks ++ [last]).map written = l
    induction l with
    | nil => rfl
    | cons a l ih =>
      rw [List.filter_cons]
      split
      · rw [List.flatten_cons, List.flatten_cons, ih]
      · rename_i h
        have : a = [] := by simpa using h
        rw [this, ih]; rfl
  rw [hw] at hcut
  rw [sentHeaders_chunked_length] at hhseq
  have hset : Setting cfg m0 (w.msg.head w.isRequest) hs := by
    refine ⟨hb, hord, by rw [Message.head_isRequest]; exact hkind, hhead, ?_, hho⟩
    intro e he
    rw [hhseq] at he
    have := (ht _).subset he
    rw [← sentHeaders_chunked_length t _ _ w.msg 0] at this
    exact sentHeaders_ok t ht _ _ _ { w.msg with contentLength := 0 } hhs hck (by show 0 < 2 ^ 64; omega) e this
  have hann : AnnouncesChunks cfg.ord hs := ⟨_, find?_single hord hm, [], [], by decide +kernel⟩
  obtain ⟨o, ho, hcomp, hcon, -⟩ := chunked_exact cfg m0 _ hs hset hann (chunkData chunks last) tail (by
      intro d hd
      have hd' := List.mem_filter.1 hd
      refine ⟨by simpa using hd'.2, ?_⟩
      have : d.length ≤ (chunkData chunks last).flatten.length := List.Sublist.length_le (List.sublist_flatten_of_mem hd)
      rw [hflat] at this
      omega) (by rw [hflat]; exact hmax) (by rw [hflat]; omega) bufs hcut
  rw [hflat] at hcon
  exact ⟨o, ho, hcomp.result, hcomp.error, hcomp.unread, hcomp.stored, hcomp.valid, hcon⟩

/-! ### The writers of the library -/

theorem initial_responseWriterFor (req : Msg) (lc : Lifecycle) : Initial (newResponseWriterFor req lc) [] :=
  ⟨⟨rfl, fun _ => rfl⟩, rfl, rfl, rfl, rfl, rfl⟩

/-- A writer created for a message with content starts with that content, if its first byte is not NUL. -/
theorem initial_responseWriter (m : Msg) (lc : Lifecycle) (body : Bytes) (hc : m.contentBytes = some body)
    (h0 : body.head? ≠ some 0) : Initial (newResponseWriter m lc) body := by
  unfold newResponseWriter initContent
  dsimp only
  rw [hc]
  cases body with
  | nil => exact ⟨⟨rfl, fun _ => rfl⟩, rfl, rfl, rfl, rfl, rfl⟩
  | cons c r =>
    have : c ≠ 0 := by rintro rfl; exact h0 rfl
    simp only [this, if_false]
    exact ⟨⟨by simp [writeBuffer, flush], by simp [writeBuffer, flush]⟩, rfl, rfl, rfl, rfl, by
      simp [pending, writeBuffer, flush]⟩

theorem initial_requestWriter (m : Msg) (lc : Lifecycle) (body : Bytes) (hc : m.contentBytes = some body)
    (h0 : body.head? ≠ some 0) : Initial (newRequestWriter m lc) body := by
  unfold newRequestWriter initContent
  dsimp only
  rw [hc]
  cases body with
  | nil => exact ⟨⟨rfl, fun _ => rfl⟩, rfl, rfl, rfl, rfl, rfl⟩
  | cons c r =>
    have : c ≠ 0 := by rintro rfl; exact h0 rfl
    simp only [this, if_false]
    exact ⟨⟨by simp [writeBuffer, flush], by simp [writeBuffer, flush]⟩, rfl, rfl, rfl, rfl, by
      simp [pending, writeBuffer, flush]⟩

theorem atFirstSend_ne_none : ∀ (ops : List Op), ops.any Sends = true → ∀ su se lc p, atFirstSend su se lc p ops ≠ none := by
  intro ops
  induction ops with
  | nil => intro h; cases h
  | cons op ops ih =>
    intro h su se lc p
    cases op with
    | text d => exact ih h _ _ _ _
    | buffer d => exact ih h _ _ _ _
    | clear => exact ih h _ _ _ _
    | send => simp [atFirstSend]
    | sendChunk => simp [atFirstSend]
    | sendFinal => simp [atFirstSend]

/-- A response to an HTTP/1.1 request meets the conditions on chunked messages. -/
theorem response_chunks (req : Msg) (lc : Lifecycle) (h : req.verMajor = 1 ∧ 1 ≤ req.verMinor) :
    (newResponseWriterFor req lc).supportsChunks = true ∧ (newResponseWriterFor req lc).msg.chunksSupported = true := by
  unfold newResponseWriterFor responseTo
  rw [if_pos (by simp [h])]
  exact ⟨rfl, rfl⟩

/-- A response to an older request is sent without chunks. -/
theorem response_no_chunks (req : Msg) (lc : Lifecycle) (h : ¬ (req.verMajor = 1 ∧ 1 ≤ req.verMinor)) :
    (newResponseWriterFor req lc).supportsChunks = false := by
  unfold newResponseWriterFor responseTo
  rw [if_neg (by simpa using h)]
  split <;> rfl

theorem payload_plain : ∀ (ops : List Op) (se : Bool) (p : Bytes), payload false se p ops = plainData p ops := by
  have hp : ∀ p, piece false p = p := by intro p; unfold piece; split <;> simp_all
  intro ops
  induction ops with
  | nil => intro se p; rfl
  | cons op ops ih => intro se p; cases op <;> simp [payload, plainData, ih, hp]

/-- **C28 (old clients).** Whatever calls are made, a client that is not HTTP/1.1 gets no chunks: the head does not announce
    any, and the data follows as it was written. -/
theorem old_client_plain (t : TableOrder) (ht : t.Ok) (req : Msg) (lc : Lifecycle)
    (h : ¬ (req.verMajor = 1 ∧ 1 ≤ req.verMinor)) (ops : List Op) (hs : ops.any Sends = true) :
    ∃ head hdrs, (run t (newResponseWriterFor req lc) ops).wire = wireHead head hdrs ++ plainData [] ops ∧
      matching hdrs (b! "Transfer-Encoding") = [] := by
  have hi := initial_responseWriterFor req lc
  have hsu := response_no_chunks req lc h
  have hrun := run_spec t ops _ _ _ _ _ _ hi.sim
  rw [hi.wire, List.nil_append, if_neg (by simp), hsu, payload_plain] at hrun
  have hmsg : (newResponseWriterFor req lc).msg.headers = [] ∧ (newResponseWriterFor req lc).msg.chunksSupported = false := by
    refine ⟨?_, hsu⟩
    unfold newResponseWriterFor responseTo
    rw [if_neg (by simpa using h)]
    split <;> rfl
  have hte : ∀ (m : Msg) (ka uc : Bool), m.headers = [] → m.chunksSupported = false →
      matching (t.iter (Msg.sentHeaders t false ka uc m)) (b! "Transfer-Encoding") = [] := by
    intro m ka uc h1 h2
    refine List.Perm.eq_nil ((matching_perm (ht _) _).trans ?_)
    cases uc with
    | false => rw [matching_sent_te, h1]; exact .refl _
    | true =>
      unfold Msg.sentHeaders
      rw [matching_append, matching_cookies _ _ _ (cookie_not _ _ (.inr (.inr rfl))), List.append_nil]
      unfold Msg.prepareHeaders Msg.changeHeader
      simp only [h2, if_true, Bool.false_eq_true, if_false]
      rw [matching_change_other _ _ _ _ _ (by decide +kernel), h1]
      exact .refl _
  cases hf : atFirstSend false false (newResponseWriterFor req lc).lifecycle [] ops with
  | none => exact absurd hf (atFirstSend_ne_none ops hs _ _ _ _)
  | some x =>
    obtain ⟨s, l, n⟩ := x
    rw [hf] at hrun
    simp only [headFor, Msg.prepareBuffers_eq] at hrun
    refine ⟨_, _, hrun, ?_⟩
    split <;> exact hte _ _ _ hmsg.1 hmsg.2

example : (run {} (newResponseWriterFor { verMajor := 1, verMinor := 0 } .keepAlive)
    [.text (b! "ab"), .sendChunk, .clear, .text (b! "c"), .sendFinal]).wire =
      b! "HTTP/1.1 200 OK\r\nConnection: close\r\n\r\nabc" := by decide +kernel

/-- A concrete chunked response: mixed calls, an empty chunk in between. -/
def sampleCalls : List Op := chunkedCalls
  [[.text (b! "ab"), .buffer (b! "cdefghij"), .text (b! "k"), .buffer []], [], [.buffer (b! "xyzxyzxyzxyzxyzxyz")]] [.text (b! "end")]
example : ∃ chunks last, sampleCalls = chunkedCalls chunks last ∧ (∀ c ∈ chunks, OnlyWrites c) ∧ OnlyWrites last :=
  ⟨_, _, rfl, by simp [OnlyWrites], by simp [OnlyWrites]⟩
example : (run {} (newResponseWriterFor { verMajor := 1, verMinor := 1 } .keepAlive) sampleCalls).wire = b!
    "HTTP/1.1 200 OK\r\nConnection: Keep-Alive\r\nTransfer-Encoding: chunked\r\n\r\nb\r\nabcdefghijk\r\n12\r\nxyzxyzxyzxyzxyzxyz\r\n3\r\nend\r\n0\r\n\r\n" := by
  decide +kernel
example : (run {} (newResponseWriterFor {} .close) [.text (b! "a"), .buffer (b! "b"), .text (b! "c"), .send]).wire = b!
    "HTTP/1.1 200 OK\r\nConnection: close\r\nContent-Length: 3\r\n\r\nabc" := by decide +kernel

/-! ### What goes wrong -/

/-- **C28 fails for content that begins with NUL.** A writer created for a response whose content begins with a NUL
    byte announces the length of the content but sends none of it. -/
theorem nul_content_lost :
    (run {} (newResponseWriter { content := [some 0, some 1], contentLength := 2 } .close) [.send]).wire =
      b! "HTTP/1.1 200 OK\r\nConnection: close\r\nContent-Length: 2\r\n\r\n" := by decide +kernel

/-- **C14 fails for requests.** A request sent with `send_chunk` by a request writer is cut into chunks, but its head
    does not say so; a receiver takes it for a request without body followed by garbage. -/
theorem chunked_request_not_announced :
    ∃ wire, (run {} (newRequestWriter { method := b! "POST", resource := b! "/" } .keepAlive)
        (chunkedCalls [[.text (b! "hello")]] [])).wire = wire ∧
      wire = b! "POST / HTTP/1.1\r\nConnection: Keep-Alive\r\n\r\n5\r\nhello\r\n0\r\n\r\n" ∧
      (outcome { isRequest := true } (fresh { isRequest := true } {}) [wire]).map
        (fun o => (o.result, o.message.contentLength, o.unread)) = some (.yes, 0, b! "5\r\nhello\r\n0\r\n\r\n") :=
  ⟨_, rfl, by decide +kernel, by decide +kernel⟩

/-- A response sent only with `send_final_chunk` to a client that does not understand chunks has neither a length nor
    `Connection: close`: the client cannot find its end. (`send_chunk` closes the connection in this case, see
    `sendChunk_closes`.) -/
theorem final_chunk_unframed :
    (fun w => (w.wire, w.lifecycle)) (run {} (newResponseWriterFor { verMajor := 1, verMinor := 0 } .keepAlive)
      [.text (b! "hello"), .sendFinal]) =
    (b! "HTTP/1.1 200 OK\r\nConnection: Keep-Alive\r\n\r\nhello", .keepAlive) := by decide +kernel

/-- `send_chunk` to a client that does not understand chunks closes the connection after the message. -/
theorem sendChunk_closes (t : TableOrder) (w : W) (h : w.supportsChunks = false) :
    (step t w .sendChunk).lifecycle = .close := by
  rw [step]
  dsimp only
  rw [if_neg (by rw [h]; simp)]
  have hfl : ∀ w : W, (flush w).lifecycle = w.lifecycle := by
    intro w; unfold flush; split
    · rfl
    · split <;> rfl
  have hh : ∀ w : W, (headPart t w).1.lifecycle = w.lifecycle := by
    intro w; unfold headPart prepareBuffers; split <;> rfl
  unfold sendMore
  split
  · dsimp only; rw [hh, hfl]
  · rfl

end Verif.Props.Writer
