import Mathlib.Tactic.Common
import Verif.Spec.Conversation
import Verif.Props.Reader
import Verif.Props.Responses
/-
Lemmas for C65: what an answer sent in chunks is for its receiver.
-/
namespace Verif.Lemmas.Answers
open Verif.Http hiding run chunkData
open Verif.Writer Verif.Spec.Writer Verif.Props.Dict Verif.Props.HttpBody Verif.Props.Writer Verif.Props.Responses
open Verif.Conversation Verif.Spec.Conversation Verif.Spec.Responses Verif.Responses
open Verif.Reader (StaysOpen)

/-! ### The lifecycle a writer leaves -/

theorem step_lifecycle (t : TableOrder) (w : W) (op : Op) : (step t w op).supportsChunks = w.supportsChunks ∧
    (step t w op).lifecycle = if op = .sendChunk ∧ w.supportsChunks = false then .close else w.lifecycle := by
  have hfl : ∀ w : W, (flush w).lifecycle = w.lifecycle ∧ (flush w).supportsChunks = w.supportsChunks := by
    intro w; unfold flush; split
    · exact ⟨rfl, rfl⟩
    · split <;> exact ⟨rfl, rfl⟩
  have hh : ∀ w : W, (headPart t w).1.lifecycle = w.lifecycle ∧ (headPart t w).1.supportsChunks = w.supportsChunks := by
    intro w; unfold headPart prepareBuffers; split <;> exact ⟨rfl, rfl⟩
  have hm : ∀ (w : W) f, (sendMore t w f).lifecycle = w.lifecycle ∧ (sendMore t w f).supportsChunks = w.supportsChunks := by
    intro w f
    unfold sendMore
    split
    · dsimp only
      rw [(hh _).1, (hh _).2]
      exact hfl w
    · exact ⟨rfl, rfl⟩
  cases op with
  | text d => exact ⟨rfl, by simp [step, writeText]⟩
  | buffer d =>
    simp only [step, writeBuffer]
    split
    · simp
    · simp [(hfl w).1, (hfl w).2]
  | clear => exact ⟨rfl, by simp [step, clear]⟩
  | send => simp [step, (hm w false).1, (hm w false).2]
  | sendChunk =>
    simp only [step, (hm _ _).1, (hm _ _).2]
    cases w.supportsChunks <;> simp
  | sendFinal => simp [step, (hm _ _).1, (hm _ _).2]

theorem run_lifecycle (t : TableOrder) (ops : List Op) : ∀ w : W, (run t w ops).lifecycle =
    if .sendChunk ∈ ops ∧ w.supportsChunks = false then .close else w.lifecycle := by
  induction ops with
  | nil => intro w; simp [run]
  | cons op ops ih =>
    intro w
    obtain ⟨h1, h2⟩ := step_lifecycle t w op
    show (run t (step t w op) ops).lifecycle = _
    rw [ih, h1, h2]
    cases w.supportsChunks with
    | true => simp
    | false =>
      by_cases h : op = .sendChunk
      · subst h; simp
      · simp [h, Ne.symm h]

theorem calls_whole (a : Answer) (h : a.chunks = none) (t : TableOrder) (req : Msg) (lc : Lifecycle) :
    a.writer t req lc = a.reply.writer t req lc := by
  unfold Answer.writer Answer.calls Reply.writer
  rw [h]

theorem calls_chunks (a : Answer) {cs : List (List Op)} (h : a.chunks = some cs) : a.calls = chunkedCalls cs a.reply.writes := by
  unfold Answer.calls chunkedCalls chunkCalls
  rw [h]

/-- The lifecycle after an answer is the one before it, unless chunks are sent to a client that does not know of them. -/
theorem writer_lifecycle (a : Answer) (t : TableOrder) (req : Msg) (lc : Lifecycle)
    (h : lc = .close ∨ (req.verMajor = 1 ∧ 1 ≤ req.verMinor) ∨ (a.chunks = none ∧ OnlyWrites a.reply.writes)) :
    (a.writer t req lc).lifecycle = lc := by
  unfold Answer.writer
  rw [run_lifecycle]
  dsimp only
  rcases h with h | h | ⟨h, hw⟩
  · subst h; split <;> rfl
  · have := (response_chunks req lc h).1
    rw [this]; simp [newResponseWriterFor]
  · have : Op.sendChunk ∉ a.calls := by
      unfold Answer.calls
      rw [h]
      simp only [List.mem_append, List.mem_singleton, reduceCtorEq, or_false]
      intro hm
      obtain ⟨d, hd | hd⟩ := hw _ hm <;> cases hd
    simp [this, newResponseWriterFor]

/-! ### What is received -/

theorem carries_of {m : Msg} {code : Nat} {text : Bytes} {hs : Dict} {page : Bytes} (h1 : m.statusCode = code)
    (h2 : m.statusMessage = text) (h3 : m.content = page.map some) (h4 : m.contentLength = page.length)
    (h5 : ∀ k, plainName k → (matching m.headers k).Perm (matching hs k)) : Carries m code text hs page where
  code := h1
  text := h2
  content := h3
  length := h4
  headers := by
    have hother : ∀ d : Dict, otherHeaders d = d.filter fun e => !iequals e.1 (b! "Transfer-Encoding") &&
        (!iequals e.1 (b! "Connection") && !iequals e.1 (b! "Content-Length")) := by
      intro d
      unfold otherHeaders ownHeaders
      rw [List.filter_filter]
    rw [List.perm_iff_count]
    intro a
    by_cases ha : (!iequals a.1 (b! "Transfer-Encoding") &&
        (!iequals a.1 (b! "Connection") && !iequals a.1 (b! "Content-Length"))) = true
    · have hc : ∀ d : Dict, List.count a (otherHeaders d) = List.count a (matching d a.1) := by
        intro d
        rw [hother]
        unfold matching
        rw [List.count_filter (p := fun e : Bytes × Bytes => !iequals e.1 (b! "Transfer-Encoding") &&
            (!iequals e.1 (b! "Connection") && !iequals e.1 (b! "Content-Length"))) ha,
          List.count_filter (p := fun e : Bytes × Bytes => iequals e.1 a.1) (iequals_refl _)]
      rw [hc, hc]
      rw [Bool.and_eq_true, Bool.and_eq_true, Bool.not_eq_true', Bool.not_eq_true', Bool.not_eq_true'] at ha
      exact (h5 a.1 ⟨ha.2.1, ha.2.2, ha.1⟩).count_eq a
    · have hc : ∀ d : Dict, List.count a (otherHeaders d) = 0 := by
        intro d
        apply List.count_eq_zero_of_not_mem
        rw [hother]
        intro hm
        exact ha (List.mem_filter.1 hm).2
      rw [hc, hc]

theorem carries_of_holds {m : Msg} {code : Nat} {text : Bytes} {hs : Dict} {page : Bytes} (h : Holds m code text hs page) :
    Carries m code text hs page :=
  ⟨h.code, h.text, h.headers.filter _, h.content, h.length⟩

/-- An answer in chunks that can be sent. -/
structure Chunkable (a : Answer) (cs : List (List Op)) : Prop where
  chunks : a.chunks = some cs
  code : a.reply.code < 65536
  text : ∀ c ∈ a.reply.text, textChar c
  textSize : a.reply.text.length ≤ 1024
  headers : ∀ e ∈ a.reply.headers, HeaderOk e
  parts : ∀ c ∈ cs, OnlyWrites c
  last : OnlyWrites a.reply.writes

theorem body_chunks {a : Answer} {cs : List (List Op)} (h : a.chunks = some cs) :
    body a = ((cs ++ [a.reply.writes]).map written).flatten := by
  unfold body
  rw [h]
  simp

theorem flatten_ne_nil (l : List Bytes) : (l.filter (· ≠ [])).flatten = l.flatten := by
  induction l with
  | nil => rfl
  | cons a l ih =>
    rw [List.filter_cons]
    split
    · rw [List.flatten_cons, List.flatten_cons, ih]
    · rename_i h
      have : a = [] := by simpa using h
      rw [this, ih]; rfl

theorem plainData_writes (rest : List Op) : ∀ (ops : List Op) (p : Bytes), OnlyWrites ops →
    plainData p (ops ++ rest) = plainData (p ++ written ops) rest := by
  intro ops
  induction ops with
  | nil => intro p _; simp [written]
  | cons op ops ih =>
    intro p h
    have ht := fun op hop => h op (List.mem_cons_of_mem _ hop)
    obtain ⟨d, rfl | rfl⟩ := h op List.mem_cons_self
    · rw [List.cons_append, plainData, ih _ ht, written, List.append_assoc]
    · rw [List.cons_append, plainData, ih _ ht, written, List.append_assoc]

theorem plainData_chunks (cs : List (List Op)) (last : List Op) (hc : ∀ c ∈ cs, OnlyWrites c) (hl : OnlyWrites last) :
    plainData [] (chunkedCalls cs last) = ((cs ++ [last]).map written).flatten := by
  induction cs with
  | nil =>
    unfold chunkedCalls
    rw [List.map_nil, List.flatten_nil, List.nil_append, plainData_writes _ _ _ hl]
    simp [plainData]
  | cons c cs ih =>
    have e : chunkedCalls (c :: cs) last = c ++ (.sendChunk :: .clear :: chunkedCalls cs last) := by
      simp [chunkedCalls, chunkCalls]
    rw [e, plainData_writes _ _ _ (hc c List.mem_cons_self)]
    simp only [plainData, ih fun c h => hc c (List.mem_cons_of_mem _ h)]
    simp

/-- The first call that sends, of an answer in chunks on a connection that is to be closed. -/
theorem first_close (cs : List (List Op)) (last : List Op) (hc : ∀ c ∈ cs, OnlyWrites c) (hl : OnlyWrites last) (su : Bool) :
    ∃ n, n ≤ ((cs ++ [last]).map written).flatten.length ∧
      atFirstSend su false .close [] (chunkedCalls cs last) = some (true, .close, n) := by
  cases cs with
  | nil =>
    unfold chunkedCalls
    simp only [List.map_nil, List.flatten_nil, List.nil_append]
    rw [onlyWrites_first _ _ _ _ _ _ hl]
    exact ⟨_, by simp, rfl⟩
  | cons c cs =>
    have e : chunkedCalls (c :: cs) last = c ++ (.sendChunk :: .clear :: chunkedCalls cs last) := by
      simp [chunkedCalls, chunkCalls]
    rw [e, onlyWrites_first _ _ _ _ _ _ (hc c List.mem_cons_self)]
    refine ⟨(written c).length, by simp, ?_⟩
    simp [atFirstSend]

section
variable (cfg : Http.Cfg) (hk : cfg.isRequest = false) (m0 : Msg) (hb : Blank m0) (hord : Http.OrderOk cfg.ord)
  (hho : cfg.headersOnly = false) (hhand : cfg.handler = false) (t : TableOrder) (ht : t.Ok) (req : Msg) (a : Answer)
  (cs : List (List Op)) (ha : Chunkable a cs) (hsize : (body a).length ≤ 2 ^ 63 - 1) (hmax : (body a).length ≤ cfg.maxContent)

/-- The response before anything is written. -/
def answerMsg (req : Msg) (a : Answer) : Msg :=
  { responseTo req with statusCode := a.reply.code, statusMessage := a.reply.text, headers := a.reply.headers }

def answerHead (req : Msg) (a : Answer) : Head :=
  .response (responseTo req).verMajor (responseTo req).verMinor a.reply.code a.reply.text

include hk hb hord hho ht ha in
theorem answer_setting (ka : Bool) (n : Nat) (hn : n < 2 ^ 64) : Setting cfg m0 (answerHead req a)
    (t.iter (Msg.sentHeaders t false ka true { answerMsg req a with contentLength := n })) := by
  obtain ⟨hf1, hf2, hf3, hf4, hf5⟩ := responseTo_facts req
  refine ⟨hb, hord, hk, ⟨ha.text, ha.textSize, hf4, hf5, ha.code⟩, fun e he => ?_, hho⟩
  exact sentHeaders_ok t ht _ _ _ _ (by exact ha.headers) (by
    show ∀ c ∈ (responseTo req).cookies, _
    rw [hf2]; simp) hn e ((ht _).subset he)

include ht in
theorem answer_plain (ka : Bool) (n : Nat) (k : Bytes) (hk : plainName k) :
    (matching (t.iter (Msg.sentHeaders t false ka true { answerMsg req a with contentLength := n })) k).Perm
      (matching a.reply.headers k) := by
  refine (matching_perm (ht _) _).trans ?_
  rw [matching_sent_plain _ _ _ _ _ _ hk]
  show (matching a.reply.headers k ++ matching ((t.iter (responseTo req).cookies).map _) k).Perm _
  rw [(responseTo_facts req).2.1]
  have := (ht ([] : Dict)).eq_nil
  rw [this]
  simp [matching]

include ht in
theorem answer_connection (ka : Bool) (n : Nat) : ∃ name,
    matching (t.iter (Msg.sentHeaders t false ka true { answerMsg req a with contentLength := n })) (b! "Connection") =
      [(name, Msg.connectionValue ka)] := by
  obtain ⟨name, h⟩ := matching_sent_connection t false ka true { answerMsg req a with contentLength := n }
  exact ⟨name, matching_iter ht h⟩

theorem answer_initial (lc : Lifecycle) : Initial { newResponseWriterFor req lc with msg := answerMsg req a } [] :=
  ⟨⟨rfl, fun _ => rfl⟩, rfl, rfl, rfl, rfl, rfl⟩

theorem answer_carries {tail : Bytes} {o : Outcome} {hs : Dict} (hc : Complete (answerHead req a) hs tail o)
    (hpl : ∀ k, plainName k → (matching hs k).Perm (matching a.reply.headers k)) (h1 : o.message.content = (body a).map some)
    (h2 : o.message.contentLength = (body a).length) :
    Carries o.message a.reply.code a.reply.text a.reply.headers (body a) ∧ o.message.isValid = true :=
  ⟨carries_of hc.stored.1 hc.stored.2.1 h1 h2 (by rw [hc.headers]; exact hpl), hc.valid⟩

include hk hb hord hho hhand ht ha hsize hmax in
/-- An answer in chunks to a client that knows of them. -/
theorem chunked_answer (lc : Lifecycle) (hv : req.verMajor = 1 ∧ 1 ≤ req.verMinor) (tail : Bytes) (bufs : List Bytes)
    (hcut : Cuts bufs ((a.writer t req lc).wire ++ tail)) :
    ∃ o, outcome cfg (fresh cfg m0) bufs = some o ∧ o.result = .yes ∧ o.error = none ∧ o.unread = tail ∧
      (Carries o.message a.reply.code a.reply.text a.reply.headers (body a) ∧ o.message.isValid = true) ∧
      (∃ name, matching o.message.headers (b! "Connection") = [(name, Msg.connectionValue (lc != .close))]) ∧
      o.message.verMajor = 1 ∧ o.message.verMinor = 1 := by
  obtain ⟨hs1, hs2⟩ := response_chunks req lc hv
  have hbody := body_chunks ha.chunks
  obtain ⟨hs, name, n, h1, h2, h3⟩ := chunked_wire t ht { newResponseWriterFor req lc with msg := answerMsg req a }
    (answer_initial req a lc) hs1 hs2 cs a.reply.writes ha.parts ha.last
  rw [sentHeaders_chunked_length, ← sentHeaders_chunked_length t _ _ _ 0] at h3
  have hw : (a.writer t req lc).wire = wireHead (answerHead req a) hs ++ chunkedWire (chunkData cs a.reply.writes) := by
    unfold Answer.writer
    rw [calls_chunks a ha.chunks]
    exact h1
  have hflat : (chunkData cs a.reply.writes).flatten = body a := by rw [chunkData, flatten_ne_nil, hbody]
  rw [hw] at hcut
  obtain ⟨o, ho, hc, hcon, -⟩ := chunked_exact cfg m0 _ hs (by
      rw [h3]; exact answer_setting cfg hk m0 hb hord hho t ht req a cs ha _ 0 (by omega))
    ⟨_, find?_single hord h2, [], [], by decide +kernel⟩ (chunkData cs a.reply.writes) tail
    (fun d hd => by
      have hd' := List.mem_filter.1 hd
      refine ⟨by simpa using hd'.2, ?_⟩
      have : d.length ≤ (chunkData cs a.reply.writes).flatten.length := (List.sublist_flatten_of_mem hd).length_le
      rw [hflat] at this
      omega) (fun _ => by rw [hflat]; exact hmax) (by rw [hflat]; omega) bufs hcut
  rw [hhand] at hcon
  simp only [Bool.false_eq_true, if_false, hflat] at hcon
  refine ⟨o, ho, hc.result, hc.error, hc.unread, answer_carries req a hc (by
    rw [h3]; exact fun k hk => answer_plain t ht req a _ 0 k hk) hcon.1 hcon.2, ?_, ?_⟩
  · rw [hc.headers, h3]
    exact answer_connection t ht req a _ 0
  · obtain ⟨_, _, v1, v2⟩ := hc.stored
    have : responseTo req = { requestMethod := req.method, chunksSupported := true } := by
      unfold responseTo; rw [if_pos (by simp [hv])]
    exact ⟨v1.trans (by rw [this]), v2.trans (by rw [this])⟩

include hk hb hord hho hhand ht ha hsize hmax in
/-- An answer in chunks to a client that does not know of them, on a connection that is to be closed: the data as it is, up to
    the end of the connection. -/
theorem old_answer (hv : ¬ (req.verMajor = 1 ∧ 1 ≤ req.verMinor)) (hm : m0.requestMethod ≠ b! "HEAD")
    (hcode : ¬ (Head.response 1 1 a.reply.code a.reply.text).Bodyless []) (hte : matching a.reply.headers (b! "Transfer-Encoding") = [])
    (hle : matching a.reply.headers (b! "Content-Length") = []) (bufs : List Bytes) (hcut : Cuts bufs (a.writer t req .close).wire) :
    ∃ o, outcomeAtEof cfg (fresh cfg m0) bufs = some (false, o) ∧ o.result = .yes ∧ o.error = none ∧ o.unread = [] ∧
      (Carries o.message a.reply.code a.reply.text a.reply.headers (body a) ∧ o.message.isValid = true) ∧
      (∃ name, matching o.message.headers (b! "Connection") = [(name, b! "close")]) := by
  have hs0 : (newResponseWriterFor req .close).supportsChunks = false := response_no_chunks req .close hv
  have hc0 : (answerMsg req a).chunksSupported = false := hs0
  have hrun := run_spec t (chunkedCalls cs a.reply.writes) { newResponseWriterFor req .close with msg := answerMsg req a } _ _ _ _ _
    (answer_initial req a .close).sim
  obtain ⟨n, hn, hfirst⟩ := first_close cs a.reply.writes ha.parts ha.last
    (newResponseWriterFor req .close).supportsChunks
  have hbody := body_chunks ha.chunks
  have hpay : payload (newResponseWriterFor req .close).supportsChunks false [] (chunkedCalls cs a.reply.writes) = body a := by
    rw [hs0, payload_plain, plainData_chunks _ _ ha.parts ha.last, hbody]
  rw [← hbody] at hn
  rw [if_neg (by simp)] at hrun
  dsimp only at hrun
  rw [hpay, show (newResponseWriterFor req .close).lifecycle = .close from rfl, hfirst,
    show (newResponseWriterFor req .close).wire = [] from rfl, List.nil_append] at hrun
  simp only [headFor, Msg.prepareBuffers_eq] at hrun
  have key : ∃ n', n' < 2 ^ 64 ∧ (if 0 < n then { answerMsg req a with contentLength := n } else answerMsg req a) =
      { answerMsg req a with contentLength := n' } := by
    split
    · exact ⟨n, by omega, rfl⟩
    · exact ⟨(answerMsg req a).contentLength, by
        rw [show (answerMsg req a).contentLength = (responseTo req).contentLength from rfl, (responseTo_facts req).1]; omega, rfl⟩
  obtain ⟨n', hn', hmsg⟩ := key
  rw [hmsg] at hrun
  have hw : (a.writer t req .close).wire = wireHead (answerHead req a)
      (t.iter (Msg.sentHeaders t false false true { answerMsg req a with contentLength := n' })) ++ body a := by
    unfold Answer.writer
    rw [calls_chunks a ha.chunks]
    exact hrun
  rw [hw] at hcut
  have hcl : ∀ k, iequals k (b! "Connection") = false → matching a.reply.headers k = [] → iequals (b! "Set-Cookie") k = false →
      matching (t.iter (Msg.sentHeaders t false false true { answerMsg req a with contentLength := n' })) k = [] := by
    intro k h1 h2 h3
    refine List.Perm.eq_nil ((matching_perm (ht _) _).trans ?_)
    unfold Msg.sentHeaders
    rw [matching_append, matching_cookies _ _ _ (by exact h3), List.append_nil]
    unfold Msg.prepareHeaders Msg.changeHeader
    simp only [hc0, if_true, Bool.false_eq_true, if_false]
    rw [matching_change_other _ _ _ _ _ h1]
    show (matching a.reply.headers k).Perm []
    rw [h2]
  have hte' := hcl (b! "Transfer-Encoding") (by decide +kernel) hte (by decide +kernel)
  have hle' := hcl (b! "Content-Length") (by decide +kernel) hle (by decide +kernel)
  have hnone : ∀ {hs : Dict} {k : Bytes}, matching hs k = [] → hs.find? cfg.ord k = none := by
    intro hs k h
    cases hf : hs.find? cfg.ord k with
    | none => rfl
    | some v =>
      obtain ⟨name, hmem⟩ := find?_mem hord hf
      rw [h] at hmem; cases hmem
  obtain ⟨o, ho, hc, h1, h2⟩ := end_of_stream_delimits cfg m0 _ _
    (answer_setting cfg hk m0 hb hord hho t ht req a cs ha false n' hn') rfl hhand
    (by rintro ⟨v, hv, -⟩; rw [hnone hte'] at hv; cases hv) (by
      unfold answerHead
      rw [bodyless_response]
      exact not_or.2 ⟨hm, hcode⟩) (hnone hle') (body a) (by omega) bufs hcut
  rw [List.take_of_length_le hmax] at h1
  rw [Nat.min_eq_left hmax] at h2
  refine ⟨o, ho, hc.result, hc.error, hc.unread, answer_carries req a hc (fun k hk => answer_plain t ht req a _ n' k hk) h1 h2, ?_⟩
  rw [hc.headers]
  exact answer_connection t ht req a false n'

end

end Verif.Lemmas.Answers
