import Verif.Model.Dialogue
import Verif.Props.Blocking
import Verif.Props.Conversation
/-
C103: a client made of blocking calls and a server understand one another.
-/
namespace Verif.Props.Dialogue
open Verif.Http Verif.Reader Verif.Responses Verif.Conversation Verif.Spec.Conversation Verif.Spec.Responses
open Verif.Props.HttpBody Verif.Props.Reader Verif.Props.Conversation Verif.Props.Message
open Verif.Props.Dict (matching)
open Verif.Writer (Lifecycle)

/-- The request that `message::send` writes for the message `m` with the content `body`. -/
def asSent (t : TableOrder) (ka : Bool) (m : Msg) (body : Bytes) : Request where
  method := m.method
  resource := m.resource
  query := m.queryString
  major := m.verMajor
  minor := m.verMinor
  headers := t.iter (m.sentHeaders t true ka false)
  framing := .length body

/-- A request the client can send and the server can take: of version 1.1 or a later 1.x. -/
structure Sends (scfg : Cfg) (m : Msg) (body : Bytes) : Prop where
  writable : Writable true m body
  version : m.verMajor = 1 ∧ 1 ≤ m.verMinor
  fits : body.length ≤ scfg.maxContent

theorem asSent_ok {scfg : Cfg} (ord : Http.OrderOk scfg.ord) {t : TableOrder} (ht : t.Ok) {ka : Bool} {m : Msg} {body : Bytes}
    (hw : Writable true m body) (hfit : body.length ≤ scfg.maxContent) : (asSent t ka m body).Ok scfg := by
  obtain ⟨name, hlen⟩ := matching_sent_length t true ka m hw.sendsLength
  refine ⟨hw.headOk, fun e he => sentHeaders_ok t ht _ _ _ m hw.headersOk hw.cookiesOk (by rw [hw.contentLength]; have := hw.size; omega) e
       ((ht _).subset he), ⟨?_, ?_⟩, hfit, hw.size⟩
  · rintro ⟨v, hv, hch⟩
    obtain ⟨name, hmem⟩ := find?_mem ord hv
    have := (matching_perm (ht _) _).subset hmem
    rw [matching_sent_te] at this
    exact hw.notChunked _ this hch
  · exact ⟨[], toDec body.length, [], by
      change (t.iter (m.sentHeaders t true ka false)).find? _ _ = _
      rw [find?_single ord (matching_iter ht hlen), hw.contentLength]; simp, by simp, toDec_ne_nil _, toDec_isDigit _,
     decVal_toDec _⟩

theorem asSent_persistent {ord : Dict.Order} (ho : Http.OrderOk ord) {scfg : Cfg} {t : TableOrder} (ht : t.Ok) {ka : Bool} {m : Msg} {body : Bytes}
    (h : Sends scfg m body) : (asSent t ka m body).Persistent ord ↔ ka = true := by
  obtain ⟨name, hn⟩ := matching_sent_connection t true ka false m
  have hg : (t.iter (m.sentHeaders t true ka false)).get ord (b! "Connection") = if ka then b! "Keep-Alive" else b! "close" := by
    have hm := matching_iter ht hn
    obtain ⟨name', hmem⟩ := (Dict.get_spec ord ho (t.iter (m.sentHeaders t true ka false)) (b! "Connection")).2 (by rw [hm]; simp)
    rw [hm, List.mem_singleton] at hmem
    exact (Prod.mk.inj hmem).2
  unfold Request.Persistent
  change (1 < m.verMajor ∨ _) ∧ (t.iter (m.sentHeaders t true ka false)).get ord (b! "Connection") ≠ _ ↔ _
  rw [hg]
  constructor
  · intro hp
    cases ka with
    | true => rfl
    | false => exact absurd rfl hp.2
  · rintro rfl
    exact ⟨.inr h.version, (by decide +kernel : b! "Keep-Alive" ≠ b! "close")⟩

theorem asSent_same {t : TableOrder} (ht : t.Ok) {ka : Bool} {m : Msg} {body : Bytes} (hw : Writable true m body) {r : Msg}
    (h : (asSent t ka m body).Is r) : SameMessage true ka m body r :=
  sameMessage_of t ht true ka m body hw r h.line h.headers h.content h.length

/-- A blocking call reads one message. -/
theorem sync_reads (cfg : Cfg) (m : Msg) (wire : Bytes) (Q : Msg → Prop) (h : Reads cfg (m.clear cfg.isRequest) wire Q) (c : Conn) (hc : Ok c)
    (bufs : List Bytes) (hb : ∀ b ∈ bufs, b ≠ []) (hcut : (pending c ++ bufs).flatten = wire) (e : List Read) (he : Read.data [] ∉ e) :
    ∃ c' s', syncReceive cfg c m (bufs.map .data ++ e) = some (c', s', .done false, e) ∧ Q s'.msg ∧
      (c'.lifecycle = .close ↔ ¬ StaysOpen cfg.ord s'.msg) ∧ (c'.lifecycle ≠ .close → Ok c' ∧ pending c' = []) := by
  obtain ⟨c1, s1, more, h1, _, h3, h4, h5, h6, h7, h8⟩ := receive_reads cfg _ wire Q h c hc bufs hb [] (by rw [hcut, List.append_nil]) e
  have hn : Read.data [] ∉ bufs.map .data ++ e := by
    intro hm
    rcases List.mem_append.1 hm with hm | hm
    · obtain ⟨x, hx, hxe⟩ := List.mem_map.1 hm
      cases hxe
      exact hb [] hx rfl
    · exact he hm
  obtain ⟨⟨ca, sa, sta, ma⟩, ⟨cb, sb, stb, mb⟩, k1, k2, k3⟩ := Blocking.same_as_reader_partial cfg c hc m _ hn
  rw [h1] at k2
  obtain rfl := h7 rfl
  simp only [Option.some.injEq, Prod.mk.injEq, List.map_nil, List.nil_append] at k2
  obtain ⟨rfl, rfl, rfl, rfl⟩ := k2
  obtain ⟨e1, e2, e3, _, _⟩ := k3
  simp only at e1 e2 e3
  subst e1 e2
  obtain ⟨rfl, g2, g3⟩ := e3 rfl
  refine ⟨ca, _, k1, h3, by rw [g2]; exact h4, fun hl => ?_⟩
  obtain rfl := g3 hl
  refine ⟨h5, flatten_nil (pending_ne h5) ?_⟩
  by_cases hs : StaysOpen cfg.ord sa.msg
  · simpa using h8 hs
  · exact absurd (h4.2 hs) hl

/-- What the client must have after a round: the server has received the request that was sent, without an error, and the client has
    the answer of the server to it. -/
structure Done (answer : Msg → Answer) (ka : Bool) (m : Msg) (body : Bytes) (x : Round) : Prop where
  noError : x.served.got.error = false
  received : SameMessage true ka m body x.served.got.message
  answered : ∃ r, x.response = some r ∧ Gets answer x.served r

/-- The client's settings. -/
structure Caller (cfg : Cfg) : Prop where
  isResponse : cfg.isRequest = false
  order : Http.OrderOk cfg.ord
  wholeMessages : cfg.headersOnly = false
  noHandler : cfg.handler = false

/-- One round. -/
theorem dialogue_one {ccfg scfg : Cfg} {sm : Msg} {st : TableOrder} (hs : Server scfg sm st) (hc : Caller ccfg) (rm : Msg)
    {ct : TableOrder} (ht : ct.Ok) (answer : Msg → Answer) (cut : Nat → Bytes → List Bytes) (hcut : ∀ k w, Cuts (cut k w) w)
    (k : Nat) {cc sc : Conn} (hcc : Ok cc ∧ pending cc = []) (hsc : Ok sc ∧ pending sc = []) (m : Msg) (body : Bytes)
    (hm : Sends scfg m body)
    (hfit : ∀ r, SameMessage true (cc.lifecycle != .close) m body r → AnswerFits ccfg (asSent ct (cc.lifecycle != .close) m body) (answer r))
    (ms : List Msg) :
    ∃ x, Done answer (cc.lifecycle != .close) m body x ∧
      (cc.lifecycle = .close → dialogue ccfg scfg rm sm ct st answer cut k cc sc [] [] (m :: ms) = some [x]) ∧
      (cc.lifecycle ≠ .close → ∃ cc' sc', (Ok cc' ∧ pending cc' = []) ∧ (Ok sc' ∧ pending sc' = []) ∧ cc'.lifecycle ≠ .close ∧
        dialogue ccfg scfg rm sm ct st answer cut k cc sc [] [] (m :: ms) =
          (dialogue ccfg scfg rm sm ct st answer cut (k + 1) cc' sc' [] [] ms).map (x :: ·)) := by
  generalize hka : (cc.lifecycle != .close) = ka at hfit
  have hka' : ka = true ↔ cc.lifecycle ≠ .close := by rw [← hka]; simp
  have hr := asSent_ok hs.order ht (ka := ka) hm.writable hm.fits
  have hp := asSent_persistent hs.order ht (ka := ka) hm
  have hfit' : ∀ r, (asSent ct ka m body).Is r → AnswerFits ccfg (asSent ct ka m body) (answer r) :=
    fun r h => hfit r (asSent_same ht hm.writable h)
  have htr := transmit_eq ct true ka m body hm.writable.content hm.writable.contentLength
  have hwire : wireHead (m.head true) (ct.iter (m.sentHeaders ct true ka false)) ++ body = (asSent ct ka m body).bytes := rfl
  rw [hwire] at htr
  obtain ⟨c1, s1, more1, h1, h2, h3, h4, h5, h6, h7, h8⟩ := receive_reads scfg sm _ _
    (request_reads scfg sm hs.blank hs.order hs.isRequest hs.wholeMessages hs.noHandler _ hr) sc hsc.1
    (cut (2 * k) (asSent ct ka m body).bytes) (hcut _ _).nonempty [] (by rw [hsc.2, List.nil_append, (hcut _ _).flat, List.append_nil]) []
  obtain rfl := h7 rfl
  rw [List.append_nil] at h1
  rw [persistent_stays h3, hp] at h4 h8
  have hlc := suits_lifecycle h3 (fits_suits (hfit' _ h3)) st (ord := scfg.ord) (lc := c1.lifecycle) (by rw [hp]; exact h4)
  have hx : Answered scfg.ord st answer (asSent ct ka m body) ⟨⟨false, s1.msg⟩, some ((answer s1.msg).writer st s1.msg c1.lifecycle).wire⟩ :=
    ⟨rfl, h3, c1.lifecycle, rfl, by rw [hp]; exact h4⟩
  have hu : ¬ UntilClose (asSent ct ka m body) (answer s1.msg) := fun h => h.2 hm.version
  have hreads := answer_reads_by hs hr hfit' (rs := []) (ms := []) ⟨hc.isResponse, hc.order, hc.wholeMessages, hc.noHandler, .nil⟩ hx
    (m := rm.clear ccfg.isRequest) ⟨blank_clear _ _, by rw [clear_requestMethod]; decide +kernel⟩ hu
  obtain ⟨c2, s2, g1, ⟨g2, g3⟩, g4, g5⟩ := sync_reads ccfg rm _ _ hreads cc hcc.1
    (cut (2 * k + 1) ((answer s1.msg).writer st s1.msg c1.lifecycle).wire) (hcut _ _).nonempty
    (by rw [hcc.2, List.nil_append, (hcut _ _).flat]; rfl) (if c1.lifecycle == .close then [.error] else []) (by split <;> simp)
  rw [← g3, hp] at g4
  have hserved : (!s1.msg.isValid) = false := by rw [h3.valid]; rfl
  refine ⟨⟨⟨⟨false, s1.msg⟩, some ((answer s1.msg).writer st s1.msg c1.lifecycle).wire⟩, some s2.msg⟩,
    ⟨rfl, asSent_same ht hm.writable h3, s2.msg, rfl, g2⟩, fun hl => ?_, fun hl => ?_⟩
  · have hf : ¬ ka = true := by rw [hka']; simpa using hl
    have hl1 : c1.lifecycle = .close := h4.2 hf
    have hl2 : c2.lifecycle = .close := g4.2 hf
    rw [dialogue, hka, htr]
    simp only [List.nil_append, h1, respond, hserved, Bool.or_self, Bool.false_eq_true, if_false, Option.map_some, Option.getD_some,
      hlc, Bool.false_or, g1, hl2, decide_true, Bool.true_or, if_true]
  · have hf : ka = true := hka'.2 hl
    have hl1 : c1.lifecycle ≠ .close := fun h => h4.1 h hf
    have hl2 : c2.lifecycle ≠ .close := fun h => g4.1 h hf
    refine ⟨c2, c1, g5 hl2, ⟨h5, flatten_nil (pending_ne h5) (by simpa using h8 hf)⟩, hl2, ?_⟩
    have hb : (c1.lifecycle == .close) = false := by simpa using hl1
    rw [hb] at g1
    rw [dialogue, hka, htr]
    simp only [List.nil_append, h1, respond, hserved, Bool.or_self, Bool.false_eq_true, if_false, Option.map_some, Option.getD_some,
      hlc, hb, List.append_nil, List.map_nil] at g1 ⊢
    rw [g1]
    simp only [hl2, decide_false, Bool.false_eq_true, if_false, Bool.or_self]

/-- **C103, partial.** A client sends any number of requests of HTTP/1.1 with blocking calls over one connection, of which it has said
    that it is to be kept open, and receives a response with a blocking call after each. However the network cuts what is sent,
    whatever the handlers of the server answer, as a whole or in parts, and in whatever order the tables are kept: the server
    receives every request as it was sent, and the client gets, after each request, the answer to this request. -/
theorem dialogue_partial {ccfg scfg : Cfg} {sm : Msg} {st : TableOrder} (hs : Server scfg sm st) (hc : Caller ccfg) (rm : Msg)
    {ct : TableOrder} (ht : ct.Ok) (answer : Msg → Answer) (cut : Nat → Bytes → List Bytes) (hcut : ∀ k w, Cuts (cut k w) w)
    (ms : List (Msg × Bytes)) (hm : ∀ m ∈ ms, Sends scfg m.1 m.2)
    (hfit : ∀ m ∈ ms, ∀ r, SameMessage true true m.1 m.2 r → AnswerFits ccfg (asSent ct true m.1 m.2) (answer r)) :
    ∃ xs, dialogue ccfg scfg rm sm ct st answer cut 0 { lifecycle := .keepAlive } {} [] [] (ms.map (·.1)) = some xs ∧
      List.Forall₂ (fun m x => Done answer true m.1 m.2 x) ms xs := by
  suffices h : ∀ (k : Nat) (cc sc : Conn), (Ok cc ∧ pending cc = []) → (Ok sc ∧ pending sc = []) → cc.lifecycle ≠ .close →
      ∃ xs, dialogue ccfg scfg rm sm ct st answer cut k cc sc [] [] (ms.map (·.1)) = some xs ∧
        List.Forall₂ (fun m x => Done answer true m.1 m.2 x) ms xs from
    h 0 _ _ ⟨fun h => (by cases h), rfl⟩ ⟨fun h => (by cases h), rfl⟩ (by simp)
  induction ms with
  | nil => intro k cc sc _ _ _; exact ⟨[], by rw [List.map_nil, dialogue], .nil⟩
  | cons m ms ih =>
    intro k cc sc h1 h2 h3
    have hka : (cc.lifecycle != .close) = true := by simpa using h3
    obtain ⟨x, hx, _, hgo⟩ := dialogue_one hs hc rm ht answer cut hcut k h1 h2 m.1 m.2 (hm m (by simp))
      (by rw [hka]; exact hfit m (by simp)) (ms.map (·.1))
    rw [hka] at hx
    obtain ⟨cc', sc', g1, g2, g3, g4⟩ := hgo h3
    obtain ⟨xs, k1, k2⟩ := ih (fun m h => hm m (List.mem_cons_of_mem _ h)) (fun m h => hfit m (List.mem_cons_of_mem _ h)) (k + 1) cc' sc' g1 g2 g3
    exact ⟨x :: xs, by rw [List.map_cons, g4, k1]; rfl, .cons hx k2⟩

/-- **Finding.** A connection that was just made is not one to be kept open (/repo/include/pion/tcp/connection.hpp:120,140,701), so the first request says `Connection: close`: the client gets the answer to it, and no other request is
    received, unless the program calls `set_lifecycle` itself. -/
theorem new_connection_violated {ccfg scfg : Cfg} {sm : Msg} {st : TableOrder} (hs : Server scfg sm st) (hc : Caller ccfg) (rm : Msg)
    {ct : TableOrder} (ht : ct.Ok) (answer : Msg → Answer) (cut : Nat → Bytes → List Bytes) (hcut : ∀ k w, Cuts (cut k w) w)
    (m : Msg) (body : Bytes) (hm : Sends scfg m body)
    (hfit : ∀ r, SameMessage true false m body r → AnswerFits ccfg (asSent ct false m body) (answer r)) (ms : List Msg) :
    ∃ x, dialogue ccfg scfg rm sm ct st answer cut 0 {} {} [] [] (m :: ms) = some [x] ∧ Done answer false m body x := by
  obtain ⟨x, hx, h, _⟩ := dialogue_one hs hc rm ht answer cut hcut 0 (cc := {}) (sc := {}) ⟨fun h => (by cases h), rfl⟩ ⟨fun h => (by cases h), rfl⟩
    m body hm hfit ms
  exact ⟨x, h rfl, hx⟩

/-! ### Concrete cases -/

/-- The network delivers bytes one by one, or all at once. -/
def cutAll (k : Nat) (w : Bytes) : List Bytes := if k % 2 = 0 then w.map fun c => [c] else if w = [] then [] else [w]

theorem cutAll_ok (k : Nat) (w : Bytes) : Cuts (cutAll k w) w := by
  unfold cutAll
  split
  · exact cuts_bytes w
  · split
    · rename_i h; subst h; exact ⟨rfl, by simp⟩
    · rename_i h; exact ⟨by simp, by simpa using h⟩

/-- A request with a body, a HEAD request, and one that is answered in parts. -/
def threeRequests : List Msg :=
  [{ method := b! "POST", resource := b! "/a", verMajor := 1, verMinor := 1, content := (b! "hi").map some, contentLength := 2 },
   { method := b! "HEAD", resource := b! "/x", verMajor := 1, verMinor := 1 },
   { method := b! "GET", resource := b! "/b", verMajor := 1, verMinor := 1 }]

/-- All three are received and answered. The answer to the HEAD request has content, which the blocking call takes, as it does not know
    of the method (C101): the two faults make up for one another. -/
example : (dialogue ccfg scfg {} {} {} {} names cutAll 0 { lifecycle := .keepAlive } {} [] [] threeRequests).map
    (List.map fun x => (x.served.got.message.method, x.served.got.message.content, x.response.map (·.content))) =
    some [(b! "POST", (b! "hi").map some, some ((b! "/a").map some)), (b! "HEAD", [], some ((b! "/x").map some)),
      (b! "GET", [], some ((b! "name: /b").map some))] := by decide +kernel

/-- On a new connection the first one is the last. -/
example : (dialogue ccfg scfg {} {} {} {} names cutAll 0 {} {} [] [] threeRequests).map (List.map fun x => x.served.got.message.method) =
    some [b! "POST"] := by decide +kernel

/-- A request that meets the hypotheses. -/
example : Sends scfg sampleRequest (b! "hi\x00") := ⟨sampleRequest_writable, ⟨rfl, by decide⟩, by decide +kernel⟩

end Verif.Props.Dialogue
