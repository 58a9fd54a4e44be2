import Mathlib.Tactic.Common
import Verif.Spec.Conversation
import Verif.Lemmas.Answers
import Verif.Props.Reader
import Verif.Props.Responses
import Verif.Props.HttpLimits
/-
C65: a whole conversation over one connection.
-/
namespace Verif.Props.Conversation
open Verif.Http Verif.Reader Verif.Responses Verif.Conversation Verif.Spec.Conversation Verif.Spec.Responses
open Verif.Props.HttpBody Verif.Props.Reader
open Verif.Props.Responses (page Sendable)
open Verif.Lemmas.Answers
open Verif.Props.Dict (matching)
open Verif.Writer (Lifecycle responseTo)

/-- The bytes `wire` are exactly one message for a new reader, whatever follows and however they are cut. -/
def Reads (cfg : Cfg) (m : Msg) (wire : Bytes) (Q : Msg → Prop) : Prop :=
  wire ≠ [] ∧ ∀ tail bufs, Cuts bufs (wire ++ tail) → ∃ o, outcome cfg (fresh cfg m) bufs = some o ∧ o.result = .yes ∧
    o.error = none ∧ o.unread = tail ∧ Q o.message

theorem flatten_nil {l : List Bytes} (h : ∀ b ∈ l, b ≠ []) (he : l.flatten = []) : l = [] := by
  cases l with
  | nil => rfl
  | cons a t =>
    rw [List.flatten_cons, List.append_eq_nil_iff] at he
    exact absurd he.1 (h a (by simp))

theorem receive_reads (cfg : Cfg) (m : Msg) (wire : Bytes) (Q : Msg → Prop) (h : Reads cfg m wire Q) (c : Conn) (hc : Ok c)
    (bufs : List Bytes) (hb : ∀ b ∈ bufs, b ≠ []) (tail : Bytes) (hcut : (pending c ++ bufs).flatten = wire ++ tail)
    (e : List Read) :
    ∃ c' s' more, receive cfg c (fresh cfg m) (bufs.map .data ++ e) = some (c', s', .done false, more.map .data ++ e) ∧
      s'.ec = none ∧ Q s'.msg ∧ (c'.lifecycle = .close ↔ ¬ StaysOpen cfg.ord s'.msg) ∧ Ok c' ∧ (∀ b ∈ more, b ≠ []) ∧
      (tail = [] → more = []) ∧ (StaysOpen cfg.ord s'.msg → (pending c' ++ more).flatten = tail) := by
  have hb' : ∀ b ∈ pending c ++ bufs, b ≠ [] := by
    intro b h
    rcases List.mem_append.1 h with h | h
    · exact pending_ne hc b h
    · exact hb b h
  obtain ⟨o, ho, g1, g2, g3, g4⟩ := h.2 tail _ ⟨hcut, hb'⟩
  have hrec := receive_feed cfg c (fresh cfg m) hc bufs hb e
  rw [outcome] at ho
  cases hf : feed cfg (fresh cfg m) (pending c ++ bufs) with
  | none => rw [hf] at ho; cases ho
  | some q =>
    obtain ⟨rc, s', rest, more⟩ := q
    rw [hf] at ho hrec
    simp only [Option.map_some, Option.some.injEq] at ho
    subst ho
    simp only [observe] at g1 g2 g3 g4
    subst g1
    obtain ⟨k1, _, _, k4, k5⟩ := afterMessage_spec cfg.ord { c with lifecycle := .close } s'.msg rest
    refine ⟨_, s', more, ?_, g2, g4, k1, k5, fun b h => hb' b (feed_more_mem cfg _ _ hf b h), fun ht => ?_,
      fun hk => ?_⟩
    · rw [hrec]
      simp only [Option.bind_some, settle, g2]
      rfl
    · rw [ht, List.append_eq_nil_iff] at g3
      exact flatten_nil (fun b h => hb' b (feed_more_mem cfg _ _ hf b h)) g3.2
    · rw [List.flatten_append, k4 hk, g3]

/-- The bytes `wire` are one message for a new reader if the connection ends after them, however they are cut. -/
def ReadsToEnd (cfg : Cfg) (m : Msg) (wire : Bytes) (Q : Msg → Prop) : Prop :=
  ∀ bufs, Cuts bufs wire → ∃ o, outcomeAtEof cfg (fresh cfg m) bufs = some (false, o) ∧ o.result = .yes ∧
    o.error = none ∧ o.unread = [] ∧ Q o.message

theorem receive_to_end (cfg : Cfg) (m : Msg) (wire : Bytes) (Q : Msg → Prop) (h : ReadsToEnd cfg m wire Q)
    (hq : ∀ r, Q r → ¬ StaysOpen cfg.ord r) (c : Conn) (hc : Ok c)
    (bufs : List Bytes) (hb : ∀ b ∈ bufs, b ≠ []) (hcut : (pending c ++ bufs).flatten = wire) (e : List Read) :
    ∃ c' s' rest, receive cfg c (fresh cfg m) (bufs.map .data ++ .error :: e) = some (c', s', .done false, rest) ∧
      Q s'.msg ∧ c'.lifecycle = .close ∧ (rest = e ∨ rest = .error :: e) := by
  have hb' : ∀ b ∈ pending c ++ bufs, b ≠ [] := by
    intro b h
    rcases List.mem_append.1 h with h | h
    · exact pending_ne hc b h
    · exact hb b h
  obtain ⟨o, ho, g1, g2, g3, g4⟩ := h _ ⟨hcut, hb'⟩
  have hrec := receive_feed cfg c (fresh cfg m) hc bufs hb (.error :: e)
  rw [outcomeAtEof] at ho
  cases hf : feed cfg (fresh cfg m) (pending c ++ bufs) with
  | none => rw [hf] at ho; cases ho
  | some q =>
    obtain ⟨rc, s', rest, more⟩ := q
    rw [hf] at ho hrec
    simp only [Option.map_some, Option.some.injEq] at ho
    cases rc with
    | more =>
      simp only [if_true, Prod.mk.injEq] at ho
      obtain ⟨ho1, rfl⟩ := ho
      refine ⟨{ c with lifecycle := .close }, _, e, ?_, g4, rfl, .inl rfl⟩
      rw [hrec]
      simp only [Option.bind_some, settle, readMore, ho1]
    | no =>
      simp at ho
    | yes =>
      simp only [reduceCtorEq, if_false, decide_false, Prod.mk.injEq, true_and] at ho
      subst ho
      simp only [observe] at g2 g3 g4
      rw [List.append_eq_nil_iff] at g3
      have hmore := flatten_nil (fun b h => hb' b (feed_more_mem cfg _ _ hf b h)) g3.2
      obtain ⟨k1, _⟩ := afterMessage_spec cfg.ord { c with lifecycle := .close } s'.msg rest
      refine ⟨_, s', .error :: e, ?_, g4, k1.2 (hq _ g4), .inr rfl⟩
      rw [hrec]
      simp only [Option.bind_some, settle, g2, hmore]
      rfl

/-! ### Requests -/

theorem request_reads (cfg : Cfg) (m : Msg) (hm : Blank m) (ho : Http.OrderOk cfg.ord) (hk : cfg.isRequest = true)
    (hho : cfg.headersOnly = false) (hh : cfg.handler = false) (r : Request) (hr : r.Ok cfg) :
    Reads cfg m r.bytes r.Is := by
  have hset : Setting cfg m r.head r.headers := ⟨hm, ho, hk, hr.line, hr.headers, hho⟩
  refine ⟨by simp [Request.bytes, wireHead_ne_nil], fun tail bufs hcut => ?_⟩
  have h1 := hr.framed
  have h2 := hr.fits
  have h3 := hr.size
  unfold Request.bytes at hcut
  have key : ∀ o : Outcome, Complete r.head r.headers tail o → o.message.content = r.framing.data.map some →
      o.message.contentLength = r.framing.data.length → o.result = .yes ∧ o.error = none ∧ o.unread = tail ∧ r.Is o.message :=
    fun o hc hd hl => ⟨hc.result, hc.error, hc.unread, hc.stored, hc.headers, hd, hl, hc.valid⟩
  cases hf : r.framing with
  | bare =>
    rw [hf] at h1 hcut
    obtain ⟨o, ho, hc, hd, hl⟩ := request_without_body cfg m _ _ hset rfl h1.1 h1.2 tail bufs (by
      simpa [Framing.bytes] using hcut)
    exact ⟨o, ho, key o hc (by rw [hd, hf]; rfl) (by rw [hl, hf]; rfl)⟩
  | length body =>
    rw [hf] at h1 h2 h3 hcut
    obtain ⟨o, ho, hc, hd, hl, _⟩ := content_length_exact cfg m _ _ hset hh h1.1 id body tail h1.2 h3 bufs hcut
    refine ⟨o, ho, key o hc ?_ ?_⟩
    · rw [hd, hf]; exact congrArg (List.map some) (List.take_of_length_le h2)
    · rw [hl, hf]; exact Nat.min_eq_left h2
  | chunked ds =>
    rw [hf] at h1 h2 h3 hcut
    obtain ⟨o, ho, hc, hd, _⟩ := chunked_exact cfg m _ _ hset h1.1 ds tail h1.2 (fun _ => h2) h3 bufs hcut
    rw [hh] at hd
    exact ⟨o, ho, key o hc (by rw [hf]; exact hd.1) (by rw [hf]; exact hd.2)⟩

theorem persistent_stays {ord : Dict.Order} {r : Request} {m : Msg} (h : r.Is m) : StaysOpen ord m ↔ r.Persistent ord := by
  obtain ⟨_, _, _, _, h5, h6⟩ := h.line
  unfold StaysOpen Request.Persistent Msg11
  rw [h.headers, h5, h6]

/-! ### The server -/

/-- The server has received the request `r` and sent the answer to it. -/
structure Answered (ord : Dict.Order) (t : TableOrder) (answer : Msg → Answer) (r : Request) (x : Exchange) : Prop where
  noError : x.got.error = false
  received : r.Is x.got.message
  answered : ∃ lc, x.response = some ((answer x.got.message).writer t x.got.message lc).wire ∧
    (lc = .close ↔ ¬ r.Persistent ord)

/-- The handlers do not send chunks to clients of other versions than HTTP/1.x, and call only the functions of `Answer`. -/
structure Suits (r : Request) (a : Answer) : Prop where
  version : a.chunks ≠ none → r.major = 1
  writes : Spec.Writer.OnlyWrites a.reply.writes

theorem suits_lifecycle {r : Request} {m : Msg} (hr : r.Is m) {a : Answer} (ha : Suits r a) {ord : Dict.Order} (t : TableOrder)
    {lc : Lifecycle} (hl : lc = .close ↔ ¬ r.Persistent ord) : (a.writer t m lc).lifecycle = lc := by
  obtain ⟨_, _, _, _, h5, h6⟩ := hr.line
  refine writer_lifecycle a t m lc ?_
  by_cases hc : a.chunks = none
  · exact .inr (.inr ⟨hc, ha.writes⟩)
  · by_cases hp : r.Persistent ord
    · rw [h5, h6]
      have := ha.version hc
      rcases hp.1 with h | h
      · omega
      · exact .inr (.inl h)
    · exact .inl (hl.2 hp)

/-- What one request does. -/
theorem converse_one (cfg : Cfg) (m : Msg) (hm : Blank m) (ho : Http.OrderOk cfg.ord) (hk : cfg.isRequest = true)
    (hho : cfg.headersOnly = false) (hh : cfg.handler = false) (t : TableOrder) (answer : Msg → Answer) (r : Request)
    (hr : r.Ok cfg) (ha : ∀ m, r.Is m → Suits r (answer m)) (n : Nat) (c : Conn) (hc : Ok c) (bufs : List Bytes)
    (hb : ∀ b ∈ bufs, b ≠ []) (tail : Bytes) (hcut : (pending c ++ bufs).flatten = r.bytes ++ tail) :
    ∃ x, Answered cfg.ord t answer r x ∧
      (¬ r.Persistent cfg.ord → converse cfg m t answer (n + 1) c (bufs.map .data) = some [x]) ∧
      (r.Persistent cfg.ord → ∃ c' more, Ok c' ∧ (∀ b ∈ more, b ≠ []) ∧ (pending c' ++ more).flatten = tail ∧
        converse cfg m t answer (n + 1) c (bufs.map .data) =
          (converse cfg m t answer n c' (more.map .data)).map (x :: ·)) := by
  obtain ⟨c', s', more, h1, h2, h3, h4, h5, h6, _, h7⟩ := receive_reads cfg m _ _
    (request_reads cfg m hm ho hk hho hh r hr) c hc bufs hb tail hcut []
  rw [persistent_stays h3] at h4 h7
  rw [List.append_nil, List.append_nil] at h1
  have hlc := suits_lifecycle h3 (ha _ h3) t h4
  refine ⟨⟨⟨false, s'.msg⟩, some ((answer s'.msg).writer t s'.msg c'.lifecycle).wire⟩, ⟨rfl, h3, c'.lifecycle, rfl, h4⟩,
    fun hp => ?_, fun hp => ⟨c', more, h5, h6, h7 hp, ?_⟩⟩
  · rw [converse, h1]
    simp only [respond, h3.valid, Bool.not_true, Bool.or_self, Bool.false_eq_true, if_false, Option.map_some, Option.getD_some, hlc]
    rw [if_pos (h4.2 hp)]
  · rw [converse, h1]
    simp only [respond, h3.valid, Bool.not_true, Bool.or_self, Bool.false_eq_true, if_false, Option.map_some, Option.getD_some, hlc,
      if_neg (show c'.lifecycle ≠ .close from fun h => h4.1 h hp)]

theorem converse_open (cfg : Cfg) (m : Msg) (hm : Blank m) (ho : Http.OrderOk cfg.ord) (hk : cfg.isRequest = true)
    (hho : cfg.headersOnly = false) (hh : cfg.handler = false) (t : TableOrder) (answer : Msg → Answer) (rs : List Request) :
    ∀ (n : Nat) (c : Conn) (bufs : List Bytes) (tail : Bytes), (∀ r ∈ rs, r.Ok cfg) →
      (∀ r ∈ rs, ∀ m, r.Is m → Suits r (answer m)) → (∀ r ∈ rs, r.Persistent cfg.ord) → Ok c → (∀ b ∈ bufs, b ≠ []) → (pending c ++ bufs).flatten = (rs.map Request.bytes).flatten ++ tail →
      ∃ xs c' more, List.Forall₂ (Answered cfg.ord t answer) rs xs ∧ Ok c' ∧ (∀ b ∈ more, b ≠ []) ∧
        (pending c' ++ more).flatten = tail ∧
        converse cfg m t answer (rs.length + n) c (bufs.map .data) =
          (converse cfg m t answer n c' (more.map .data)).map (xs ++ ·) := by
  induction rs with
  | nil =>
    intro n c bufs tail _ _ _ hc hb hcut
    refine ⟨[], c, bufs, .nil, hc, hb, by simpa using hcut, ?_⟩
    simp
  | cons r rs ih =>
    intro n c bufs tail hok ha hp hc hb hcut
    rw [List.map_cons, List.flatten_cons, List.append_assoc] at hcut
    obtain ⟨x, hx, _, h⟩ := converse_one cfg m hm ho hk hho hh t answer r (hok r (by simp)) (ha r (by simp)) (rs.length + n) c hc bufs hb _ hcut
    obtain ⟨c', more, g1, g2, g3, g4⟩ := h (hp r (by simp))
    obtain ⟨xs, c'', more', k1, k2, k3, k4, k5⟩ := ih n c' more tail (fun r hr => hok r (List.mem_cons_of_mem _ hr))
      (fun r hr => ha r (List.mem_cons_of_mem _ hr)) (fun r hr => hp r (List.mem_cons_of_mem _ hr)) g1 g2 g3
    refine ⟨x :: xs, c'', more', .cons hx k1, k2, k3, k4, ?_⟩
    rw [List.length_cons, Nat.add_right_comm, g4, k5, Option.map_map]
    rfl

theorem converse_nothing (cfg : Cfg) (m : Msg) (t : TableOrder) (answer : Msg → Answer) (n : Nat) (c : Conn) (hc : Ok c)
    (bufs : List Bytes) (hb : ∀ b ∈ bufs, b ≠ []) (h : (pending c ++ bufs).flatten = []) :
    converse cfg m t answer n c (bufs.map .data) = some [] := by
  have h0 := flatten_nil (by
    intro b h
    rcases List.mem_append.1 h with h | h
    · exact pending_ne hc b h
    · exact hb b h) h
  obtain ⟨h1, rfl⟩ := List.append_eq_nil_iff.1 h0
  cases n with
  | zero => rfl
  | succ n =>
    have hl : c.lifecycle ≠ .pipelined := by
      intro hl; rw [pending, if_pos hl] at h1; cases h1
    simp [converse, receive, hl, readMore]

/-- The server's side: `init` are requests that let the connection stay open, `last` is any request; if it closes the
    connection, anything may follow. -/
theorem server_side (cfg : Cfg) (m : Msg) (hm : Blank m) (ho : Http.OrderOk cfg.ord) (hk : cfg.isRequest = true)
    (hho : cfg.headersOnly = false) (hh : cfg.handler = false) (t : TableOrder) (answer : Msg → Answer)
    (init : List Request) (last : Request) (hok : ∀ r ∈ init ++ [last], r.Ok cfg)
    (ha : ∀ r ∈ init ++ [last], ∀ m, r.Is m → Suits r (answer m)) (hp : ∀ r ∈ init, r.Persistent cfg.ord)
    (junk : Bytes) (hj : last.Persistent cfg.ord → junk = []) (bufs : List Bytes)
    (hcut : Cuts bufs (((init ++ [last]).map Request.bytes).flatten ++ junk)) (n : Nat) :
    ∃ xs, converse cfg m t answer (init.length + 1 + n) {} (bufs.map .data) = some xs ∧
      List.Forall₂ (Answered cfg.ord t answer) (init ++ [last]) xs := by
  have hcut' : (pending {} ++ bufs).flatten = (init.map Request.bytes).flatten ++ (last.bytes ++ junk) := by
    have := hcut.flat
    rw [show pending {} = [] from rfl, List.nil_append, this]
    simp
  obtain ⟨xs, c', more, k1, k2, k3, k4, k5⟩ := converse_open cfg m hm ho hk hho hh t answer init (1 + n) {} bufs _
    (fun r hr => hok r (List.mem_append_left _ hr)) (fun r hr => ha r (List.mem_append_left _ hr)) hp (by intro h; cases h)
    hcut.nonempty hcut'
  obtain ⟨x, hx, g1, g2⟩ := converse_one cfg m hm ho hk hho hh t answer last (hok last (by simp)) (ha last (by simp)) n c' k2 more k3 junk k4
  refine ⟨xs ++ [x], ?_, forall₂_append k1 (.cons hx .nil)⟩
  rw [Nat.add_assoc, k5, Nat.add_comm 1 n]
  by_cases hlast : last.Persistent cfg.ord
  · obtain ⟨c2, more2, e1, e2, e3, e4⟩ := g2 hlast
    rw [e4, converse_nothing cfg m t answer n c2 e1 more2 e2 (by rw [e3, hj hlast])]
    rfl
  · rw [g1 hlast]
    rfl

/-! ### The client -/

/-- What the client must receive for an exchange. -/
def Gets (answer : Msg → Answer) (x : Exchange) (r : Msg) : Prop :=
  Carries r (answer x.got.message).reply.code (answer x.got.message).reply.text (answer x.got.message).reply.headers
    (body (answer x.got.message)) ∧ r.isValid = true ∧
  ((answer x.got.message).chunks = none → Holds r (answer x.got.message).reply.code (answer x.got.message).reply.text
    (answer x.got.message).reply.headers (page (answer x.got.message).reply))

theorem responseTo_11 (req : Msg) (h : req.verMajor ≠ 0) : (responseTo req).verMajor = 1 ∧ (responseTo req).verMinor = 1 := by
  by_cases h1 : (req.verMajor = 1 && 1 ≤ req.verMinor) = true <;> simp [responseTo, h1, h]

theorem reads_of (cfg : Cfg) (m : Msg) (wire : Bytes) (Q : Msg → Prop)
    (h : ∀ tail bufs, Cuts bufs (wire ++ tail) → ∃ o, outcome cfg (fresh cfg m) bufs = some o ∧ o.result = .yes ∧
      o.error = none ∧ o.unread = tail ∧ Q o.message) : Reads cfg m wire Q := by
  refine ⟨?_, h⟩
  rintro rfl
  obtain ⟨o, ho, hy, _⟩ := h [] [] ⟨rfl, by simp⟩
  simp only [outcome, feed, Option.map_some, Option.some.injEq] at ho
  rw [← ho] at hy
  cases hy

theorem response_reads (cfg : Cfg) (hk : cfg.isRequest = false) (m0 : Msg) (hb : Blank m0) (hord : Http.OrderOk cfg.ord)
    (hho : cfg.headersOnly = false) (hhand : cfg.handler = false) (t : TableOrder) (ht : t.Ok) (req : Msg)
    (lc : Lifecycle) (r : Reply) (hr : Sendable r) (hhead : m0.requestMethod ≠ b! "HEAD")
    (hsize : (page r).length + 1 < 2 ^ 64) (hmax : (page r).length ≤ cfg.maxContent) :
    Reads cfg m0 (r.writer t req lc).wire fun msg =>
      (Holds msg r.code r.text r.headers (page r) ∧ msg.isValid = true) ∧
      (req.verMajor ≠ 0 → lc ≠ .close → StaysOpen cfg.ord msg) ∧ (lc = .close → ¬ StaysOpen cfg.ord msg) := by
  refine reads_of _ _ _ _ fun tail bufs hcut => ?_
  obtain ⟨o, ho, g1, g2, g3, g4, g5⟩ := Verif.Props.Responses.reply_same cfg hk m0 hb hord hho hhand t ht req lc r hr (.inl hhead) hsize
    hmax tail bufs hcut
  obtain ⟨name, hn⟩ := g5.connection
  refine ⟨o, ho, g1, g2, g3, ⟨Verif.Props.Responses.holds_of_same g5 (Verif.Props.Responses.responseTo_facts req).2.1, g4⟩, ?_, ?_⟩
  · intro hv hl
    obtain ⟨name', hm⟩ := (Dict.get_spec cfg.ord hord o.message.headers (b! "Connection")).2 (by
      rw [hn]; simp)
    rw [hn, List.mem_singleton] at hm
    have he := (Prod.mk.inj hm).2
    obtain ⟨_, _, v1, v2⟩ := g5.firstLine
    obtain ⟨w1, w2⟩ := responseTo_11 req hv
    refine ⟨.inr ⟨v1.trans w1, le_of_eq (v2.trans w2).symm⟩, ?_⟩
    rw [he, if_pos (by simpa using hl)]
    decide
  · intro hl
    refine close_header_closes _ hord _ (by rw [hn]; simp) ?_
    rw [hn, hl]
    intro e he
    rw [List.mem_singleton.1 he]
    rfl

/-- One response. -/
theorem collect_one (cfg : Cfg) (m : Msg) (wire : Bytes) (Q : Msg → Prop) (h : Reads cfg m wire Q) (ms : List Msg)
    (c : Conn) (hc : Ok c) (bufs : List Bytes) (hb : ∀ b ∈ bufs, b ≠ []) (tail : Bytes)
    (hcut : (pending c ++ bufs).flatten = wire ++ tail) (e : List Read) :
    ∃ msg c' more, Q msg ∧ Ok c' ∧ (∀ b ∈ more, b ≠ []) ∧ (tail = [] → more = []) ∧
      (StaysOpen cfg.ord msg → c'.lifecycle ≠ .close ∧ (pending c' ++ more).flatten = tail ∧
        collect cfg (m :: ms) c (bufs.map .data ++ e) =
          (collect cfg ms c' (more.map .data ++ e)).map fun r => (⟨false, msg⟩ :: r.1, r.2)) ∧
      (¬ StaysOpen cfg.ord msg → c'.lifecycle = .close ∧
        collect cfg (m :: ms) c (bufs.map .data ++ e) = some ([⟨false, msg⟩], c', more.map .data ++ e)) := by
  obtain ⟨c', s', more, h1, _, h3, h4, h5, h6, h8, h7⟩ := receive_reads cfg m _ _ h c hc bufs hb tail hcut e
  refine ⟨s'.msg, c', more, h3, h5, h6, h8, fun hs => ?_, fun hs => ?_⟩
  · have hn : c'.lifecycle ≠ .close := fun h => h4.1 h hs
    refine ⟨hn, h7 hs, ?_⟩
    rw [collect, h1]
    simp only [if_neg hn]
  · refine ⟨h4.2 hs, ?_⟩
    rw [collect, h1]
    simp only [if_pos (h4.2 hs)]

theorem collect_open {α : Type} (cfg : Cfg) (wire : α → Bytes) (Q : α → Msg → Prop) (e : List Read) (xs : List α) (ms : List Msg)
    (h : List.Forall₂ (fun x m => Reads cfg m (wire x) fun r => Q x r ∧ StaysOpen cfg.ord r) xs ms) (ms' : List Msg) :
    ∀ (c : Conn) (bufs : List Bytes) (tail : Bytes), Ok c → (∀ b ∈ bufs, b ≠ []) →
      (pending c ++ bufs).flatten = (xs.map wire).flatten ++ tail →
      ∃ gots c' more, List.Forall₂ (fun x g => g.error = false ∧ Q x g.message) xs gots ∧ Ok c' ∧ (∀ b ∈ more, b ≠ []) ∧
        (pending c' ++ more).flatten = tail ∧
        collect cfg (ms ++ ms') c (bufs.map .data ++ e) =
          (collect cfg ms' c' (more.map .data ++ e)).map fun r => (gots ++ r.1, r.2) := by
  induction h with
  | nil =>
    intro c bufs tail hc hb hcut
    exact ⟨[], c, bufs, .nil, hc, hb, by simpa using hcut, by simp⟩
  | @cons x m xs ms h1 h2 ih =>
    intro c bufs tail hc hb hcut
    rw [List.map_cons, List.flatten_cons, List.append_assoc] at hcut
    obtain ⟨msg, c', more, ⟨q, hs⟩, g1, g2, _, g3, _⟩ := collect_one cfg m _ _ h1 (ms ++ ms') c hc bufs hb _ hcut e
    obtain ⟨_, g4, g5⟩ := g3 hs
    obtain ⟨gots, c2, more2, k1, k2, k3, k4, k5⟩ := ih c' more tail g1 g2 g4
    refine ⟨⟨false, msg⟩ :: gots, c2, more2, .cons ⟨rfl, q⟩ k1, k2, k3, k4, ?_⟩
    rw [List.cons_append, g5, k5, Option.map_map]
    rfl

theorem forall₂_imp {α β : Type} {R S : α → β → Prop} (h : ∀ a b, R a b → S a b) {l : List α} {l' : List β}
    (hl : List.Forall₂ R l l') : List.Forall₂ S l l' := by
  induction hl with
  | nil => exact .nil
  | cons a _ ih => exact .cons (h _ _ a) ih

theorem forall₂_length {α β : Type} {R : α → β → Prop} {l : List α} {l' : List β} (hl : List.Forall₂ R l l') :
    l.length = l'.length := by
  induction hl with
  | nil => rfl
  | cons _ _ ih => simp [ih]

/-- Two related lists that end with one element each. -/
theorem forall₂_snoc {α β : Type} {R : α → β → Prop} {l : List α} {a : α} {l' : List β}
    (h : List.Forall₂ R (l ++ [a]) l') : ∃ l₂ b, l' = l₂ ++ [b] ∧ List.Forall₂ R l l₂ ∧ R a b := by
  induction l generalizing l' with
  | nil =>
    cases h with
    | cons h1 h2 => cases h2; exact ⟨[], _, rfl, .nil, h1⟩
  | cons x l ih =>
    cases h with
    | cons h1 h2 =>
      obtain ⟨l₂, b, rfl, g1, g2⟩ := ih h2
      exact ⟨_ :: l₂, b, rfl, .cons h1 g1, g2⟩

/-- The bytes a server sends. -/
def sent (xs : List Exchange) : Bytes := (xs.map fun x => x.response.getD []).flatten

/-- The client's side of the conversation: it reads with one reader per request, the reader being told the request's
    method. -/
structure Client (cfg : Cfg) (rs : List Request) (ms : List Msg) : Prop where
  isResponse : cfg.isRequest = false
  order : Http.OrderOk cfg.ord
  wholeMessages : cfg.headersOnly = false
  noHandler : cfg.handler = false
  readers : List.Forall₂ (fun r m => Blank m ∧ m.requestMethod = r.method) rs ms

/-- The server's settings. -/
structure Server (cfg : Cfg) (m : Msg) (t : TableOrder) : Prop where
  isRequest : cfg.isRequest = true
  order : Http.OrderOk cfg.ord
  wholeMessages : cfg.headersOnly = false
  noHandler : cfg.handler = false
  blank : Blank m
  table : t.Ok

/-- A reply the client can take. -/
structure Fits (cfg : Cfg) (r : Reply) : Prop where
  sendable : Sendable r
  size : (page r).length + 1 < 2 ^ 64
  fits : (page r).length ≤ cfg.maxContent

/-- An answer in chunks the client can take. An old client must be able to take the page until the connection ends. -/
structure FitsChunks (cfg : Cfg) (r : Request) (a : Answer) (cs : List (List Writer.Op)) : Prop where
  sendable : Chunkable a cs
  version : r.major = 1
  old : ¬ r.TakesChunks → ¬ (Head.response 1 1 a.reply.code a.reply.text).Bodyless [] ∧
    matching a.reply.headers (b! "Transfer-Encoding") = [] ∧ matching a.reply.headers (b! "Content-Length") = []
  size : (body a).length ≤ 2 ^ 63 - 1
  fits : (body a).length ≤ cfg.maxContent

/-- An answer the client can take. -/
def AnswerFits (cfg : Cfg) (r : Request) (a : Answer) : Prop :=
  match a.chunks with
  | none => Fits cfg a.reply
  | some cs => FitsChunks cfg r a cs

/-- The answer ends where the connection ends: it is sent in parts, to a client that does not know of chunks. -/
def UntilClose (r : Request) (a : Answer) : Prop := a.chunks ≠ none ∧ ¬ r.TakesChunks

theorem fits_suits {cfg : Cfg} {r : Request} {a : Answer} (h : AnswerFits cfg r a) : Suits r a := by
  unfold AnswerFits at h
  cases hc : a.chunks with
  | none => rw [hc] at h; exact ⟨fun h => absurd hc h, h.sendable.writes⟩
  | some cs => rw [hc] at h; exact ⟨fun _ => h.version, h.sendable.last⟩

theorem untilClose_last {cfg : Cfg} {r : Request} {a : Answer} (h : AnswerFits cfg r a) (hu : UntilClose r a) {ord : Dict.Order} :
    ¬ r.Persistent ord := by
  intro hp
  have := (fits_suits h).version hu.1
  rcases hp.1 with h | h
  · omega
  · exact hu.2 h

theorem takesChunks_iff {r : Request} {m : Msg} (h : r.Is m) : r.TakesChunks ↔ m.verMajor = 1 ∧ 1 ≤ m.verMinor := by
  obtain ⟨_, _, _, _, h5, h6⟩ := h.line
  rw [h5, h6]
  rfl

theorem answer_reads_by {scfg ccfg : Cfg} {sm : Msg} {t : TableOrder} (hs : Server scfg sm t) {answer : Msg → Answer}
    {r : Request} (hr : r.Ok scfg) (hfit : ∀ m, r.Is m → AnswerFits ccfg r (answer m))
    {rs : List Request} {ms : List Msg} (hc : Client ccfg rs ms) {x : Exchange} (hx : Answered scfg.ord t answer r x)
    {m : Msg} (hm : Blank m ∧ m.requestMethod ≠ b! "HEAD") (hu : ¬ UntilClose r (answer x.got.message)) :
    Reads ccfg m (x.response.getD []) fun msg => Gets answer x msg ∧
      (r.Persistent scfg.ord ↔ StaysOpen ccfg.ord msg) := by
  obtain ⟨lc, hl, hcl⟩ := hx.answered
  have hf := hfit _ hx.received
  rw [hl, Option.getD_some]
  unfold AnswerFits at hf
  cases hch : (answer x.got.message).chunks with
  | none =>
    rw [hch] at hf
    dsimp only at hf
    rw [calls_whole _ hch]
    have h := response_reads ccfg hc.isResponse m hm.1 hc.order hc.wholeMessages hc.noHandler t hs.table x.got.message lc _
      hf.sendable hm.2 hf.size hf.fits
    have hv : x.got.message.verMajor ≠ 0 := by
      obtain ⟨_, _, _, _, h5, _⟩ := hx.received.line
      rw [h5]
      have := hr.line.majorOk.1
      omega
    refine ⟨h.1, fun tail bufs hcut => ?_⟩
    obtain ⟨o, g1, g2, g3, g4, g5, g6, g7⟩ := h.2 tail bufs hcut
    have hpage : body (answer x.got.message) = page (answer x.got.message).reply := by
      unfold body page
      rw [hch]
      simp
    refine ⟨o, g1, g2, g3, g4, ⟨?_, g5.2, fun _ => g5.1⟩, fun hp => g6 hv fun h => hcl.1 h hp, fun hst => ?_⟩
    · rw [hpage]; exact carries_of_holds g5.1
    by_contra hn
    exact g7 (hcl.2 hn) hst
  | some cs =>
    rw [hch] at hf
    have htc : r.TakesChunks := by
      by_contra h
      exact hu ⟨by rw [hch]; simp, h⟩
    refine reads_of _ _ _ _ fun tail bufs hcut => ?_
    obtain ⟨o, g1, g2, g3, g4, g5, ⟨name, g6⟩, g7, g8⟩ := chunked_answer ccfg hc.isResponse m hm.1 hc.order hc.wholeMessages
      hc.noHandler t hs.table x.got.message _ cs hf.sendable hf.size hf.fits lc ((takesChunks_iff hx.received).1 htc) tail bufs hcut
    refine ⟨o, g1, g2, g3, g4, ⟨g5.1, g5.2, fun h => by rw [hch] at h; cases h⟩, fun hp => ?_, fun hst => ?_⟩
    · obtain ⟨name', hm⟩ := (Dict.get_spec ccfg.ord hc.order o.message.headers (b! "Connection")).2 (by rw [g6]; simp)
      rw [g6, List.mem_singleton] at hm
      have he := (Prod.mk.inj hm).2
      refine ⟨.inr ⟨g7, le_of_eq g8.symm⟩, ?_⟩
      have hlc : lc ≠ .close := fun h => hcl.1 h hp
      rw [he, show (lc != .close) = true by simpa using hlc]
      decide
    · by_contra hn
      have hlc := hcl.2 hn
      refine close_header_closes _ hc.order _ (by rw [g6]; simp) ?_ hst
      rw [g6, hlc]
      intro e he
      rw [List.mem_singleton.1 he]
      rfl

theorem answer_reads {scfg ccfg : Cfg} {sm : Msg} {t : TableOrder} (hs : Server scfg sm t) {answer : Msg → Answer}
    {r : Request} (hr : r.Ok scfg) (hhead : r.method ≠ b! "HEAD") (hfit : ∀ m, r.Is m → AnswerFits ccfg r (answer m))
    {rs : List Request} {ms : List Msg} (hc : Client ccfg rs ms) {x : Exchange} (hx : Answered scfg.ord t answer r x)
    {m : Msg} (hm : Blank m ∧ m.requestMethod = r.method) (hu : ¬ UntilClose r (answer x.got.message)) :
    Reads ccfg m (x.response.getD []) fun msg => Gets answer x msg ∧
      (r.Persistent scfg.ord ↔ StaysOpen ccfg.ord msg) :=
  answer_reads_by hs hr hfit hc hx ⟨hm.1, by rw [hm.2]; exact hhead⟩ hu

theorem answer_to_end {scfg ccfg : Cfg} {sm : Msg} {t : TableOrder} (hs : Server scfg sm t) {answer : Msg → Answer}
    {r : Request} (hhead : r.method ≠ b! "HEAD") (hfit : ∀ m, r.Is m → AnswerFits ccfg r (answer m))
    {rs : List Request} {ms : List Msg} (hc : Client ccfg rs ms) {x : Exchange} (hx : Answered scfg.ord t answer r x)
    {m : Msg} (hm : Blank m ∧ m.requestMethod = r.method) (hu : UntilClose r (answer x.got.message)) :
    ReadsToEnd ccfg m (x.response.getD []) fun msg => Gets answer x msg ∧ ¬ StaysOpen ccfg.ord msg := by
  obtain ⟨lc, hl, hcl⟩ := hx.answered
  have hf := hfit _ hx.received
  rw [hcl.2 (untilClose_last hf hu)] at hl
  rw [hl, Option.getD_some]
  unfold AnswerFits at hf
  cases hch : (answer x.got.message).chunks with
  | none => exact absurd hch hu.1
  | some cs =>
    rw [hch] at hf
    intro bufs hcut
    obtain ⟨f1, f2, f3⟩ := hf.old hu.2
    obtain ⟨o, g1, g2, g3, g4, g5, name, g6⟩ := old_answer ccfg hc.isResponse m hm.1 hc.order hc.wholeMessages
      hc.noHandler t hs.table x.got.message _ cs hf.sendable hf.size hf.fits (by rw [← takesChunks_iff hx.received]; exact hu.2)
      (by rw [hm.2]; exact hhead) f1 f2 f3 bufs hcut
    refine ⟨o, g1, g2, g3, g4, ⟨g5.1, g5.2, fun h => by rw [hch] at h; cases h⟩, ?_⟩
    refine close_header_closes _ hc.order _ (by rw [g6]; simp) ?_
    rw [g6]
    intro e he
    rw [List.mem_singleton.1 he]

/-- The readers of the responses to requests that let the connection stay open. -/
theorem open_reads {scfg ccfg : Cfg} {sm : Msg} {t : TableOrder} (hs : Server scfg sm t) {answer : Msg → Answer}
    {all : List Request} {ms : List Msg} (hc : Client ccfg all ms) (rs : List Request)
    (hok : ∀ r ∈ rs, r.Ok scfg) (hhead : ∀ r ∈ rs, r.method ≠ b! "HEAD")
    (hfit : ∀ r ∈ rs, ∀ m, r.Is m → AnswerFits ccfg r (answer m)) (hp : ∀ r ∈ rs, r.Persistent scfg.ord) :
    ∀ (xi : List Exchange) (mi : List Msg), List.Forall₂ (Answered scfg.ord t answer) rs xi →
      List.Forall₂ (fun r m => Blank m ∧ m.requestMethod = r.method) rs mi →
      List.Forall₂ (fun x m => Reads ccfg m (x.response.getD []) fun r => Gets answer x r ∧ StaysOpen ccfg.ord r) xi mi := by
  induction rs with
  | nil => intro xi mi ha hb; cases ha; cases hb; exact .nil
  | cons r rs ih =>
    intro xi mi ha hb
    cases ha with
    | cons a1 a2 =>
      cases hb with
      | cons b1 b2 =>
        refine .cons ?_ (ih (fun r hr => hok r (List.mem_cons_of_mem _ hr)) (fun r hr => hhead r (List.mem_cons_of_mem _ hr))
          (fun r hr => hfit r (List.mem_cons_of_mem _ hr)) (fun r hr => hp r (List.mem_cons_of_mem _ hr)) _ _ a2 b2)
        have := answer_reads hs (hok r (by simp)) (hhead r (by simp)) (hfit r (by simp)) hc a1 b1
          fun hu => untilClose_last (hfit r (by simp) _ a1.received) hu (hp r (by simp))
        refine ⟨this.1, fun tail bufs hcut => ?_⟩
        obtain ⟨o, g1, g2, g3, g4, g5, g6⟩ := this.2 tail bufs hcut
        exact ⟨o, g1, g2, g3, g4, g5, g6.1 (hp r (by simp))⟩

/-- **C65 (partial: no HEAD requests, see `head_breaks_conversation`; no chunks for clients of a later version than 1.x, see
    `final_chunk_stalls`).** Any number of well-formed requests - without body, with a length, in chunks - of which all but the
    last let the connection stay open, sent one after another without waiting and cut into reads in any way; if the last one
    closes the connection, with anything after it. Whatever the handlers answer, and whether each of them sends its answer as a
    whole or in parts: the server receives exactly these requests, in order, and a client that reads what the server has
    sent, cut into reads in any way, gets exactly one response for each request, in the order of the requests, each with
    the status, the headers and the page of the answer to that request. Nothing is left over, and the client's connection
    is to be closed exactly if the last request said so. `e` is what the client reads after all that was sent; it must be the end
    of the connection only if the last answer is sent in parts to a client that does not know of chunks. -/
theorem conversation_partial {scfg ccfg : Cfg} {sm : Msg} {t : TableOrder} (hs : Server scfg sm t)
    (answer : Msg → Answer) (init : List Request) (last : Request) (ms : List Msg) (hc : Client ccfg (init ++ [last]) ms)
    (hok : ∀ r ∈ init ++ [last], r.Ok scfg) (hhead : ∀ r ∈ init ++ [last], r.method ≠ b! "HEAD")
    (hfit : ∀ r ∈ init ++ [last], ∀ m, r.Is m → AnswerFits ccfg r (answer m))
    (hp : ∀ r ∈ init, r.Persistent scfg.ord) (junk : Bytes) (hj : last.Persistent scfg.ord → junk = [])
    (bufs : List Bytes) (hcut : Cuts bufs (((init ++ [last]).map Request.bytes).flatten ++ junk)) (n : Nat) :
    ∃ xs, converse scfg sm t answer (init.length + 1 + n) {} (bufs.map .data) = some xs ∧
      List.Forall₂ (fun r x => x.got.error = false ∧ r.Is x.got.message) (init ++ [last]) xs ∧
      ∀ cbufs e, Cuts cbufs (sent xs) → (∀ m, last.Is m → UntilClose last (answer m) → e.head? = some .error) →
        ∃ gots c rest, collect ccfg ms {} (cbufs.map .data ++ e) = some (gots, c, rest) ∧
          List.Forall₂ (fun x g => g.error = false ∧ Gets answer x g.message) xs gots ∧ pending c = [] ∧
          (c.lifecycle = .close ↔ ¬ last.Persistent scfg.ord) ∧ (rest = e ∨ rest = e.tail) := by
  obtain ⟨xs, h1, h2⟩ := server_side scfg sm hs.blank hs.order hs.isRequest hs.wholeMessages hs.noHandler t answer init last
    hok (fun r hr m hm => fits_suits (hfit r hr m hm)) hp junk hj bufs hcut n
  refine ⟨xs, h1, forall₂_imp (fun _ _ h => ⟨h.noError, h.received⟩) h2, fun cbufs e hcb he => ?_⟩
  obtain ⟨xi, xl, rfl, hxi, hxl⟩ := forall₂_snoc h2
  obtain ⟨mi, ml, rfl, hmi, hml⟩ := forall₂_snoc hc.readers
  have hreads : List.Forall₂ (fun x m => Reads ccfg m (x.response.getD []) fun r => Gets answer x r ∧
      StaysOpen ccfg.ord r) xi mi :=
    open_reads hs hc init (fun r hr => hok r (List.mem_append_left _ hr)) (fun r hr => hhead r (List.mem_append_left _ hr))
      (fun r hr => hfit r (List.mem_append_left _ hr)) hp xi mi hxi hmi
  have hflat : (pending {} ++ cbufs).flatten = (xi.map fun x => x.response.getD []).flatten ++ (xl.response.getD [] ++ []) := by
    rw [show pending {} = [] from rfl, List.nil_append, hcb.flat]
    simp [sent]
  obtain ⟨gots, c1, more, k1, k2, k3, k4, k5⟩ := collect_open ccfg _ _ e xi mi hreads [ml] {} cbufs _ (by intro h; cases h)
    hcb.nonempty hflat
  have hlm : last ∈ init ++ [last] := by simp
  by_cases hu : UntilClose last (answer xl.got.message)
  · obtain ⟨e', rfl⟩ : ∃ e', e = .error :: e' := by
      have := he _ hxl.received hu
      cases e with
      | nil => cases this
      | cons a e' => exact ⟨e', by simp only [List.head?_cons, Option.some.injEq] at this; rw [this]⟩
    rw [List.append_nil] at k4
    obtain ⟨c2, s', rest, g1, ⟨g2, g3⟩, g4, g5⟩ := receive_to_end ccfg ml _ _ (answer_to_end hs (hhead last hlm) (hfit last hlm) hc hxl
      hml hu) (fun r h => h.2) c1 k2 more k3 k4 e'
    refine ⟨gots ++ [⟨false, s'.msg⟩], c2, rest, ?_, forall₂_append k1 (.cons ⟨rfl, g2⟩ .nil), by simp [pending, g4], ?_, ?_⟩
    · rw [k5, collect, g1]
      simp only [if_pos g4, Option.map_some]
    · simp [g4, untilClose_last (hfit last hlm _ hxl.received) hu]
    · exact g5.symm
  obtain ⟨msg, c2, more2, ⟨q1, q2⟩, e1, e2, e0, e3, e4⟩ := collect_one ccfg ml _ _
    (answer_reads hs (hok last hlm) (hhead last hlm) (hfit last hlm) hc hxl hml hu) [] c1 k2 more k3 [] k4 e
  rw [e0 rfl] at e3 e4
  refine ⟨gots ++ [⟨false, msg⟩], c2, e, ?_, forall₂_append k1 (.cons ⟨rfl, q1⟩ .nil), ?_⟩
  · rw [k5]
    by_cases hst : StaysOpen ccfg.ord msg
    · rw [(e3 hst).2.2]; rfl
    · rw [(e4 hst).2]; rfl
  · by_cases hst : StaysOpen ccfg.ord msg
    · obtain ⟨f1, f2, _⟩ := e3 hst
      rw [List.append_nil] at f2
      exact ⟨flatten_nil (pending_ne e1) f2, by simp [f1, q2.2 hst], .inl rfl⟩
    · obtain ⟨f1, _⟩ := e4 hst
      refine ⟨by simp [pending, f1], by simp [f1, q2, hst], .inl rfl⟩

theorem badRequest_fits (cfg : Cfg) (h : (page badRequest).length ≤ cfg.maxContent) : Fits cfg badRequest :=
  ⟨Verif.Props.Responses.builtin_sendable .badRequest, by decide +kernel, h⟩

/-- **C65 (faulty request).** After any number of well-formed requests that let the connection stay open comes something
    that is not a request: the parser fails on it, however it is cut. All the requests before are received and answered;
    the faulty one is answered with the page "400 Bad Request", and the connection is closed: the client gets one response
    for each of the requests and this one, and nothing else. -/
theorem bad_request_partial {scfg ccfg : Cfg} {sm : Msg} {t : TableOrder} (hs : Server scfg sm t)
    (answer : Msg → Answer) (rs : List Request) (ms : List Msg) (hc : Client ccfg rs ms)
    (hok : ∀ r ∈ rs, r.Ok scfg) (hhead : ∀ r ∈ rs, r.method ≠ b! "HEAD")
    (hfit : ∀ r ∈ rs, ∀ m, r.Is m → AnswerFits ccfg r (answer m)) (hp : ∀ r ∈ rs, r.Persistent scfg.ord)
    (faulty : Bytes) (e : Err) (hf : HttpLimits.FailsWith scfg sm faulty e)
    (last : Msg) (hb : Blank last) (hl : last.requestMethod ≠ b! "HEAD") (hmax : (page badRequest).length ≤ ccfg.maxContent)
    (bufs : List Bytes) (hcut : Cuts bufs ((rs.map Request.bytes).flatten ++ faulty)) (n : Nat) :
    ∃ xs x, converse scfg sm t answer (rs.length + (n + 1)) {} (bufs.map .data) = some (xs ++ [x]) ∧
      List.Forall₂ (fun r x => x.got.error = false ∧ r.Is x.got.message) rs xs ∧ x.got.error = true ∧
      ∀ cbufs, Cuts cbufs (sent (xs ++ [x])) → ∃ gots g c, collect ccfg (ms ++ [last]) {} (cbufs.map .data) =
          some (gots ++ [g], c, []) ∧
        List.Forall₂ (fun x g => g.error = false ∧ Gets answer x g.message) xs gots ∧ g.error = false ∧
        Holds g.message 400 (b! "Bad Request") [] (page badRequest) ∧ c.lifecycle = .close := by
  have hcut' : (pending {} ++ bufs).flatten = (rs.map Request.bytes).flatten ++ faulty := by
    rw [show pending {} = [] from rfl, List.nil_append, hcut.flat]
  obtain ⟨xs, c', more, k1, k2, k3, k4, k5⟩ := converse_open scfg sm hs.blank hs.order hs.isRequest hs.wholeMessages
    hs.noHandler t answer rs (n + 1) {} bufs _ hok (fun r hr m hm => fits_suits (hfit r hr m hm)) hp (by intro h; cases h) hcut.nonempty hcut'
  have hne : ∀ b ∈ pending c' ++ more, b ≠ [] := by
    intro b h
    rcases List.mem_append.1 h with h | h
    · exact pending_ne k2 b h
    · exact k3 b h
  obtain ⟨o, ho, o1, o2⟩ := hf _ ⟨k4, hne⟩
  have hrec := receive_feed scfg c' (fresh scfg sm) k2 more k3 []
  rw [outcome] at ho
  cases hq : feed scfg (fresh scfg sm) (pending c' ++ more) with
  | none => rw [hq] at ho; cases ho
  | some q =>
    obtain ⟨rc, s', rest, more'⟩ := q
    rw [hq] at ho hrec
    simp only [Option.map_some, Option.some.injEq] at ho
    subst ho
    simp only [observe] at o1 o2
    subst o1
    simp only [List.append_nil, Option.bind_some, settle, o2, Option.isSome_some] at hrec
    have hone : converse scfg sm t answer (n + 1) c' (more.map .data) =
        some [⟨⟨true, (invalidate s').msg⟩, some (badRequest.writer t (invalidate s').msg .close).wire⟩] := by
      have hec : (invalidate s').ec.isSome = true := by simp [invalidate, o2]
      rw [converse, hrec]
      simp only [respond, hec, Bool.true_or, if_true, Option.map_some]
    refine ⟨xs, _, by rw [k5, hone]; rfl, forall₂_imp (fun _ _ h => ⟨h.noError, h.received⟩) k1, rfl, fun cbufs hcb => ?_⟩
    have hflat : (pending {} ++ cbufs).flatten = (xs.map fun x => x.response.getD []).flatten ++
        ((badRequest.writer t (invalidate s').msg .close).wire ++ []) := by
      rw [show pending {} = [] from rfl, List.nil_append, hcb.flat]
      simp [sent]
    obtain ⟨gots, c1, mr, g1, g2, g3, g4, g5⟩ := collect_open ccfg _ _ [] xs ms
      (open_reads hs hc rs hok hhead hfit hp xs ms k1 hc.readers) [last] {} cbufs _ (by intro h; cases h) hcb.nonempty hflat
    have hfb := badRequest_fits ccfg hmax
    obtain ⟨msg, c2, mr2, ⟨⟨q1, _⟩, _, q2⟩, _, _, e0, _, e4⟩ := collect_one ccfg last _ _
      (response_reads ccfg hc.isResponse last hb hc.order hc.wholeMessages hc.noHandler t hs.table (invalidate s').msg .close _
        hfb.sendable hl hfb.size hfb.fits) [] c1 g2 mr g3 [] g4 []
    obtain ⟨f1, f2⟩ := e4 (q2 rfl)
    refine ⟨gots, ⟨false, msg⟩, c2, ?_, g1, rfl, q1, f1⟩
    rw [List.append_nil] at g5
    rw [g5, f2, e0 rfl]
    rfl

/-! ### Concrete cases -/

/-- A server that answers with the name of the resource; for some resources in parts. -/
def names (m : Msg) : Answer where
  reply := { headers := [(b! "X-Service", b! "names")], writes := [.text (m.resource)] }
  chunks := if m.resource = b! "/b" ∨ m.resource = b! "/d" then some [[.text (b! "name")], [], [.buffer (b! ": ")]] else none

def getA : Request := { method := b! "GET", resource := b! "/a", headers := [(b! "Host", b! "x")], framing := .bare }
def postB : Request :=
  { method := b! "POST", resource := b! "/b", headers := [(b! "Content-Length", b! "5")], framing := .length (b! "hello") }
def postC : Request :=
  { method := b! "POST", resource := b! "/c", query := b! "q=1", headers := [(b! "Transfer-Encoding", b! "chunked")],
    framing := .chunked [b! "some ", b! "text"] }
def getD : Request :=
  { method := b! "GET", resource := b! "/d", minor := 0, headers := [(b! "Connection", b! "close")], framing := .bare }

def scfg : Cfg := { isRequest := true }
def ccfg : Cfg := { isRequest := false }

theorem server_ok : Server scfg {} {} := ⟨rfl, fun l => .refl l, rfl, rfl, ⟨rfl, rfl, rfl, rfl⟩, fun d => .refl d⟩

theorem client_ok : Client ccfg ([getA, postB, postC] ++ [getD])
    [{ requestMethod := b! "GET" }, { requestMethod := b! "POST" }, { requestMethod := b! "POST" }, { requestMethod := b! "GET" }] :=
  ⟨rfl, fun l => .refl l, rfl, rfl, .cons ⟨⟨rfl, rfl, rfl, rfl⟩, rfl⟩ (.cons ⟨⟨rfl, rfl, rfl, rfl⟩, rfl⟩
    (.cons ⟨⟨rfl, rfl, rfl, rfl⟩, rfl⟩ (.cons ⟨⟨rfl, rfl, rfl, rfl⟩, rfl⟩ .nil)))⟩

theorem requests_ok : ∀ r ∈ [getA, postB, postC] ++ [getD], r.Ok scfg := by
  intro r hr
  simp only [List.cons_append, List.nil_append, List.mem_cons, List.not_mem_nil, or_false] at hr
  have hline : ∀ method resource query minor, (method ∈ [b! "GET", b! "POST"]) → resource ∈ [b! "/a", b! "/b", b! "/c", b! "/d"] →
      query ∈ [[], b! "q=1"] → minor ≤ 1 → RequestLineOk method resource query 1 minor := by
    intro method resource query minor h1 h2 h3 h4
    refine ⟨⟨?_, ?_, ?_⟩, ?_, ?_, ?_, ?_, by decide, by omega⟩
    · revert method; decide +kernel
    · revert method; decide +kernel
    · revert method; decide +kernel
    · unfold uriChar; revert resource; decide +kernel
    · revert resource; decide +kernel
    · unfold queryChar; revert query; decide +kernel
    · revert query; decide +kernel
  have hhead : ∀ e ∈ [(b! "Host", b! "x"), (b! "Content-Length", b! "5"), (b! "Transfer-Encoding", b! "chunked"),
      (b! "Connection", b! "close")], HeaderOk e := by
    intro e he
    refine ⟨⟨?_, ?_, ?_⟩, ?_, ?_⟩
    · revert e; decide +kernel
    · revert e; decide +kernel
    · revert e; decide +kernel
    · unfold valueChar; revert e; decide +kernel
    · revert e; decide +kernel
  have hnone : ∀ hs : Dict, hs.find? scfg.ord (b! "Transfer-Encoding") = none → ¬ AnnouncesChunks scfg.ord hs := by
    rintro hs h ⟨v, hv, _⟩
    rw [h] at hv; cases hv
  rcases hr with rfl | rfl | rfl | rfl
  · exact ⟨hline _ _ _ _ (by decide +kernel) (by decide +kernel) (by decide +kernel) (by decide), fun e he => hhead e (by simp_all [getA]),
      ⟨hnone _ (by decide +kernel), by decide +kernel⟩, by decide +kernel, by decide +kernel⟩
  · exact ⟨hline _ _ _ _ (by decide +kernel) (by decide +kernel) (by decide +kernel) (by decide), fun e he => hhead e (by simp_all [postB]),
      ⟨hnone _ (by decide +kernel), [], b! "5", [], by decide +kernel, by decide +kernel, by decide +kernel, by decide +kernel,
        by decide +kernel⟩, by decide +kernel, by decide +kernel⟩
  · exact ⟨hline _ _ _ _ (by decide +kernel) (by decide +kernel) (by decide +kernel) (by decide), fun e he => hhead e (by simp_all [postC]),
      ⟨⟨b! "chunked", by decide +kernel, [], [], by decide +kernel⟩, by decide +kernel⟩, by decide +kernel, by decide +kernel⟩
  · exact ⟨hline _ _ _ _ (by decide +kernel) (by decide +kernel) (by decide +kernel) (by decide), fun e he => hhead e (by simp_all [getD]),
      ⟨hnone _ (by decide +kernel), by decide +kernel⟩, by decide +kernel, by decide +kernel⟩

/-- The answers of `names` fit, for the requests above. -/
theorem names_fits : ∀ r ∈ [getA, postB, postC] ++ [getD], ∀ m, r.Is m → AnswerFits ccfg r (names m) := by
  intro r hr m hm
  have hres : m.resource = r.resource := hm.line.2.1
  have hlen : r.resource.length = 2 :=
    (by decide +kernel : ∀ r ∈ [getA, postB, postC] ++ [getD], r.resource.length = 2) r hr
  have hmaj : r.major = 1 := (by decide +kernel : ∀ r ∈ [getA, postB, postC] ++ [getD], r.major = 1) r hr
  have hhs : ∀ e ∈ [(b! "X-Service", b! "names")], HeaderOk e ∧ iequals e.1 (b! "Transfer-Encoding") = false := by
    intro e he
    rw [List.mem_singleton] at he
    subst he
    exact ⟨⟨⟨by decide +kernel, by decide +kernel, by decide +kernel⟩, by unfold valueChar; decide +kernel, by decide +kernel⟩,
      by decide +kernel⟩
  have hsend : Sendable (names m).reply := Verif.Props.Responses.sendable_of 200 (b! "OK") rfl rfl (by decide +kernel)
    ((Verif.Props.Responses.onlyWrites_iff _).2 rfl) hhs
  by_cases hch : m.resource = b! "/b" ∨ m.resource = b! "/d"
  · have hc : (names m).chunks = some [[.text (b! "name")], [], [.buffer (b! ": ")]] := if_pos hch
    unfold AnswerFits
    rw [hc]
    have hb : (body (names m)).length = 8 := by
      unfold body
      rw [hc]
      simp [names, hres, hlen, Verif.Spec.Writer.written]
    refine ⟨⟨hc, hsend.code, hsend.text, hsend.textSize, hsend.headers, ?_, hsend.writes⟩, hmaj, fun _ => ⟨?_, ?_, ?_⟩, by omega, ?_⟩
    · intro c hc
      refine (Verif.Props.Responses.onlyWrites_iff _).2 ?_
      simp only [List.mem_cons, List.not_mem_nil, or_false] at hc
      rcases hc with rfl | rfl | rfl <;> rfl
    · rintro (h | h)
      · exact absurd h (by decide +kernel)
      · exact absurd h (by show ¬ (_ ∨ _ : Prop); simp [names])
    · show matching [(b! "X-Service", b! "names")] _ = []
      decide +kernel
    · show matching [(b! "X-Service", b! "names")] _ = []
      decide +kernel
    · rw [hb]; decide +kernel
  · have hc : (names m).chunks = none := if_neg hch
    unfold AnswerFits
    rw [hc]
    have hpage : page (names m).reply = r.resource := by
      simp [page, names, hres, Verif.Spec.Writer.written]
    exact ⟨hsend, by rw [hpage, hlen]; decide, by rw [hpage, hlen]; decide +kernel⟩

/-- The theorem applies: three requests, one that closes, and more bytes after it, in two pieces. -/
example : ∃ xs, converse scfg {} {} names 5 {} (([(([getA, postB, postC] ++ [getD]).map Request.bytes).flatten, b! "GET"]).map .data) =
    some xs ∧ xs.length = 4 := by
  obtain ⟨xs, h, h2, _⟩ := conversation_partial server_ok names [getA, postB, postC] getD _ client_ok requests_ok
    (by decide +kernel) names_fits
    (by
      intro r hr
      simp only [List.mem_cons, List.not_mem_nil, or_false] at hr
      unfold Request.Persistent
      revert r; simp only [forall_eq_or_imp, forall_eq]; decide +kernel)
    (b! "GET") (by intro h; exact absurd h.2 (by decide +kernel))
    [(([getA, postB, postC] ++ [getD]).map Request.bytes).flatten, b! "GET"] ⟨by simp, by decide +kernel⟩ 1
  exact ⟨xs, h, (forall₂_length h2).symm⟩

/-- What the client has in the end, for the server `names` and requests given by their text. -/
def talk (methods : List Bytes) (stream : Bytes) : Option (List (Bool × Nat × Bytes) × Bytes) :=
  (converse scfg {} {} names 9 {} [.data stream]).bind fun xs =>
    (collect ccfg (methods.map fun m => { requestMethod := m }) {} [.data (sent xs), .error]).map fun r =>
      (r.1.map fun g => (g.error, g.message.statusCode, g.message.content.filterMap id), (pending r.2.1).flatten)

def pipelined : Bytes := b! "GET /a HTTP/1.1\r\n\r\nPOST /b HTTP/1.1\r\nContent-Length: 1\r\n\r\nxGET /c HTTP/1.1\r\n\r\n"

example : talk [b! "GET", b! "POST", b! "GET"] pipelined =
    some ([(false, 200, b! "/a"), (false, 200, b! "name: /b"), (false, 200, b! "/c")], []) := by decide +kernel

/-- With an answer in parts for an old client at the end. -/
example : talk [b! "GET", b! "POST", b! "GET", b! "GET"] (pipelined ++ b! "GET /d HTTP/1.0\r\n\r\n") =
    some ([(false, 200, b! "/a"), (false, 200, b! "name: /b"), (false, 200, b! "/c"), (false, 200, b! "name: /d")], []) := by
  decide +kernel

/-- A client that says it is newer than HTTP/1.x is not given chunks, and not all of the calls close the connection: after
    `send_final_chunk` alone it cannot find the end of the answer, and waits for it (until the server's next answers have
    become part of the page). -/
theorem final_chunk_stalls :
    (converse scfg {} {} (fun m => { reply := { writes := [.text m.resource] }, chunks := some [] }) 9 {}
      [.data (b! "GET /a HTTP/2.0\r\n\r\nGET /b HTTP/2.0\r\n\r\n")]).bind (fun xs =>
        (collect ccfg [{ requestMethod := b! "GET" }, { requestMethod := b! "GET" }] {} [.data (sent xs)]).map
          fun r => (sent xs, r.1)) =
    some (b! "HTTP/1.1 200 OK\r\nConnection: Keep-Alive\r\n\r\n/aHTTP/1.1 200 OK\r\nConnection: Keep-Alive\r\n\r\n/b", []) := by
  decide +kernel

def headFirst : Bytes := b! "HEAD /a HTTP/1.1\r\n\r\nGET /b HTTP/1.1\r\n\r\n"

/-- The full property is violated for HEAD requests: the page is sent, so the client takes it for the beginning of the
    next response; it fails, and the answer to the next request is lost. -/
theorem head_breaks_conversation : talk [b! "HEAD", b! "GET"] headFirst = some ([(false, 200, []), (true, 200, [])], []) := by
  decide +kernel

/-- A stream that is not a request. -/
def garbage : Bytes := b! "GET\n\r"

theorem garbage_fails : ∃ e, HttpLimits.FailsWith scfg {} garbage e := by
  have h : (outcome scfg (fresh scfg {}) [garbage]).map (fun o => (o.result, o.error.isSome)) = some (.no, true) := by
    decide +kernel
  cases ho : outcome scfg (fresh scfg {}) [garbage] with
  | none => rw [ho] at h; cases h
  | some o =>
    rw [ho] at h
    simp only [Option.map_some, Option.some.injEq, Prod.mk.injEq] at h
    obtain ⟨e, he⟩ := Option.isSome_iff_exists.1 h.2
    refine ⟨e, fun bufs hcut => ⟨o, ?_, h.1, he⟩⟩
    rw [outcome_cuts scfg _ hcut (by decide +kernel), ho]

example : (talk [b! "GET", b! "GET"] (b! "GET /a HTTP/1.1\r\n\r\n" ++ garbage)).map (fun r => r.1.map fun g => (g.1, g.2.1)) =
    some [(false, 200), (false, 400)] := by decide +kernel

end Verif.Props.Conversation
