import Verif.Spec.Blocking
import Verif.Lemmas.HttpErrors
import Verif.Props.Reader
import Verif.Props.HttpAccounting
/-
C101. Receiving messages with blocking calls.
-/
namespace Verif.Props.Blocking
open Verif Verif.Http Verif.Reader Verif.Props.Reader Verif.Props.HttpBody
open Verif.Props.HttpSegmentation
open Verif.Writer (Lifecycle)

/-- One buffer. -/
private theorem step_agree (cfg : Cfg) (c : Conn) (s : S) (hec : s.ec = none) (buf : Bytes) :
    ∃ c' s' st, syncStep cfg c s buf = some (c', s', st) ∧ ∃ c'' s'', consume cfg { c with lifecycle := .close } s buf = some (c'', s'', st) ∧
      (∀ more, Agree c (c', s', st, more) (c'', s'', st, more)) ∧ (st = .waiting → s'.ec = none ∧ c'' = { c with lifecycle := .close }) := by
  obtain ⟨⟨rc, s1, rest⟩, hp⟩ := parse_total cfg s buf
  have he := parse_ec hp
  unfold syncStep consume
  rw [hp]
  cases rc with
  | more =>
    refine ⟨_, _, _, rfl, _, _, rfl, fun more => ⟨rfl, rfl, fun h => (by cases h), fun h => (by cases h), fun _ => ⟨rfl, rfl⟩⟩,
      fun _ => ⟨(he.2 (by simp)).trans hec, rfl⟩⟩
  | no =>
    have h1 : s1.ec.isSome = true := he.1 rfl
    refine ⟨_, _, _, rfl, _, _, rfl, fun more => ⟨rfl, rfl, fun h => ?_, fun _ => ⟨rfl, rfl⟩, fun h => (by cases h)⟩, fun h => (by cases h)⟩
    simp [h1] at h
  | yes =>
    have h1 : s1.ec.isSome = false := by rw [he.2 (by simp), hec]; rfl
    refine ⟨_, _, _, rfl, _, _, rfl, fun more => ⟨rfl, rfl, fun _ => ?_, fun h => ?_, fun h => (by cases h)⟩, fun h => (by cases h)⟩
    · cases hk : s1.msg.checkKeepAlive cfg.ord <;> cases hr : rest <;> simp [afterMessage, hk]
    · simp [h1] at h

private theorem loop_agree (cfg : Cfg) (c : Conn) (reads : List Read) : ∀ (s : S) (b : UInt8) (bs : Bytes), s.ec = none → Read.data [] ∉ reads →
    ∃ a d, syncLoop cfg c s (b :: bs) reads = some a ∧ readMore cfg { c with lifecycle := .close } s (.data (b :: bs) :: reads) = some d ∧
      Agree c a d := by
  induction reads with
  | nil =>
    intro s b bs hec _
    obtain ⟨c', s', st, h1, c'', s'', h2, h3, h4⟩ := step_agree cfg c s hec (b :: bs)
    rw [syncLoop, h1, readMore, h2]
    cases st with
    | waiting => exact ⟨_, _, rfl, rfl, h3 []⟩
    | done e => exact ⟨_, _, rfl, rfl, h3 []⟩
  | cons r reads ih =>
    intro s b bs hec hne
    obtain ⟨c', s', st, h1, c'', s'', h2, h3, h4⟩ := step_agree cfg c s hec (b :: bs)
    rw [syncLoop, h1, readMore, h2]
    cases st with
    | done e => exact ⟨_, _, rfl, rfl, h3 (r :: reads)⟩
    | waiting =>
      obtain ⟨h5, h6⟩ := h4 rfl
      obtain ⟨h7, h8⟩ := (h3 []).waits rfl
      simp only at h7 h8
      subst h6 h7 h8
      cases r with
      | data x =>
        cases x with
        | nil => simp at hne
        | cons x xs => exact ih s' x xs h5 (fun h => hne (List.mem_cons_of_mem _ h))
      | error =>
        refine ⟨_, _, rfl, rfl, ?_⟩
        unfold syncEof
        cases hq : (checkPrematureEof cfg s').1 with
        | false =>
          refine ⟨rfl, rfl, fun _ => ⟨rfl, rfl, ?_⟩, fun h => (by cases h), fun h => (by cases h)⟩
          intro h; exact absurd rfl h
        | true => exact ⟨rfl, rfl, fun h => (by cases h), fun _ => ⟨rfl, rfl⟩, fun h => (by cases h)⟩

/-- **C101, a call.** Whatever the socket delivers, cut in any way and ended by an error at any point: a blocking call does what a
    reader does with the same connection. -/
theorem same_as_reader_partial (cfg : Cfg) (c : Conn) (hc : Ok c) (m : Msg) (reads : List Read) (hr : Read.data [] ∉ reads) :
    ∃ a b, syncReceive cfg c m reads = some a ∧ receive cfg c (fresh cfg (m.clear cfg.isRequest)) reads = some b ∧ Agree c a b := by
  unfold syncReceive
  rw [receive_eq cfg c _ reads hc, pending]
  by_cases h : c.lifecycle = .pipelined
  · rw [if_pos h, if_pos h]
    obtain ⟨b, bs, hb⟩ := List.exists_cons_of_ne_nil (hc h)
    have := loop_agree cfg c reads (fresh cfg (m.clear cfg.isRequest)) b bs rfl hr
    rw [← hb] at this
    exact this
  · rw [if_neg h, if_neg h]
    cases reads with
    | nil => exact ⟨_, _, rfl, rfl, rfl, rfl, fun h => (by cases h), fun h => (by cases h), fun _ => ⟨rfl, rfl⟩⟩
    | cons r reads =>
      cases r with
      | error =>
        refine ⟨_, _, rfl, rfl, ?_, rfl, ?_, ?_, ?_⟩
        · rfl
        · intro h; cases h
        · intro _; exact ⟨rfl, rfl⟩
        · intro h; cases h
      | data x =>
        cases x with
        | nil => simp at hr
        | cons b bs => exact loop_agree cfg c reads (fresh cfg (m.clear cfg.isRequest)) b bs rfl (fun h => hr (List.mem_cons_of_mem _ h))

/-- The connection a reader leaves is fit for the next one. -/
private theorem readMore_ok (cfg : Cfg) (reads : List Read) : ∀ {c : Conn} {s : S} {c' : Conn} {s' : S} {st : Status} {more : List Read},
    c.lifecycle = .close → readMore cfg c s reads = some (c', s', st, more) → Ok c' ∧ more <:+ reads := by
  induction reads with
  | nil =>
    intro c s c' s' st more hc h
    cases h
    exact ⟨fun h => (by rw [hc] at h; cases h), List.suffix_refl _⟩
  | cons r reads ih =>
    intro c s c' s' st more hc h
    cases r with
    | error => cases h; exact ⟨fun h => (by cases h), List.suffix_cons _ _⟩
    | data x =>
      cases x with
      | nil => cases h; exact ⟨fun h => (by rw [hc] at h; cases h), List.suffix_cons _ _⟩
      | cons b bs =>
        rw [readMore, consume] at h
        obtain ⟨⟨rc, s1, rest⟩, hp⟩ := parse_total cfg s (b :: bs)
        rw [hp] at h
        cases rc with
        | more =>
          have := ih hc h
          exact ⟨this.1, this.2.trans (List.suffix_cons _ _)⟩
        | no => cases h; exact ⟨fun h => (by cases h), List.suffix_cons _ _⟩
        | yes => cases h; exact ⟨(afterMessage_spec cfg.ord c _ rest).2.2.2.2, List.suffix_cons _ _⟩

private theorem readMore_suffix (cfg : Cfg) (c : Conn) (hc : Ok c) (s : S) (reads : List Read) {c' : Conn} {s' : S} {st : Status} {more : List Read}
    (h : receive cfg c s reads = some (c', s', st, more)) : Ok c' ∧ (∀ r ∈ more, r ∈ (pending c).map .data ++ reads) := by
  rw [receive_eq cfg c s reads hc] at h
  have := readMore_ok cfg _ rfl h
  exact ⟨this.1, fun r hr => this.2.mem hr⟩

/-- A reader that finishes with an error closes the connection. -/
private theorem readMore_close (cfg : Cfg) (reads : List Read) : ∀ {c : Conn} {s : S} {c' : Conn} {s' : S} {more : List Read},
    c.lifecycle = .close → s.ec = none → readMore cfg c s reads = some (c', s', .done true, more) → c'.lifecycle = .close := by
  induction reads with
  | nil => intro c s c' s' more _ _ h; cases h
  | cons r reads ih =>
    intro c s c' s' more hc hs h
    cases r with
    | error => simp only [readMore, Option.some.injEq, Prod.mk.injEq] at h; rw [← h.1]
    | data x =>
      cases x with
      | nil => cases h; exact hc
      | cons b bs =>
        rw [readMore, consume] at h
        obtain ⟨⟨rc, s1, rest⟩, hp⟩ := parse_total cfg s (b :: bs)
        rw [hp] at h
        have he := parse_ec hp
        cases rc with
        | more => exact ih hc ((he.2 (by simp)).trans hs) h
        | no => simp only [Option.some.injEq, Prod.mk.injEq] at h; rw [← h.1]
        | yes =>
          have h1 : s1.ec.isSome = false := by rw [he.2 (by simp), hs]; rfl
          simp [h1] at h

/-- **C101, a conversation.** A program that receives message after message with blocking calls gets what one that uses readers
    gets: the same messages in the same order, and an error at the same place. -/
theorem calls_same_partial (cfg : Cfg) (m : Msg) : ∀ (n : Nat) (c : Conn), Ok c → ∀ reads : List Read, Read.data [] ∉ reads →
    calls cfg m n c reads = (serve cfg (m.clear cfg.isRequest) n c reads).map (List.map told) := by
  intro n
  induction n with
  | zero => intro c _ reads _; rfl
  | succ n ih =>
    intro c hc reads hr
    obtain ⟨⟨ca, sa, sta, ma⟩, ⟨cb, sb, stb, mb⟩, h1, h2, h3⟩ := same_as_reader_partial cfg c hc m reads hr
    obtain ⟨e1, e2, e3, e4, e5⟩ := h3
    simp only at e1 e2 e3 e4 e5
    subst e1 e2
    obtain ⟨ho, hs⟩ := readMore_suffix cfg c hc _ reads h2
    rw [calls, h1, serve, h2]
    cases sta with
    | waiting => rfl
    | done e =>
      cases e with
      | true =>
        have hl : cb.lifecycle = .close := by
          rw [receive_eq cfg c _ reads hc] at h2
          exact readMore_close cfg _ rfl rfl h2
        simp only
        rw [if_pos hl]
        simp [told]
      | false =>
        obtain ⟨q1, q2, q3⟩ := e3 rfl
        subst q1
        have hn : Read.data [] ∉ ma := by
          intro hm
          rcases List.mem_append.1 (hs _ hm) with h | h
          · obtain ⟨x, hx, hxe⟩ := List.mem_map.1 h
            cases hxe
            exact pending_ne hc [] hx rfl
          · exact hr h
        simp only
        by_cases hl : ca.lifecycle = .close
        · rw [if_pos hl, if_pos (q2 ▸ hl)]; simp [told]
        · have q := q3 hl
          subst q
          rw [if_neg hl, if_neg hl, ih ca ho ma hn]
          cases serve cfg (m.clear cfg.isRequest) n ca ma <;> simp [told]

/-- **C101, well-formed messages.** Any number of well-formed messages that let the connection stay open, sent one after another and
    cut into reads in any way: blocking calls receive every one, in order, intact, without an error, and nothing else. -/
theorem calls_receive_all (cfg : Cfg) (m : Msg) (hh : cfg.handler = false) (ws : List Wire) (hok : ∀ w ∈ ws, w.Ok cfg (m.clear cfg.isRequest))
    (hp : ∀ w ∈ ws, w.Persistent cfg.ord) (bufs : List Bytes) (hcut : Cuts bufs (ws.map Wire.bytes).flatten) (n : Nat) :
    ∃ gots, calls cfg m (ws.length + n) {} (bufs.map .data) = some (gots.map told) ∧ List.Forall₂ (Received cfg) ws gots := by
  obtain ⟨gots, h1, h2⟩ := all_received cfg (m.clear cfg.isRequest) hh ws hok hp bufs hcut n
  refine ⟨gots, ?_, h2⟩
  rw [calls_same_partial cfg m _ {} (fun h => by cases h) _ ?_, h1]
  · rfl
  · intro h
    obtain ⟨x, hx, hxe⟩ := List.mem_map.1 h
    cases hxe
    exact hcut.nonempty [] hx rfl

private theorem loop_yes (cfg : Cfg) (c : Conn) (tail : List Read) (bufs : List Bytes) : ∀ (s : S) (b : Bytes) {s' : S} {rest : Bytes} {more : List Bytes},
    (∀ b ∈ bufs, b ≠ []) → feed cfg s (b :: bufs) = some (.yes, s', rest, more) →
    syncLoop cfg c s b (bufs.map .data ++ tail) = some (if s'.msg.checkKeepAlive cfg.ord then afterMessage cfg.ord c s'.msg rest
      else { lifecycle := .close, saved := if cfg.headersOnly then rest else c.saved }, s', .done s'.ec.isSome, more.map .data ++ tail) := by
  induction bufs with
  | nil =>
    intro s b s' rest more _ h
    rw [feed] at h
    obtain ⟨⟨rc, s1, rest1⟩, hp⟩ := parse_total cfg s b
    rw [hp] at h
    cases rc with
    | more => simp [feed] at h
    | no => cases h
    | yes =>
      cases h
      cases tail <;> simp [syncLoop, syncStep, hp]
  | cons x bufs ih =>
    intro s b s' rest more hb h
    rw [feed] at h
    obtain ⟨⟨rc, s1, rest1⟩, hp⟩ := parse_total cfg s b
    rw [hp] at h
    rw [List.map_cons, List.cons_append, syncLoop]
    cases rc with
    | more =>
      obtain ⟨y, ys, rfl⟩ := List.exists_cons_of_ne_nil (hb x (by simp))
      have hst : syncStep cfg c s b = some (c, s1, .waiting) := by rw [syncStep, hp]
      rw [hst]
      exact ih s1 (y :: ys) (fun b hm => hb b (List.mem_cons_of_mem _ hm)) h
    | no => cases h
    | yes =>
      cases h
      simp [syncStep, hp]

/-- **C101, one complete message.** If the parser, fed what was left on the connection and the buffers the socket delivers, completes
    a message in one of them with `rest` left in it, the call returns it without an error, having read no further buffer. The number
    it returns is the number of bytes of the message; the connection is marked as by a reader, and if it stays open or only the
    headers were asked for, the rest is kept for the next call. -/
theorem call_returns (cfg : Cfg) (c : Conn) (m : Msg) (s' : S) (bufs : List Bytes) (hb : ∀ b ∈ bufs, b ≠ []) (tail : List Read)
    (rest : Bytes) (more : List Bytes) (h : feed cfg (fresh cfg (m.clear cfg.isRequest)) (pending c ++ bufs) = some (.yes, s', rest, more)) :
    ∃ c', syncReceive cfg c m (bufs.map .data ++ tail) = some (c', s', .done false, more.map .data ++ tail) ∧
      (∃ taken, (pending c ++ bufs).flatten = taken ++ (rest ++ more.flatten) ∧ s'.totalRead = taken.length) ∧
      (c'.lifecycle = .close ↔ ¬ StaysOpen cfg.ord s'.msg) ∧
      (c'.lifecycle = .keepAlive ↔ StaysOpen cfg.ord s'.msg ∧ rest = []) ∧
      (c'.lifecycle = .pipelined ↔ StaysOpen cfg.ord s'.msg ∧ rest ≠ []) ∧
      (c'.lifecycle = .pipelined → c'.saved = rest) ∧ (cfg.headersOnly = true → c'.lifecycle ≠ .keepAlive → c'.saved = rest) := by
  have hec : s'.ec.isSome = false := by rw [(feed_ec _ h).2 (by simp)]; rfl
  have hl : syncReceive cfg c m (bufs.map .data ++ tail) = some (if s'.msg.checkKeepAlive cfg.ord then afterMessage cfg.ord c s'.msg rest
      else { lifecycle := .close, saved := if cfg.headersOnly then rest else c.saved }, s', .done s'.ec.isSome, more.map .data ++ tail) := by
    unfold syncReceive
    unfold pending at h
    by_cases hp : c.lifecycle = .pipelined
    · rw [if_pos hp] at h ⊢
      exact loop_yes cfg c tail bufs _ c.saved hb h
    · rw [if_neg hp] at h ⊢
      cases bufs with
      | nil => simp [feed] at h
      | cons b bufs => exact loop_yes cfg c tail bufs _ b (fun x hx => hb x (List.mem_cons_of_mem _ hx)) h
  rw [hec] at hl
  refine ⟨_, hl, Verif.Props.HttpAccounting.total_of_message_partial h (by simp), ?_⟩
  obtain ⟨g1, g2, g3, g4, _⟩ := afterMessage_spec cfg.ord c s'.msg rest
  by_cases hk : StaysOpen cfg.ord s'.msg
  · rw [if_pos ((checkKeepAlive_iff _ _).2 hk)]
    have hs : (afterMessage cfg.ord c s'.msg rest).lifecycle = .pipelined → (afterMessage cfg.ord c s'.msg rest).saved = rest := by
      intro hp
      have := g4 hk
      rw [pending, if_pos hp] at this
      simpa using this
    refine ⟨g1, g2, g3, hs, fun _ hne => ?_⟩
    cases hx : (afterMessage cfg.ord c s'.msg rest).lifecycle with
    | close => exact absurd hk (g1.1 hx)
    | keepAlive => exact absurd hx hne
    | pipelined => exact hs hx
  · rw [if_neg (by rw [checkKeepAlive_iff]; exact hk)]
    simp +contextual [hk]

private theorem loop_more (cfg : Cfg) (c : Conn) (tail : List Read) (bufs : List Bytes) : ∀ (s : S) (b : Bytes) {s' : S} {rest : Bytes} {more : List Bytes},
    (∀ b ∈ bufs, b ≠ []) → feed cfg s (b :: bufs) = some (.more, s', rest, more) →
    syncLoop cfg c s b (bufs.map .data ++ .error :: tail) = some ((syncEof cfg c s').1, (syncEof cfg c s').2.1, (syncEof cfg c s').2.2, tail) := by
  induction bufs with
  | nil =>
    intro s b s' rest more _ h
    rw [feed] at h
    obtain ⟨⟨rc, s1, rest1⟩, hp⟩ := parse_total cfg s b
    rw [hp] at h
    cases rc with
    | more =>
      simp only [feed, Option.some.injEq, Prod.mk.injEq, true_and] at h
      rw [← h.1]
      have hst : syncStep cfg c s b = some (c, s1, .waiting) := by rw [syncStep, hp]
      rw [List.map_nil, List.nil_append, syncLoop, hst]
    | no => cases h
    | yes => cases h
  | cons x bufs ih =>
    intro s b s' rest more hb h
    rw [feed] at h
    obtain ⟨⟨rc, s1, rest1⟩, hp⟩ := parse_total cfg s b
    rw [hp] at h
    rw [List.map_cons, List.cons_append, syncLoop]
    cases rc with
    | more =>
      obtain ⟨y, ys, rfl⟩ := List.exists_cons_of_ne_nil (hb x (by simp))
      have hst : syncStep cfg c s b = some (c, s1, .waiting) := by rw [syncStep, hp]
      rw [hst]
      exact ih s1 (y :: ys) (fun b hm => hb b (List.mem_cons_of_mem _ hm)) h
    | no => cases h
    | yes => cases h

/-- **C101, the end of the connection.** The socket delivers buffers in which the message is not complete, and then an error, which
    may be the end of the stream: the call returns, and there is no error exactly if the message is one whose end is the end of
    the connection and its head was complete. Then the message is finished and the connection is to be closed; otherwise the connection is left
    alone. -/
theorem call_ends (cfg : Cfg) (c : Conn) (m : Msg) (s : S) (bufs : List Bytes) (hb : ∀ b ∈ bufs, b ≠ []) (tail : List Read)
    (h : feed cfg (fresh cfg (m.clear cfg.isRequest)) (pending c ++ bufs) = some (.more, s, [], [])) :
    ∃ c' s', syncReceive cfg c m (bufs.map .data ++ .error :: tail) = some (c', s', .done (s.ms != .noLength), tail) ∧
      (s.ms = .noLength → c'.lifecycle = .close) ∧ (s.ms ≠ .noLength → c' = c ∧ s'.msg = s.msg) := by
  have hend : ∀ x : S, (x.ms = .noLength → syncEof cfg c x = (({ lifecycle := .close, saved := if cfg.headersOnly then [] else c.saved } : Conn),
      (checkPrematureEof cfg x).2, Status.done false)) ∧ (x.ms ≠ .noLength → syncEof cfg c x = (c, x, .done true)) := by
    intro x
    constructor <;> intro hx <;> simp [syncEof, checkPrematureEof, hx]
  have fin : ∀ r, syncReceive cfg c m (bufs.map .data ++ .error :: tail) = some r →
      r = ((syncEof cfg c s).1, (syncEof cfg c s).2.1, (syncEof cfg c s).2.2, tail) → ∃ c' s',
      syncReceive cfg c m (bufs.map .data ++ .error :: tail) = some (c', s', .done (s.ms != .noLength), tail) ∧
      (s.ms = .noLength → c'.lifecycle = .close) ∧ (s.ms ≠ .noLength → c' = c ∧ s'.msg = s.msg) := by
    intro r h1 h2
    rw [h1, h2]
    by_cases hx : s.ms = .noLength
    · rw [(hend s).1 hx]
      exact ⟨_, _, by rw [hx]; rfl, fun _ => rfl, fun hn => absurd hx hn⟩
    · rw [(hend s).2 hx]
      refine ⟨_, _, ?_, fun hn => absurd hn hx, fun _ => ⟨rfl, rfl⟩⟩
      rw [show (s.ms != .noLength) = true by simpa using hx]
  unfold pending at h
  by_cases hp : c.lifecycle = .pipelined
  · rw [if_pos hp] at h
    refine fin _ ?_ rfl
    unfold syncReceive
    rw [if_pos hp]
    exact loop_more cfg c tail bufs _ c.saved hb h
  · rw [if_neg hp] at h
    cases bufs with
    | nil =>
      simp only [feed, List.append_nil, Option.some.injEq, Prod.mk.injEq, true_and] at h
      refine fin _ ?_ rfl
      have hms : s.ms ≠ .noLength := by rw [← h.1]; intro e; cases e
      unfold syncReceive
      rw [(hend s).2 hms, if_neg hp, ← h.1]
      rfl
    | cons b bufs =>
      refine fin _ ?_ rfl
      unfold syncReceive
      rw [if_neg hp]
      exact loop_more cfg c tail bufs _ b (fun x hx => hb x (List.mem_cons_of_mem _ hx)) h

/-! ### The answer to a HEAD request -/

private theorem feed_of_outcome {cfg : Cfg} {s : S} {b : Bytes} {o : Outcome} (ho : outcome cfg s [b] = some o) (hy : o.result = .yes) :
    ∃ s', feed cfg s [b] = some (.yes, s', o.unread, []) ∧ s'.msg = o.message ∧ s'.ec = o.error := by
  unfold outcome at ho
  rw [Option.map_eq_some_iff] at ho
  obtain ⟨⟨rc, s', rest, more⟩, hf, rfl⟩ := ho
  obtain rfl : rc = .yes := hy
  have hm : more = [] := by
    rw [feed] at hf
    cases hp : parse cfg s b with
    | none => rw [hp] at hf; cases hf
    | some x =>
      obtain ⟨rc1, s1, rest1⟩ := x
      rw [hp] at hf
      cases rc1 <;> simp_all [feed]
  subst hm
  exact ⟨s', by rw [hf]; simp [observe], rfl, rfl⟩

/-- **Finding.** The object that receives the answer to a HEAD request is told so (`response(request)`), and a reader ends the
    answer with its head. The blocking call first clears the object, forgets the method, and takes the bytes that follow (the
    next answer) for the content announced by the head. -/
theorem head_answer_violated (cfg : Cfg) (m : Msg) (hm : Blank m) (hrm : m.requestMethod = b! "HEAD") (ord : OrderOk cfg.ord)
    (hreq : cfg.isRequest = false) (hho : cfg.headersOnly = false) (hhand : cfg.handler = false) (h : Head) (hs : Dict)
    (hr : h.isRequest = false) (hok : h.Ok) (hhs : ∀ e ∈ hs, HeaderOk e) (hc : ¬ AnnouncesChunks cfg.ord hs) (hb : ¬ h.Bodyless [])
    (next tail : Bytes) (hl : AnnouncesLength cfg.ord hs next.length) (hn : next.length + 1 < 2 ^ 64) (hmax : next.length ≤ cfg.maxContent) :
    (∃ c s, receive cfg {} (fresh cfg m) [.data (wireHead h hs ++ next ++ tail)] = some (c, s, .done false, []) ∧
      h.StoredIn s.msg ∧ s.msg.content = []) ∧
    (∃ c s, syncReceive cfg {} m [.data (wireHead h hs ++ next ++ tail)] = some (c, s, .done false, []) ∧
      h.StoredIn s.msg ∧ s.msg.content = next.map some) := by
  have hcut : Cuts [wireHead h hs ++ next ++ tail] (wireHead h hs ++ next ++ tail) := ⟨by simp, by simp [wireHead_ne_nil]⟩
  have hbl : h.Bodyless m.requestMethod := by
    cases h with
    | request => cases hr
    | response => exact .inl hrm
  constructor
  · obtain ⟨o, ho, hcomp, hcon, _⟩ := bodyless_complete_partial cfg m h hs ⟨hm, ord, by rw [hreq, hr], hok, hhs, hho⟩ hc hbl (next ++ tail)
      [wireHead h hs ++ next ++ tail] (by rw [← List.append_assoc]; exact hcut)
    obtain ⟨s', hf, hmsg, hec⟩ := feed_of_outcome ho hcomp.result
    obtain ⟨rest, hp⟩ : ∃ rest, parse cfg (fresh cfg m) (wireHead h hs ++ next ++ tail) = some (.yes, s', rest) := by
      rw [feed] at hf
      cases hp : parse cfg (fresh cfg m) (wireHead h hs ++ next ++ tail) with
      | none => rw [hp] at hf; cases hf
      | some x =>
        obtain ⟨rc1, s1, rest1⟩ := x
        rw [hp] at hf
        cases rc1 <;> simp_all [feed]
    have hs' : s'.ec.isSome = false := by rw [hec, hcomp.error]; rfl
    unfold receive
    rw [if_neg (by simp)]
    have hne : wireHead h hs ++ next ++ tail ≠ [] := by simp [wireHead_ne_nil]
    generalize wireHead h hs ++ next ++ tail = d at hp hne
    obtain ⟨b, bs, rfl⟩ := List.exists_cons_of_ne_nil hne
    rw [readMore]
    unfold consume
    rw [hp]
    simp only [hs']
    exact ⟨_, _, rfl, by rw [hmsg]; exact hcomp.stored, by rw [hmsg]; exact hcon⟩
  · obtain ⟨o, ho, hcomp, hcon, _⟩ := content_length_exact cfg (m.clear cfg.isRequest) h hs
      ⟨by cases cfg.isRequest <;> exact ⟨rfl, rfl, rfl, rfl⟩, ord, by rw [hreq, hr], hok, hhs, hho⟩ hhand hc
      (by rw [hreq]; exact hb) next tail hl hn _ hcut
    obtain ⟨s', hf, hmsg, hec⟩ := feed_of_outcome ho hcomp.result
    obtain ⟨c', h1, _⟩ := call_returns cfg {} m s' [wireHead h hs ++ next ++ tail] (by simp [wireHead_ne_nil]) [] o.unread [] hf
    exact ⟨c', s', h1, by rw [hmsg]; exact hcomp.stored, by rw [hmsg, hcon, List.take_of_length_le hmax]⟩

/-- ... or waits for ever, if nothing follows. -/
theorem head_answer_waits :
    (receive { reqCfg with isRequest := false } {} (fresh { reqCfg with isRequest := false } { requestMethod := b! "HEAD" })
      [.data (b! "HTTP/1.1 200 OK\r\nContent-Length: 5\r\n\r\n")]).map (fun r => r.2.2.1) = some (.done false) ∧
    (syncReceive { reqCfg with isRequest := false } {} { requestMethod := b! "HEAD" }
      [.data (b! "HTTP/1.1 200 OK\r\nContent-Length: 5\r\n\r\n")]).map (fun r => r.2.2.1) = some .waiting := by decide +kernel

/-- The hypotheses of `head_answer_violated` are met by this answer, and the call takes the beginning of the next one. -/
example : (syncReceive { reqCfg with isRequest := false } {} { requestMethod := b! "HEAD" }
      [.data (b! "HTTP/1.1 200 OK\r\nContent-Length: 5\r\n\r\nHTTP/1.1 404 Not Found\r\n\r\n")]).map (fun r => (r.2.2.1, r.2.1.msg.content)) =
    some (.done false, (b! "HTTP/").map some) := by decide +kernel

/-! ### Concrete cases -/

/-- Three messages in odd pieces: all three are received, and the fourth call waits. -/
example : (calls reqCfg {} 4 {} [.data (getRequest ++ getRequest.take 5), .data (getRequest.drop 5), .data getRequest]).map
    (List.map (Option.map fun m => (m.method, m.resource))) =
    some [some (b! "GET", b! "/a"), some (b! "GET", b! "/a"), some (b! "GET", b! "/a")] := by decide +kernel

example : (feed reqCfg (fresh reqCfg (({} : Msg).clear true)) (pending {} ++ [getRequest ++ b! "GE"])).map (fun r => (r.1, r.2.1.totalRead, r.2.2)) =
    some (.yes, getRequest.length, b! "GE", []) := by decide +kernel

/-- A response that ends with the connection, and a request that is cut off. -/
example : (syncReceive { reqCfg with isRequest := false } {} {} [.data (b! "HTTP/1.1 200 OK\r\n\r\nabc"), .error]).map (fun r => (r.2.2.1, r.1.lifecycle,
      r.2.1.msg.content)) = some (.done false, .close, [some 97, some 98, some 99]) ∧
    (syncReceive reqCfg {} {} [.data (b! "GET /a"), .error]).map (fun r => r.2.2.1) = some (.done true) := by decide +kernel

/-- The first read fails. -/
example : (syncReceive reqCfg {} {} [.error]).map (fun r => (r.1, r.2.2.1)) = some ({}, .done true) := by decide +kernel

end Verif.Props.Blocking
