import Verif.Spec.Reader
import Verif.Props.HttpBody
import Verif.Props.Dict
/-
C27: which connections are kept open after a message, and that pipelined messages are all received.
-/
namespace Verif.Props.Reader
open Verif Verif.Http Verif.Reader Verif.Props.HttpBody
open Verif.Props.HttpSegmentation
open Verif.Writer (Lifecycle)

theorem checkKeepAlive_iff (ord : Dict.Order) (m : Msg) : m.checkKeepAlive ord = true ↔ StaysOpen ord m := by
  unfold Msg.checkKeepAlive StaysOpen Msg11
  simp only [Bool.and_eq_true, bne_iff_ne, Bool.or_eq_true, decide_eq_true_eq]
  constructor
  · rintro ⟨h, h'⟩; exact ⟨by omega, h⟩
  · rintro ⟨h, h'⟩; exact ⟨h', by omega⟩

/-! ### Receiving is feeding the parser -/

/-- What `readMore` does with the result of feeding. -/
def settle (cfg : Cfg) (c : Conn) (tail : List Read) :
    Tri × S × Bytes × List Bytes → Option (Conn × S × Status × List Read)
  | (.more, s, _, _) => readMore cfg c s tail
  | (.yes, s, rest, more) => some (afterMessage cfg.ord c s.msg rest, s, .done s.ec.isSome, more.map .data ++ tail)
  | (.no, s, _, more) =>
    some ({ c with lifecycle := .close }, invalidate s, .done s.ec.isSome, more.map .data ++ tail)

theorem readMore_feed (cfg : Cfg) (c : Conn) (tail : List Read) (bufs : List Bytes) : ∀ (s : S), (∀ b ∈ bufs, b ≠ []) →
    readMore cfg c s (bufs.map .data ++ tail) = (feed cfg s bufs).bind (settle cfg c tail) := by
  induction bufs with
  | nil => intro s _; rfl
  | cons a bufs ih =>
    intro s h
    have ha : a ≠ [] := h a (by simp)
    obtain ⟨b, bs, rfl⟩ := List.exists_cons_of_ne_nil ha
    rw [List.map_cons, List.cons_append, readMore, feed, consume]
    have ih := fun s' => ih s' (fun x hx => h x (List.mem_cons_of_mem _ hx))
    cases hp : parse cfg s (b :: bs) with
    | none => rfl
    | some r =>
      obtain ⟨rc, s', rest⟩ := r
      cases rc with
      | more => exact ih s'
      | yes => rfl
      | no => rfl

theorem receive_eq (cfg : Cfg) (c : Conn) (s : S) (reads : List Read) (hc : Ok c) :
    receive cfg c s reads = readMore cfg { c with lifecycle := .close } s ((pending c).map .data ++ reads) := by
  unfold receive pending
  by_cases h : c.lifecycle = .pipelined
  · obtain ⟨b, bs, hb⟩ := List.exists_cons_of_ne_nil (hc h)
    rw [if_pos h, if_pos h, hb]
    rfl
  · rw [if_neg h, if_neg h]; rfl

theorem pending_ne {c : Conn} (hc : Ok c) : ∀ b ∈ pending c, b ≠ [] := by
  unfold pending
  split
  · rename_i h; intro b hb; rw [List.mem_singleton.1 hb]; exact hc h
  · intro b hb; simp at hb

theorem receive_feed (cfg : Cfg) (c : Conn) (s : S) (hc : Ok c) (bufs : List Bytes) (hb : ∀ b ∈ bufs, b ≠ [])
    (tail : List Read) :
    receive cfg c s (bufs.map .data ++ tail) =
      (feed cfg s (pending c ++ bufs)).bind (settle cfg { c with lifecycle := .close } tail) := by
  rw [receive_eq cfg c s _ hc, ← List.append_assoc, ← List.map_append]
  refine readMore_feed cfg _ tail _ s ?_
  intro b h
  rcases List.mem_append.1 h with h | h
  · exact pending_ne hc b h
  · exact hb b h

theorem afterMessage_spec (ord : Dict.Order) (c : Conn) (m : Msg) (rest : Bytes) :
    ((afterMessage ord c m rest).lifecycle = .close ↔ ¬ StaysOpen ord m) ∧
    ((afterMessage ord c m rest).lifecycle = .keepAlive ↔ StaysOpen ord m ∧ rest = []) ∧
    ((afterMessage ord c m rest).lifecycle = .pipelined ↔ StaysOpen ord m ∧ rest ≠ []) ∧
    (StaysOpen ord m → (pending (afterMessage ord c m rest)).flatten = rest) ∧ Ok (afterMessage ord c m rest) := by
  rw [← checkKeepAlive_iff]
  unfold afterMessage Ok pending
  cases m.checkKeepAlive ord <;> cases rest <;> simp

/-- **C27 (the decision), partial.** A reader is given a connection and the socket delivers the buffers `bufs` and
    then anything. If the parser, fed what was left on the connection and these buffers, completes the message in one
    of them with `rest` left in it, the reader finishes there; the connection is marked
    * to be closed, if the message is older than HTTP/1.1 or its `Connection` header is `close`,
    * kept alive, otherwise if nothing is left in the buffer,
    * pipelined, otherwise, and then exactly the rest of the buffer is saved for the next reader.
    Missing: `Connection: Close` is not recognised as `close`, see `close_other_case_kept_alive`. -/
theorem decision_partial (cfg : Cfg) (c : Conn) (hc : Ok c) (s s' : S) (bufs : List Bytes) (hb : ∀ b ∈ bufs, b ≠ [])
    (tail : List Read) (rest : Bytes) (more : List Bytes)
    (h : feed cfg s (pending c ++ bufs) = some (.yes, s', rest, more)) :
    ∃ c', receive cfg c s (bufs.map .data ++ tail) = some (c', s', .done s'.ec.isSome, more.map .data ++ tail) ∧
      (c'.lifecycle = .close ↔ ¬ StaysOpen cfg.ord s'.msg) ∧
      (c'.lifecycle = .keepAlive ↔ StaysOpen cfg.ord s'.msg ∧ rest = []) ∧
      (c'.lifecycle = .pipelined ↔ StaysOpen cfg.ord s'.msg ∧ rest ≠ []) ∧
      (c'.lifecycle = .pipelined → c'.saved = rest) ∧ Ok c' := by
  refine ⟨afterMessage cfg.ord { c with lifecycle := .close } s'.msg rest, ?_, ?_⟩
  · rw [receive_feed cfg c s hc bufs hb, h]; rfl
  · obtain ⟨h1, h2, h3, h4, h5⟩ := afterMessage_spec cfg.ord { c with lifecycle := .close } s'.msg rest
    refine ⟨h1, h2, h3, fun hp => ?_, h5⟩
    have := h4 (h3.1 hp).1
    rw [pending, if_pos hp] at this
    simpa using this

theorem readMore_open (cfg : Cfg) (reads : List Read) : ∀ (c c' : Conn) (s s' : S) (e : Bool) (reads' : List Read),
    c.lifecycle = .close → readMore cfg c s reads = some (c', s', .done e, reads') → c'.lifecycle ≠ .close →
    ∃ bufs rest, reads = bufs.map .data ++ reads' ∧ (∀ b ∈ bufs, b ≠ []) ∧ feed cfg s bufs = some (.yes, s', rest, []) ∧
      e = s'.ec.isSome ∧ c' = afterMessage cfg.ord c s'.msg rest := by
  induction reads with
  | nil => intro c c' s s' e reads' _ h; simp [readMore] at h
  | cons r reads ih =>
    intro c c' s s' e reads' hcl h hop
    cases r with
    | error =>
      simp only [readMore, Option.some.injEq, Prod.mk.injEq] at h
      rw [← h.1] at hop; simp at hop
    | data buf =>
      cases buf with
      | nil =>
        simp only [readMore, Option.some.injEq, Prod.mk.injEq] at h
        rw [← h.1] at hop; exact absurd hcl hop
      | cons b bs =>
        rw [readMore, consume] at h
        cases hp : parse cfg s (b :: bs) with
        | none => rw [hp] at h; simp at h
        | some r =>
          obtain ⟨rc, t, rest⟩ := r
          rw [hp] at h
          cases rc with
          | more =>
            obtain ⟨bufs, rest, h1, h2, h3, h4⟩ := ih c c' t s' e reads' hcl h hop
            refine ⟨(b :: bs) :: bufs, rest, by rw [h1]; rfl, ?_, ?_, h4⟩
            · intro x hx
              rcases List.mem_cons.1 hx with rfl | hx
              · simp
              · exact h2 x hx
            · rw [feed, hp]; exact h3
          | yes =>
            simp only [Option.some.injEq, Prod.mk.injEq, Status.done.injEq] at h
            obtain ⟨h1, rfl, h3, rfl⟩ := h
            refine ⟨[b :: bs], rest, rfl, by simp, ?_, h3.symm, h1.symm⟩
            rw [feed, hp]
          | no =>
            simp only [Option.some.injEq, Prod.mk.injEq] at h
            rw [← h.1] at hop; simp at hop

/-- **C27 (only then), partial.** Whatever the socket delivers - data, empty reads, errors, in any order - if the
    reader finishes and leaves the connection open, then the parser completed a message from the bytes delivered up to
    there, the message lets the connection stay open, and the connection is pipelined exactly if bytes were left in
    the last buffer. So after a read error, a premature end, a timeout or a parse error the connection is closed. -/
theorem open_only_after_message_partial (cfg : Cfg) (c c' : Conn) (hc : Ok c) (s s' : S) (reads reads' : List Read)
    (e : Bool) (h : receive cfg c s reads = some (c', s', .done e, reads')) (hopen : c'.lifecycle ≠ .close) :
    ∃ bufs rest, reads' <:+ reads ∧
      ((pending c).map Read.data ++ reads = bufs.map .data ++ reads') ∧ feed cfg s bufs = some (.yes, s', rest, []) ∧
      e = s'.ec.isSome ∧ StaysOpen cfg.ord s'.msg ∧
      (c'.lifecycle = .pipelined ↔ rest ≠ []) ∧ (pending c').flatten = rest ∧ Ok c' := by
  rw [receive_eq cfg c s reads hc] at h
  obtain ⟨bufs, rest, h1, h2, h3, h4, h5⟩ := readMore_open cfg _ _ _ _ _ _ _ rfl h hopen
  obtain ⟨g1, g2, g3, g4, g5⟩ := afterMessage_spec cfg.ord { c with lifecycle := .close } s'.msg rest
  rw [← h5] at g1 g2 g3 g4 g5
  have hst : StaysOpen cfg.ord s'.msg := by
    by_contra hn; exact hopen (g1.2 hn)
  refine ⟨bufs, rest, ?_, h1, h3, h4, hst, by rw [g3]; simp [hst], g4 hst, g5⟩
  have hp : (pending c).length ≤ 1 := by unfold pending; split <;> simp
  have hb : bufs ≠ [] := by
    rintro rfl; rw [feed] at h3; simp at h3
  have hb := List.length_pos_iff.2 hb
  have hl := congrArg List.length h1
  simp at hl
  have hd := congrArg (List.drop (pending c).length) h1
  rw [show (pending c).length = ((pending c).map Read.data).length by simp, List.drop_left] at hd
  rw [hd, List.length_map, List.drop_append_of_le_length (by simp; omega)]
  exact List.suffix_append _ _

/-- A message with `Connection: close`, in exactly this spelling, and no other `Connection` header, closes the
    connection, whatever the letter case of the header's name and the order of the headers. -/
theorem close_header_closes (ord : Dict.Order) (ho : OrderOk ord) (m : Msg)
    (h : Dict.matching m.headers (b! "Connection") ≠ [])
    (hall : ∀ e ∈ Dict.matching m.headers (b! "Connection"), e.2 = b! "close") : ¬ StaysOpen ord m := by
  rintro ⟨_, hne⟩
  obtain ⟨name, hm⟩ := (Dict.get_spec ord ho m.headers (b! "Connection")).2 h
  exact hne (hall _ hm)

/-- Without a `Connection` header, the version alone decides. -/
theorem no_header_version (ord : Dict.Order) (ho : OrderOk ord) (m : Msg)
    (h : Dict.matching m.headers (b! "Connection") = []) : StaysOpen ord m ↔ Msg11 m := by
  unfold StaysOpen
  rw [(Dict.get_spec ord ho m.headers (b! "Connection")).1 h]
  simp

/-! ### A whole connection -/

theorem feed_more_mem (cfg : Cfg) (bufs : List Bytes) : ∀ (s : S) {rc : Tri} {s' : S} {rest : Bytes}
    {more : List Bytes}, feed cfg s bufs = some (rc, s', rest, more) → ∀ b ∈ more, b ∈ bufs := by
  induction bufs with
  | nil => intro s rc s' rest more h; simp [feed] at h; rw [← h.2.2.2]; simp
  | cons a bufs ih =>
    intro s rc s' rest more h b hb
    rw [feed] at h
    cases hp : parse cfg s a with
    | none => rw [hp] at h; simp at h
    | some r =>
      obtain ⟨rc', t, rest'⟩ := r
      rw [hp] at h
      cases rc' with
      | more => exact List.mem_cons_of_mem _ (ih t h b hb)
      | yes =>
        simp only [Option.some.injEq, Prod.mk.injEq] at h
        rw [← h.2.2.2] at hb; exact List.mem_cons_of_mem _ hb
      | no =>
        simp only [Option.some.injEq, Prod.mk.injEq] at h
        rw [← h.2.2.2] at hb; exact List.mem_cons_of_mem _ hb

theorem parse_total (cfg : Cfg) (s : S) (b : Bytes) : ∃ r, parse cfg s b = some r := by
  obtain ⟨r, t, _, h⟩ := parse_runs cfg s b
  exact ⟨_, h⟩

/-- **C27/C12 (pipelining).** A server reading one connection: however the stream is cut into reads, the messages it
    hands to the handlers are those of the stream read as a whole - each starting at the first byte after the one
    before, none lost, none read twice - up to the first one that is incomplete, faulty, or closes the connection;
    nothing after that is parsed. -/
theorem serve_stream (cfg : Cfg) (m : Msg) : ∀ (n : Nat) (c : Conn), Ok c → ∀ (bufs : List Bytes),
    (∀ b ∈ bufs, b ≠ []) →
    serve cfg m n c (bufs.map .data) = serveStream cfg m n ((pending c).flatten ++ bufs.flatten) := by
  intro n
  induction n with
  | zero => intro c _ bufs _; rfl
  | succ n ih =>
    intro c hc bufs hb
    have hb' : ∀ b ∈ pending c ++ bufs, b ≠ [] := by
      intro b h
      rcases List.mem_append.1 h with h | h
      · exact pending_ne hc b h
      · exact hb b h
    have hrec := receive_feed cfg c (fresh cfg m) hc bufs hb []
    rw [List.append_nil] at hrec
    rw [serve, hrec, ← List.flatten_append]
    generalize pending c ++ bufs = all at *
    cases hs : all.flatten with
    | nil =>
      have : all = [] := by
        cases all with
        | nil => rfl
        | cons a t =>
          exfalso
          rw [List.flatten_cons, List.append_eq_nil_iff] at hs
          exact hb' a (by simp) hs.1
      subst this
      rfl
    | cons x xs =>
      obtain ⟨r, hr⟩ := parse_total cfg (fresh cfg m) (x :: xs)
      obtain ⟨rc, s, rest⟩ := r
      have hseg := segmentation_independent cfg (fresh cfg m) all [x :: xs] hb' (by simp) (by simp [hs])
      rw [serveStream, hr]
      have hone : outcome cfg (fresh cfg m) [x :: xs] = some (observe rc s (if rc = .more then [] else rest)) := by
        rw [outcome, feed, hr]
        cases rc <;> simp [feed]
      rw [hone, outcome] at hseg
      cases hf : feed cfg (fresh cfg m) all with
      | none => rw [hf] at hseg; simp at hseg
      | some q =>
        obtain ⟨rc', s', rest', more⟩ := q
        rw [hf] at hseg
        simp only [Option.map_some, Option.some.injEq] at hseg
        have e1 := congrArg Outcome.result hseg
        have e2 := congrArg Outcome.error hseg
        have e3 := congrArg Outcome.message hseg
        have e4 := congrArg Outcome.unread hseg
        simp only [observe] at e1 e2 e3 e4
        subst e1
        cases rc' with
        | more => rfl
        | no =>
          simp only [Option.bind_some, settle, invalidate, if_true]
          rw [e2, e3]
        | yes =>
          simp only [Option.bind_some, settle]
          rw [e2, e3]
          obtain ⟨g1, _, _, g4, g5⟩ := afterMessage_spec cfg.ord { c with lifecycle := .close } s.msg rest'
          by_cases hk : StaysOpen cfg.ord s.msg
          · rw [if_neg (by rw [g1]; exact not_not_intro hk), if_pos ((checkKeepAlive_iff _ _).2 hk),
              List.append_nil, ih _ g5 more (fun b h => hb' b (feed_more_mem cfg all _ hf b h)), g4 hk]
            rw [e4]
            rfl
          · rw [if_pos (g1.2 hk), if_neg (by rw [checkKeepAlive_iff]; exact hk)]

/-- A well-formed message on the wire whose body is announced by `Content-Length`. -/
structure Wire where
  head : Head
  headers : Dict
  body : Bytes

def Wire.bytes (w : Wire) : Bytes := wireHead w.head w.headers ++ w.body

/-- The conditions of `content_length_exact`. -/
structure Wire.Ok (cfg : Cfg) (m : Msg) (w : Wire) : Prop where
  setting : Setting cfg m w.head w.headers
  notChunked : ¬ AnnouncesChunks cfg.ord w.headers
  hasBody : ¬ w.head.Bodyless m.requestMethod
  announced : AnnouncesLength cfg.ord w.headers w.body.length
  size : w.body.length + 1 < 2 ^ 64

/-- What the handler got is the message `w`. -/
structure Received (cfg : Cfg) (w : Wire) (g : Got) : Prop where
  error : g.error = false
  stored : w.head.StoredIn g.message
  headers : g.message.headers = w.headers
  content : g.message.content = (w.body.take cfg.maxContent).map some
  valid : g.message.isValid = true

theorem parse_wire (cfg : Cfg) (m : Msg) (hh : cfg.handler = false) (w : Wire) (hw : w.Ok cfg m) (tail : Bytes) :
    ∃ s, parse cfg (fresh cfg m) (w.bytes ++ tail) = some (.yes, s, tail) ∧ Received cfg w ⟨s.ec.isSome, s.msg⟩ := by
  have hne : wireHead w.head w.headers ++ w.body ++ tail ≠ [] := by simp [wireHead_ne_nil]
  obtain ⟨o, ho, hc, hcon, _⟩ := content_length_exact cfg m w.head w.headers hw.setting hh hw.notChunked hw.hasBody
    w.body tail hw.announced hw.size [wireHead w.head w.headers ++ w.body ++ tail]
    ⟨by simp, by intro b hb; rw [List.mem_singleton.1 hb]; exact hne⟩
  obtain ⟨⟨rc, s, rest⟩, hr⟩ := parse_total cfg (fresh cfg m) (w.bytes ++ tail)
  have hr' := hr
  unfold Wire.bytes at hr'
  rw [outcome, feed, hr'] at ho
  have hrc : rc = .yes := by
    have := hc.result
    cases rc with
    | yes => rfl
    | no => simp only [Option.map_some, Option.some.injEq] at ho; rw [← ho] at this; cases this
    | more => simp only [feed, Option.map_some, Option.some.injEq] at ho; rw [← ho] at this; cases this
  subst hrc
  simp only [Option.map_some, Option.some.injEq, List.flatten_nil, List.append_nil] at ho
  subst ho
  refine ⟨s, by rw [hr, ← hc.unread]; rfl, ?_, hc.stored, hc.headers, hcon, hc.valid⟩
  have := hc.error
  simp only [observe] at this
  rw [this]; rfl

/-- The version in the first line is 1.1 or later. -/
def head11 : Head → Prop
  | .request _ _ _ major minor => 1 < major ∨ (major = 1 ∧ 1 ≤ minor)
  | .response major minor _ _ => 1 < major ∨ (major = 1 ∧ 1 ≤ minor)

/-- The connection may stay open after `w`, read off the wire. -/
def Wire.Persistent (ord : Dict.Order) (w : Wire) : Prop :=
  head11 w.head ∧ w.headers.get ord (b! "Connection") ≠ b! "close"

theorem persistent_iff {cfg : Cfg} {w : Wire} {g : Got} (h : Received cfg w g) :
    StaysOpen cfg.ord g.message ↔ w.Persistent cfg.ord := by
  unfold StaysOpen Wire.Persistent Msg11
  rw [h.headers]
  have := h.stored
  cases hw : w.head with
  | request a b c d e =>
    rw [hw] at this
    simp only [Head.StoredIn] at this
    rw [this.2.2.2.2.1, this.2.2.2.2.2]; rfl
  | response a b c d =>
    rw [hw] at this
    simp only [Head.StoredIn] at this
    rw [this.2.2.1, this.2.2.2]; rfl

theorem serveStream_wires (cfg : Cfg) (m : Msg) (hh : cfg.handler = false) (tail : Bytes) (ws : List Wire) :
    ∀ (n : Nat), (∀ w ∈ ws, w.Ok cfg m) → (∀ w ∈ ws, w.Persistent cfg.ord) →
      ∃ gots, List.Forall₂ (Received cfg) ws gots ∧
        serveStream cfg m (ws.length + n) ((ws.map Wire.bytes).flatten ++ tail) =
          (serveStream cfg m n tail).map (gots ++ ·) := by
  induction ws with
  | nil => intro n _ _; exact ⟨[], .nil, by simp⟩
  | cons w ws ih =>
    intro n hok hp
    obtain ⟨gots, hg, he⟩ := ih n (fun x hx => hok x (List.mem_cons_of_mem _ hx))
      (fun x hx => hp x (List.mem_cons_of_mem _ hx))
    obtain ⟨s, hs, hr⟩ := parse_wire cfg m hh w (hok w (by simp)) ((ws.map Wire.bytes).flatten ++ tail)
    refine ⟨⟨s.ec.isSome, s.msg⟩ :: gots, .cons hr hg, ?_⟩
    have hk := (checkKeepAlive_iff cfg.ord s.msg).2 ((persistent_iff hr).2 (hp w (by simp)))
    rw [List.map_cons, List.flatten_cons, List.append_assoc, List.length_cons, Nat.add_right_comm]
    obtain ⟨x, xs, hx⟩ := List.exists_cons_of_ne_nil
      (show w.bytes ++ ((ws.map Wire.bytes).flatten ++ tail) ≠ [] by simp [Wire.bytes, wireHead_ne_nil])
    rw [hx] at hs ⊢
    rw [serveStream, hs]
    simp only [hk, if_true]
    rw [he]
    cases serveStream cfg m n tail <;> rfl

theorem forall₂_append {α β : Type} {R : α → β → Prop} {l₁ l₃ : List α} {l₂ l₄ : List β} (h : List.Forall₂ R l₁ l₂)
    (h' : List.Forall₂ R l₃ l₄) : List.Forall₂ R (l₁ ++ l₃) (l₂ ++ l₄) := by
  induction h with
  | nil => exact h'
  | cons a _ ih => exact .cons a ih

/-- **C27 (persistent connections).** Any number of well-formed messages that let the connection stay open, sent one
    after another and cut into reads in any way: every one is received, in order, intact, and nothing else is. -/
theorem all_received (cfg : Cfg) (m : Msg) (hh : cfg.handler = false) (ws : List Wire) (hok : ∀ w ∈ ws, w.Ok cfg m)
    (hp : ∀ w ∈ ws, w.Persistent cfg.ord) (bufs : List Bytes) (hcut : Cuts bufs (ws.map Wire.bytes).flatten) (n : Nat) :
    ∃ gots, serve cfg m (ws.length + n) {} (bufs.map .data) = some gots ∧ List.Forall₂ (Received cfg) ws gots := by
  obtain ⟨gots, hg, he⟩ := serveStream_wires cfg m hh [] ws n hok hp
  refine ⟨gots, ?_, hg⟩
  rw [serve_stream cfg m _ {} (by intro h; cases h) bufs hcut.nonempty, hcut.flat]
  rw [List.append_nil] at he
  change serveStream cfg m (ws.length + n) ([] ++ _) = _
  rw [List.nil_append, he]
  cases n with
  | zero => simp [serveStream]
  | succ n => simp [serveStream]

/-- **C27 (closing), partial.** As above, but after the messages `ws` comes one that closes the connection - older
    than HTTP/1.1, or with `Connection: close` -, and after it any bytes at all, e.g. more requests: the messages up
    to the closing one are received and nothing after it is. Missing: other spellings of `close`. -/
theorem nothing_after_close_partial (cfg : Cfg) (m : Msg) (hh : cfg.handler = false) (ws : List Wire) (last : Wire)
    (hok : ∀ w ∈ ws ++ [last], w.Ok cfg m) (hp : ∀ w ∈ ws, w.Persistent cfg.ord) (hl : ¬ last.Persistent cfg.ord)
    (junk : Bytes) (bufs : List Bytes) (hcut : Cuts bufs (((ws ++ [last]).map Wire.bytes).flatten ++ junk)) (n : Nat) :
    ∃ gots, serve cfg m (ws.length + (n + 1)) {} (bufs.map .data) = some gots ∧
      List.Forall₂ (Received cfg) (ws ++ [last]) gots := by
  obtain ⟨gots, hg, he⟩ := serveStream_wires cfg m hh (last.bytes ++ junk) ws (n + 1)
    (fun w hw => hok w (List.mem_append_left _ hw)) hp
  obtain ⟨s, hs, hr⟩ := parse_wire cfg m hh last (hok last (by simp)) junk
  have hk : ¬ s.msg.checkKeepAlive cfg.ord = true := by
    rw [checkKeepAlive_iff, persistent_iff hr]; exact hl
  refine ⟨gots ++ [⟨s.ec.isSome, s.msg⟩], ?_, ?_⟩
  · rw [serve_stream cfg m _ {} (by intro h; cases h) bufs hcut.nonempty, hcut.flat]
    change serveStream cfg m _ ([] ++ _) = _
    rw [List.nil_append, List.map_append, List.flatten_append, List.append_assoc]
    simp only [List.map_cons, List.map_nil, List.flatten_cons, List.flatten_nil, List.append_nil]
    rw [he]
    obtain ⟨x, xs, hx⟩ := List.exists_cons_of_ne_nil
      (show last.bytes ++ junk ≠ [] by simp [Wire.bytes, wireHead_ne_nil])
    rw [hx] at hs ⊢
    rw [serveStream, hs]
    simp only [hk]
    rfl
  · exact forall₂_append hg (.cons hr .nil)

/-! ### Where the property fails, and concrete cases -/

def getRequest : Bytes := b! "GET /a HTTP/1.1\r\n\r\n"
def closeRequest : Bytes := b! "GET /a HTTP/1.1\r\nConnection: close\r\n\r\n"
def CloseRequest : Bytes := b! "GET /a HTTP/1.1\r\nConnection: Close\r\n\r\n"
def oldRequest : Bytes := b! "GET /a HTTP/1.0\r\n\r\n"

/-- What `receive` reports of the connection. -/
def connAfter (reads : List Read) : Option (Conn × Status) :=
  (receive reqCfg {} (fresh reqCfg {}) reads).map fun r => (r.1, r.2.2.1)

example : connAfter [.data getRequest] = some ({ lifecycle := .keepAlive }, .done false) := by decide +kernel
example : connAfter [.data (getRequest ++ b! "GE")] = some ({ lifecycle := .pipelined, saved := b! "GE" }, .done false) := by
  decide +kernel
example : connAfter [.data closeRequest] = some ({}, .done false) := by decide +kernel
example : connAfter [.data oldRequest] = some ({}, .done false) := by decide +kernel
example : connAfter [.data (getRequest.take 9), .error] = some ({}, .done true) := by decide +kernel

/-- The full property fails: `Connection: Close` - the token is case-insensitive (RFC 2616, 14.10 and 2.1) - does not
    close the connection. -/
theorem close_other_case_kept_alive :
    connAfter [.data CloseRequest] = some ({ lifecycle := .keepAlive }, .done false) := by decide +kernel

def twoConnections : Bytes :=
  b! "GET /a HTTP/1.1\r\nConnection: foo\r\nConnection: close\r\n\r\n"
def listConnection : Bytes := b! "GET /a HTTP/1.1\r\nConnection: close, foo\r\n\r\n"

/-- Nor does `close` as one of several connection options. -/
theorem close_in_list_kept_alive :
    connAfter [.data twoConnections] = some ({ lifecycle := .keepAlive }, .done false) ∧
    connAfter [.data listConnection] = some ({ lifecycle := .keepAlive }, .done false) := by
  constructor <;> decide +kernel

/-- A POST request with five bytes of content meets the hypotheses of `all_received`. -/
def exampleWire : Wire := ⟨exampleHead, exampleHeaders, b! "hello"⟩

theorem exampleWire_ok : exampleWire.Ok reqCfg {} where
  setting := exampleSetting
  notChunked := by rintro ⟨v, h, _⟩; simp [exampleWire, exampleHeaders, reqCfg, Dict.find?, Dict.values, iequals] at h
  hasBody := id
  announced := ⟨b! " ", b! "05", b! " ", by decide +kernel, by decide +kernel, by decide +kernel, by decide +kernel,
    by decide +kernel⟩
  size := by decide +kernel

example : exampleWire.Persistent reqCfg.ord := ⟨.inr ⟨rfl, by decide⟩, by decide +kernel⟩

/-- Three messages in odd pieces: all three are served. -/
example : (serve reqCfg {} 5 {} [.data (getRequest ++ getRequest.take 5), .data (getRequest.drop 5 ++ closeRequest),
    .data getRequest]).map List.length = some 3 := by decide +kernel

/-! ### The blocking variant -/

/-- **C27 (`message::receive`), partial.** After a complete message the blocking variant makes the same decision.
    Missing: after a failure it does not touch the lifecycle, see `blocking_failure_keeps_lifecycle`. -/
theorem blocking_decision_partial (cfg : Cfg) (c : Conn) (s s' : S) (buf rest : Bytes)
    (h : parse cfg s buf = some (.yes, s', rest)) (reads : List Read) :
    ∃ c', syncLoop cfg c s buf reads = some (c', s', .done s'.ec.isSome, reads) ∧
      (c'.lifecycle = .close ↔ ¬ StaysOpen cfg.ord s'.msg) ∧
      (c'.lifecycle = .keepAlive ↔ StaysOpen cfg.ord s'.msg ∧ rest = []) ∧
      (c'.lifecycle = .pipelined ↔ StaysOpen cfg.ord s'.msg ∧ rest ≠ []) ∧
      (c'.lifecycle = .pipelined → c'.saved = rest) := by
  have hst : syncStep cfg c s buf = some (if s'.msg.checkKeepAlive cfg.ord then afterMessage cfg.ord c s'.msg rest
      else { lifecycle := .close, saved := if cfg.headersOnly then rest else c.saved }, s', .done s'.ec.isSome) := by
    rw [syncStep, h]
  refine ⟨if s'.msg.checkKeepAlive cfg.ord then afterMessage cfg.ord c s'.msg rest
    else { lifecycle := .close, saved := if cfg.headersOnly then rest else c.saved }, ?_, ?_⟩
  · cases reads with
    | nil => rw [syncLoop, hst]; rfl
    | cons r rs => rw [syncLoop, hst]
  · obtain ⟨g1, g2, g3, g4, _⟩ := afterMessage_spec cfg.ord c s'.msg rest
    by_cases hk : StaysOpen cfg.ord s'.msg
    · rw [if_pos ((checkKeepAlive_iff _ _).2 hk)]
      refine ⟨g1, g2, g3, fun hp => ?_⟩
      have := g4 hk
      rw [pending, if_pos hp] at this
      simpa using this
    · rw [if_neg (by rw [checkKeepAlive_iff]; exact hk)]
      simp [hk]

def badSecond : Bytes := getRequest ++ b! "\x01\x01"

/-- The blocking variant, called on a pipelined connection whose next message is malformed, reports the error but
    leaves the connection marked as pipelined, with the same bytes saved: a caller that goes by the lifecycle, as
    `get_keep_alive()` and `tcp::server` do, would not close it and would parse the same bytes again. -/
theorem blocking_failure_keeps_lifecycle :
    (syncReceive reqCfg {} {} [.data badSecond]).bind (fun r =>
      (syncReceive reqCfg r.1 {} []).map fun r' => (r.1, r'.1, r'.2.2.1)) =
    some ({ lifecycle := .pipelined, saved := [1, 1] }, { lifecycle := .pipelined, saved := [1, 1] }, .done true) := by
  decide +kernel

end Verif.Props.Reader
