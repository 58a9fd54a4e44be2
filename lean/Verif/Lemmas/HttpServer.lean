import Verif.Lemmas.HttpRequest
import Verif.Spec.HttpServer
import Verif.Model.HttpServer
import Verif.Props.Reader
import Verif.Props.HttpFraming
/-
Reading the requests of a stream one after another.
-/
namespace Verif.HttpServer
open Verif.Http Verif.Http.Text Verif.Reader Verif.Server Verif.Spec.HttpServer
open Verif.Props.HttpBody Verif.Props.HttpFraming Verif.Props.Reader

/-- A server's parser: requests, whole messages, no payload handler. -/
structure Serving (cfg : Cfg) (m : Msg) : Prop where
  blank : Blank m
  noCookies : m.cookies = []
  noQueries : m.queries = []
  request : cfg.isRequest = true
  whole : cfg.headersOnly = false
  stored : cfg.handler = false
  order : OrderOk cfg.ord
  max : cfg.maxContent + 1 < 2 ^ 64

/-- What the socket delivers: non-empty buffers, then nothing more that counts. -/
theorem delivered_split (reads : List Reader.Read) : ∃ (bufs : List Bytes) (tail : List Reader.Read), reads = bufs.map .data ++ tail ∧ (∀ b ∈ bufs, b ≠ []) ∧
    delivered reads = bufs.flatten ∧ (tail = [] ∨ (∃ more, tail = .error :: more) ∨ ∃ more, tail = .data [] :: more) := by
  induction reads with
  | nil => exact ⟨[], [], rfl, by simp, rfl, .inl rfl⟩
  | cons r reads ih =>
    cases r with
    | error => exact ⟨[], .error :: reads, rfl, by simp, rfl, .inr (.inl ⟨_, rfl⟩)⟩
    | data b =>
      cases b with
      | nil => exact ⟨[], .data [] :: reads, rfl, by simp, rfl, .inr (.inr ⟨_, rfl⟩)⟩
      | cons x xs =>
        obtain ⟨bufs, tail, h1, h2, h3, h4⟩ := ih
        refine ⟨(x :: xs) :: bufs, tail, by rw [h1]; rfl, ?_, ?_, h4⟩
        · intro b hb
          rcases List.mem_cons.1 hb with rfl | hb
          · simp
          · exact h2 b hb
        · rw [delivered, h3]; rfl

theorem delivered_append (bufs : List Bytes) (h : ∀ b ∈ bufs, b ≠ []) (tail : List Reader.Read)
    (ht : tail = [] ∨ (∃ more, tail = .error :: more) ∨ ∃ more, tail = .data [] :: more) :
    delivered (bufs.map .data ++ tail) = bufs.flatten := by
  induction bufs with
  | nil => rcases ht with rfl | ⟨_, rfl⟩ | ⟨_, rfl⟩ <;> rfl
  | cons b bufs ih =>
    obtain ⟨x, xs, rfl⟩ := List.exists_cons_of_ne_nil (h b (by simp))
    rw [List.map_cons, List.cons_append, delivered, ih fun b hb => h b (List.mem_cons_of_mem _ hb)]
    rfl

theorem part_staysOpen {ord : Dict.Order} {max : Nat} {p : Part} {msg : Msg} (h : p.Is ord max msg) :
    StaysOpen ord msg ↔ p.Persistent ord := by
  unfold StaysOpen Part.Persistent Msg11
  rw [h.headers]
  have := h.line
  cases hw : p.head with
  | request a b c d e =>
    rw [hw] at this
    simp only [Head.StoredIn] at this
    rw [this.2.2.2.2.1, this.2.2.2.2.2]
  | response a b c d =>
    rw [hw] at this
    simp only [Head.StoredIn] at this
    rw [this.2.2.1, this.2.2.2]

/-- The reader has read the request `p`, and `rest` is left. -/
structure Received (cfg : Cfg) (p : Part) (rest : Bytes) (c : Conn) (s : S) (reads : List Reader.Read) : Prop where
  is : p.Is cfg.ord cfg.maxContent s.msg
  noError : s.ec = none
  close : c.lifecycle = .close ↔ ¬ p.Persistent cfg.ord
  ok : Ok c
  left : p.Persistent cfg.ord → (pending c).flatten ++ delivered reads = rest

/-- The reader has read no request: it waits, or ends with an error or an invalid message. -/
def Fails : Conn × S × Status × List Reader.Read → Prop
  | (_, _, .waiting, _) => True
  | (_, s, .done e, _) => e = true ∨ s.msg.isValid = false

theorem feed_total (cfg : Cfg) (s : S) (bufs : List Bytes) : ∃ x, feed cfg s bufs = some x := by
  induction bufs generalizing s with
  | nil => exact ⟨_, rfl⟩
  | cons b bufs ih =>
    obtain ⟨⟨rc, s', rest⟩, h⟩ := parse_total cfg s b
    rw [feed, h]
    cases rc with
    | more => exact ih s'
    | yes => exact ⟨_, rfl⟩
    | no => exact ⟨_, rfl⟩

/-- What a reader makes of the stream. -/
theorem receive_cases (cfg : Cfg) (m : Msg) (hs : Serving cfg m) (c : Conn) (hc : Ok c) (reads : List Reader.Read) :
    (∃ (p : Part) (rest : Bytes) (c' : Conn) (s' : S) (reads' : List Reader.Read), p.Before (reading cfg m) rest ∧ (pending c).flatten ++ delivered reads = p.text ++ rest ∧
      receive cfg c (fresh cfg m) reads = some (c', s', .done false, reads') ∧ Received cfg p rest c' s' reads') ∨
    ((∀ (p : Part) rest, p.Before (reading cfg m) rest → (pending c).flatten ++ delivered reads ≠ p.text ++ rest) ∧
      ∃ x, receive cfg c (fresh cfg m) reads = some x ∧ Fails x) := by
  obtain ⟨bufs, tail, rfl, hb, hd, ht⟩ := delivered_split reads
  have hb' : ∀ b ∈ pending c ++ bufs, b ≠ [] := by
    intro b h
    rcases List.mem_append.1 h with h | h
    · exact pending_ne hc b h
    · exact hb b h
  have hcut : Cuts (pending c ++ bufs) ((pending c).flatten ++ bufs.flatten) := ⟨by simp, hb'⟩
  rw [hd, receive_feed cfg c _ hc bufs hb tail]
  obtain ⟨⟨rc, s', rest, more⟩, hf⟩ := feed_total cfg (fresh cfg m) (pending c ++ bufs)
  have hout : outcome cfg (fresh cfg m) (pending c ++ bufs) = some (observe rc s' (rest ++ more.flatten)) := by
    rw [outcome, hf]; rfl
  rw [hf]
  by_cases hy : rc = .yes
  · subst hy
    obtain ⟨h, hh, data, tr, t, h1, h2, h3, h4⟩ := message_sound cfg m hs.blank hs.order hs.whole hs.max _ _ hcut _ hout rfl
    left
    have hmore : ∀ b ∈ more, b ≠ [] := fun b hm => hb' b (feed_more_mem cfg _ _ hf b hm)
    have his : Part.Is cfg.ord cfg.maxContent ⟨h, hh, data, tr, t⟩ s'.msg := by
      have hk : h.isRequest = true := by rw [← h2]; exact hs.request
      obtain ⟨o, e1, e2, _, e4, e5⟩ := message_dictionaries cfg m h ⟨hs.blank, hs.order, h2, hs.whole, hs.max⟩ hh data tr t _ h3
        (pending c ++ bufs) (by rw [← h1]; exact hcut)
      rw [hout] at e1
      cases e1
      rw [hs.noQueries] at e4 e5
      rw [hs.noCookies] at e2
      refine ⟨h4.complete.stored, h4.complete.headers, ?_, e2 hk, fun q1 q2 => e4 (.inr ⟨q1, q2⟩),
        fun q => e5 ⟨hs.request, hs.stored⟩ q, h4.complete.valid⟩
      have := h4.data
      rw [hs.stored] at this
      exact this
    obtain ⟨g1, _, _, g4, g5⟩ := afterMessage_spec cfg.ord { c with lifecycle := .close } s'.msg rest
    rw [part_staysOpen his] at g1 g4
    have hec : s'.ec = none := h4.complete.error
    refine ⟨⟨h, hh, data, tr, t⟩, rest ++ more.flatten, afterMessage cfg.ord { c with lifecycle := .close } s'.msg rest, s',
      more.map .data ++ tail, ⟨?_, h3⟩, h1, ?_, ⟨his, hec, g1, g5, fun hp => ?_⟩⟩
    · rw [← h2]; exact hs.request
    · simp only [Option.bind_some, settle, hec]; rfl
    · rw [g4 hp, delivered_append more hmore tail ht]
  · right
    refine ⟨?_, ?_⟩
    · rintro p rest' ⟨hq, hp⟩ e
      obtain ⟨o, ho, hdel⟩ := message_accepted cfg m p.head ⟨hs.blank, hs.order, by rw [hs.request, hq], hs.whole, hs.max⟩
        p.headers p.data p.trailers p.text rest' hp _ (by rw [← e]; exact hcut)
      rw [hout] at ho
      cases ho
      exact hy hdel.complete.result
    · have hends : Ends s' := (inv_ends cfg hs.request).feed (pending c ++ bufs) (s := fresh cfg m) (by simp [Ends, fresh]) hf
      cases rc with
      | yes => exact absurd rfl hy
      | no => exact ⟨_, rfl, .inr rfl⟩
      | more =>
        simp only [Option.bind_some, settle]
        rcases ht with rfl | ⟨more, rfl⟩ | ⟨more, rfl⟩
        · exact ⟨_, rfl, trivial⟩
        · refine ⟨_, rfl, .inl ?_⟩
          unfold checkPrematureEof; rw [if_pos (show s'.ms ≠ .noLength from hends)]
        · exact ⟨_, rfl, .inl rfl⟩

end Verif.HttpServer
