import Verif.Lemmas.HttpInv
import Verif.Lemmas.HttpDicts
import Mathlib.Tactic.Tauto
/-
Where the cookies of a message come from, and that reading a message does not touch the flag for the length.
-/
namespace Verif.Cookie

/-- Name and value together are no longer than the text, and made of its characters. -/
def FromText (c : Bytes × Bytes) (t : Bytes) : Prop := c.1.length + c.2.length ≤ t.length ∧ ∀ x ∈ c.1 ++ c.2, x ∈ t

theorem FromText.nil (t : Bytes) : FromText ([], []) t := ⟨by simp, by simp⟩

theorem FromText.mono {c : Bytes × Bytes} {t : Bytes} (h : FromText c t) (x : UInt8) : FromText c (t ++ [x]) :=
  ⟨by rw [List.length_append]; have := h.1; omega, fun y hy => List.mem_append_left _ (h.2 y hy)⟩

theorem FromText.name {n v t : Bytes} (h : FromText (n, v) t) (x : UInt8) : FromText (n ++ [x], v) (t ++ [x]) := by
  refine ⟨by have := h.1; simp only [List.length_append, List.length_cons, List.length_nil] at *; omega, ?_⟩
  intro y hy
  have := h.2 y
  simp only [List.mem_append, List.mem_cons, List.not_mem_nil, or_false] at *
  tauto

theorem FromText.value {n v t : Bytes} (h : FromText (n, v) t) (x : UInt8) : FromText (n, v ++ [x]) (t ++ [x]) := by
  refine ⟨by have := h.1; simp only [List.length_append, List.length_cons, List.length_nil] at *; omega, ?_⟩
  intro y hy
  have := h.2 y
  simp only [List.mem_append, List.mem_cons, List.not_mem_nil, or_false] at *
  tauto

/-- What is stored and what is being read comes from the text read so far. -/
structure Track (d : Dict) (s : St) (p : Bytes) : Prop where
  stored : ∀ c ∈ s.dict, c ∈ d ∨ FromText c p
  current : FromText (s.name, s.value) p

theorem Track.put {d : Dict} {s : St} {p : Bytes} (h : Track d s p) (sc : Bool) : ∀ c ∈ put sc s, c ∈ d ∨ FromText c p := by
  intro c hc
  unfold Cookie.put at hc
  split at hc
  · exact h.stored c hc
  · rcases List.mem_append.1 hc with hc | hc
    · exact h.stored c hc
    · rw [List.mem_singleton] at hc
      subst hc
      exact .inr h.current

theorem Track.nameOnly {n v t : Bytes} (h : FromText (n, v) t) : FromText ([], v) t :=
  ⟨by have := h.1; simp only [List.length_nil] at *; omega, fun y hy => h.2 y (by simp only [List.mem_append] at *; tauto)⟩

theorem step_track {d : Dict} {sc : Bool} {s s' : St} {p : Bytes} {x : UInt8} (h : Track d s p) (e : step sc s x = some s') :
    Track d s' (p ++ [x]) := by
  have h1 : ∀ c ∈ s.dict, c ∈ d ∨ FromText c (p ++ [x]) := fun c hc => (h.stored c hc).imp_right fun h => h.mono x
  have h2 : ∀ c ∈ Cookie.put sc s, c ∈ d ∨ FromText c (p ++ [x]) := fun c hc => (h.put sc c hc).imp_right fun h => h.mono x
  unfold step at e
  split at e
  all_goals (repeat' split at e)
  all_goals first
    | (rw [Option.some.injEq] at e
       subst e
       first
       | exact ⟨h1, h.current.mono x⟩
       | exact ⟨h1, h.current.name x⟩
       | exact ⟨h1, h.current.value x⟩
       | exact ⟨h2, (Track.nameOnly h.current).mono x⟩
       | exact ⟨h2, FromText.nil _⟩)
    | cases e

theorem loop_track {d : Dict} {sc : Bool} (t : Bytes) : ∀ (s : St) (p : Bytes), Track d s p →
    (∀ r, loop sc s t = .inl r → ∀ c ∈ r, c ∈ d ∨ FromText c (p ++ t)) ∧
    (∀ s', loop sc s t = .inr s' → Track d s' (p ++ t)) := by
  induction t with
  | nil =>
    intro s p h
    refine ⟨fun r e => by simp [loop] at e, fun s' e => ?_⟩
    simp only [loop, Sum.inr.injEq] at e
    subst e
    rw [List.append_nil]; exact h
  | cons x t ih =>
    intro s p h
    rw [loop]
    cases hs : step sc s x with
    | none =>
      refine ⟨fun r e c hc => ?_, fun s' e => by simp at e⟩
      simp only [Sum.inl.injEq] at e
      subst e
      refine (h.stored c hc).imp_right fun hf => ⟨?_, fun y hy => List.mem_append_left _ (hf.2 y hy)⟩
      rw [List.length_append]; have := hf.1; omega
    | some s1 =>
      have := ih s1 (p ++ [x]) (step_track h hs)
      rw [List.append_assoc] at this
      exact this

/-- Every cookie that a header adds is made of a part of its text. -/
theorem parse_from (d : Dict) (t : Bytes) (sc : Bool) : ∀ c ∈ (parseCookieHeader d t sc).2, c ∈ d ∨ FromText c t := by
  have h := loop_track (d := d) (sc := sc) t { dict := d } [] ⟨fun c hc => .inl hc, .nil _⟩
  rw [List.nil_append] at h
  unfold parseCookieHeader
  split
  · rename_i r hr; exact h.1 r hr
  · rename_i s hs; exact (h.2 s hs).put sc

end Verif.Cookie

namespace Verif.Http
open Verif.Cookie

theorem addCookies_from (sc : Bool) (vs : List Bytes) : ∀ (d : Dict), ∀ c ∈ addCookies sc d vs, c ∈ d ∨ ∃ v ∈ vs, FromText c v := by
  induction vs with
  | nil => intro d c hc; exact .inl hc
  | cons v vs ih =>
    intro d c hc
    rcases ih _ c hc with h | ⟨w, hw, h⟩
    · rcases parse_from d v sc c h with h | h
      · exact .inl h
      · exact .inr ⟨v, List.mem_cons_self, h⟩
    · exact .inr ⟨w, List.mem_cons_of_mem _ hw, h⟩

/-- The name of the headers with cookies. -/
def cookieName (isRequest : Bool) : Bytes := if isRequest then b! "Cookie" else b! "Set-Cookie"

/-- Every cookie comes from a header; the length is to be sent. -/
structure Kept (r : Bool) (m : Msg) : Prop where
  length : m.doNotSendContentLength = false
  cookies : ∀ c ∈ m.cookies, ∃ e ∈ m.headers, iequals e.1 (cookieName r) = true ∧ FromText c e.2

theorem Kept.congr {r : Bool} {m m' : Msg} (h : Kept r m) (e1 : m'.doNotSendContentLength = m.doNotSendContentLength)
    (e2 : m'.cookies = m.cookies) (e3 : ∀ e ∈ m.headers, e ∈ m'.headers) : Kept r m' := by
  refine ⟨e1.trans h.length, fun c hc => ?_⟩
  rw [e2] at hc
  obtain ⟨e, he, h⟩ := h.cookies c hc
  exact ⟨e, e3 e he, h⟩

theorem Kept.same {r : Bool} {m m' : Msg} (h : Kept r m) (e1 : m'.doNotSendContentLength = m.doNotSendContentLength)
    (e2 : m'.cookies = m.cookies) (e3 : m'.headers = m.headers) : Kept r m' := h.congr e1 e2 (by rw [e3]; exact fun _ h => h)

theorem hswitch_keepsMsg (cfg : Cfg) (r : Bool) (s : S) (c : UInt8) (h : Kept r s.msg) : Kept r (hswitch cfg s c).st.msg := by
  cases hs : s.hs <;> simp only [hswitch, hs]
  all_goals (repeat' split)
  all_goals first
    | exact h
    | exact h.same rfl rfl rfl
    | exact h.congr rfl rfl (fun e he => List.mem_append_left _ he)

theorem hstep_keepsMsg (cfg : Cfg) (r : Bool) (s : S) (c : UInt8) (h : Kept r s.msg) : Kept r (hstep cfg s c).st.msg := by
  unfold hstep
  cases cfg.saveRaw
  · exact hswitch_keepsMsg cfg r s c h
  · exact hswitch_keepsMsg cfg r { s with raw := s.raw ++ [c] } c h

theorem cbyte_keepsMsg (cfg : Cfg) (r : Bool) (s : S) (c : UInt8) (h : Kept r s.msg) : Kept r (cbyte cfg s c).st.msg := by
  cases hc : s.cs <;> simp only [cbyte, cstep, hc]
  case chunk =>
    have : Kept r (chunkData cfg s c []).1.msg := by
      unfold chunkData
      (repeat' split) <;> exact h.same rfl rfl rfl
    generalize chunkData cfg s c [] = q at *
    split <;> exact this
  all_goals (repeat' split)
  all_goals exact h.same rfl rfl rfl

theorem createBuffer_keepsMsg {r : Bool} {s : S} (h : Kept r s.msg) : Kept r (createBuffer s).msg := by
  unfold createBuffer; split <;> exact h.same rfl rfl rfl

theorem concatenateChunks_keepsMsg {r : Bool} {s : S} (h : Kept r s.msg) : Kept r (concatenateChunks s).msg := by
  have := createBuffer_keepsMsg (s := { s with msg := { s.msg with contentLength := s.msg.chunkCache.length } }) (h.same rfl rfl rfl)
  unfold concatenateChunks
  dsimp only
  split
  · exact this
  · exact this.same rfl rfl rfl

theorem updateMessage_keepsMsg {cfg : Cfg} (ho : OrderOk cfg.ord) {s : S} (h : Kept cfg.isRequest s.msg) :
    Kept cfg.isRequest (updateMessage cfg s).msg := by
  have key : ∀ sc, ∀ c ∈ addCookies sc s.msg.cookies (cfg.ord (s.msg.headers.values (cookieName cfg.isRequest))),
      ∃ e ∈ s.msg.headers, iequals e.1 (cookieName cfg.isRequest) = true ∧ FromText c e.2 := by
    intro sc c hc
    rcases addCookies_from sc _ _ c hc with h1 | ⟨v, hv, h1⟩
    · exact h.cookies c h1
    · have hv := (ho _).subset hv
      unfold Dict.values at hv
      obtain ⟨e, he, rfl⟩ := List.mem_map.1 hv
      rw [List.mem_filter] at he
      exact ⟨e, he.1, he.2, h1⟩
  cases hr : cfg.isRequest with
  | true => rw [hr] at key; unfold updateMessage; rw [if_pos hr]; exact ⟨h.length, key false⟩
  | false => rw [hr] at key; unfold updateMessage; rw [if_neg (by rw [hr]; simp)]; exact ⟨h.length, key true⟩

theorem finishHeaders_keepsMsg {cfg : Cfg} (ho : OrderOk cfg.ord) {s : S} (h : Kept cfg.isRequest s.msg) :
    Kept cfg.isRequest (finishHeaders cfg s).2.msg := by
  unfold finishHeaders
  dsimp only
  generalize hg : updateMessage cfg _ = s1
  have h1 : Kept cfg.isRequest s1.msg := by
    rw [← hg]
    refine updateMessage_keepsMsg ho ?_
    dsimp only
    refine h.same ?_ ?_ ?_ <;> (unfold Msg.updateTransferEncoding; split <;> rfl)
  split
  · exact h1.same rfl rfl rfl
  split
  · exact h1.same rfl rfl rfl
  split
  · split
    · exact h1
    · rename_i m hm
      have hm' : Kept cfg.isRequest m := by
        unfold Msg.updateContentLength at hm
        split at hm
        · simp only [Option.some.injEq] at hm; subst hm; exact h1.same rfl rfl rfl
        · simp only [Option.map_eq_some_iff] at hm
          obtain ⟨n, _, rfl⟩ := hm
          exact h1.same rfl rfl rfl
      split
      · exact hm'.same rfl rfl rfl
      · have h2 : ∀ x : S, Kept cfg.isRequest x.msg → Kept cfg.isRequest (if cfg.headersOnly = true then (Tri.yes, x) else
            (Tri.more, createBuffer x)).2.msg := by
          intro x hx
          split
          · exact hx
          · exact createBuffer_keepsMsg hx
        exact h2 _ (by dsimp only; split <;> exact hm'.same rfl rfl rfl)
  split
  · exact h1.same rfl rfl rfl
  · exact h1.same rfl rfl rfl

theorem finishForm_keepsMsg {cfg : Cfg} {r : Bool} {s : S} (h : Kept r s.msg) : Kept r (finishForm cfg s).msg := by
  unfold finishForm
  dsimp only
  (repeat' split) <;> exact h.same rfl rfl rfl

theorem computeStatus_keepsMsg {r : Bool} {m : Msg} (b : Bool) (h : Kept r m) : Kept r (computeStatus m b) := by
  unfold computeStatus
  (repeat' split) <;> exact h.same rfl rfl rfl

theorem finish_end_keepsMsg {cfg : Cfg} {r : Bool} {s : S} (h : Kept r s.msg) : Kept r (finish cfg { s with ms := .end_ }).msg :=
  finishForm_keepsMsg (computeStatus_keepsMsg _ (h.same rfl rfl rfl))

theorem inv_keptMsg {cfg : Cfg} (ho : OrderOk cfg.ord) : Inv cfg (fun s => Kept cfg.isRequest s.msg) where
  upd s l t c h := h.same rfl rfl rfl
  ec s e h := h.same rfl rfl rfl
  begin_ s h := h.same rfl rfl rfl
  enter s hs h := h.same rfl rfl rfl
  h s c h := hstep_keepsMsg cfg _ s c h
  c s c h := cbyte_keepsMsg cfg _ s c h
  fh s h hs := finishHeaders_keepsMsg ho h
  cc s h := concatenateChunks_keepsMsg h
  content s buf h hs := by
    unfold consumeContent storeContent blit
    dsimp only
    (repeat' split) <;> exact h.same rfl rfl rfl
  noLength s buf h hs := by
    unfold consumeAsNextChunk
    dsimp only
    (repeat' split) <;> exact h.same rfl rfl rfl
  fin s h := finish_end_keepsMsg h
  status s b h := computeStatus_keepsMsg b h

/-- After any number of buffers. -/
theorem outcome_keepsMsg {cfg : Cfg} (ho : OrderOk cfg.ord) {m : Msg} (hm : Kept cfg.isRequest m) {bufs : List Bytes} {o : Outcome}
    (h : outcome cfg (fresh cfg m) bufs = some o) : Kept cfg.isRequest o.message := by
  unfold outcome at h
  rw [Option.map_eq_some_iff] at h
  obtain ⟨⟨rc, s', rest, more⟩, hf, rfl⟩ := h
  exact (inv_keptMsg ho).feed bufs (s := fresh cfg m) hm hf

/-- ... and after the end of the connection. -/
theorem outcomeAtEof_keepsMsg {cfg : Cfg} (ho : OrderOk cfg.ord) {m : Msg} (hm : Kept cfg.isRequest m) {bufs : List Bytes} {b : Bool}
    {o : Outcome} (h : outcomeAtEof cfg (fresh cfg m) bufs = some (b, o)) : Kept cfg.isRequest o.message := by
  unfold outcomeAtEof at h
  rw [Option.map_eq_some_iff] at h
  obtain ⟨⟨rc, s', rest, more⟩, hf, e⟩ := h
  have hk := (inv_keptMsg ho).feed bufs (s := fresh cfg m) hm hf
  dsimp only at e
  split at e
  · simp only [Prod.mk.injEq] at e
    rw [← e.2]
    unfold checkPrematureEof
    split
    · exact hk
    · change Kept _ (finish cfg (concatenateChunks { s' with ms := .end_ })).msg
      rw [concatenateChunks_setms]
      exact finish_end_keepsMsg (concatenateChunks_keepsMsg hk)
  · simp only [Prod.mk.injEq] at e
    rw [← e.2]
    exact hk

end Verif.Http
