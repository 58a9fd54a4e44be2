import Verif.Lemmas.WriterMemory
import Mathlib.Data.List.Induction
/-
Lemmas for `Verif.WriterMemory`: sending, and the whole invariant.
-/
namespace Verif.WriterMemory
open Verif.Writer (W)
open Verif.Spec.WriterMemory

/-- The buffers can be read, give `d`, and are of the writer or needed by it. -/
structure Parts (s : St) (l : List Buf) (N : List Nat) (d : Bytes) : Prop where
  valid : ∃ ds, List.Forall₂ (Valid s) l ds ∧ ds.flatten = d
  owns : ∀ b ∈ l, ∀ n, b.addr = .own n → n ∈ owned s
  users : ∀ b ∈ l, ∀ n, b.addr = .user n → n ∈ N

structure Part (s : St) (r : St × List Buf) (w : W) (N : List Nat) (d : Bytes) : Prop where
  core : Core r.1 w N
  same : Same s r.1
  grows : Grows s r.1
  mono : ∀ n ∈ owned s, n ∈ owned r.1
  parts : Parts r.1 r.2 N d

theorem Parts.nil (s : St) (N : List Nat) : Parts s [] N [] := ⟨⟨[], .nil, rfl⟩, nofun, nofun⟩

theorem Parts.append {s : St} {l l' : List Buf} {N : List Nat} {d d' : Bytes} (h : Parts s l N d) (h' : Parts s l' N d') :
    Parts s (l ++ l') N (d ++ d') := by
  obtain ⟨ds, h1, h2⟩ := h.valid
  obtain ⟨ds', h1', h2'⟩ := h'.valid
  refine ⟨⟨ds ++ ds', forall₂_append h1 h1', by simp [h2, h2']⟩, ?_, ?_⟩
  · intro b hb
    rcases List.mem_append.1 hb with hb | hb
    · exact h.owns b hb
    · exact h'.owns b hb
  · intro b hb
    rcases List.mem_append.1 hb with hb | hb
    · exact h.users b hb
    · exact h'.users b hb

theorem Parts.move {s s' : St} {l : List Buf} {N : List Nat} {d : Bytes} (h : Parts s l N d) (hg : Grows s s')
    (hm : ∀ n ∈ owned s, n ∈ owned s') : Parts s' l N d := by
  obtain ⟨ds, h1, h2⟩ := h.valid
  exact ⟨⟨ds, valids_grow h1 hg, h2⟩, fun b hb n hn => hm n (h.owns b hb n hn), h.users⟩

theorem parts_crlf (s : St) (N : List Nat) : Parts s [⟨.crlf, 0, 2⟩] N (b! "\r\n") :=
  ⟨⟨[b! "\r\n"], .cons (valid_crlf s) .nil, by simp⟩, (by intro b hb n hn; rw [List.mem_singleton.1 hb] at hn; cases hn),
   (by intro b hb n hn; rw [List.mem_singleton.1 hb] at hn; cases hn)⟩

theorem parts_text {s : St} {w : W} {N : List Nat} (h : Core s w N) (d : Bytes) :
    Parts (s.addText d).1 [(s.addText d).2] N d := by
  obtain ⟨hc, hs, hg, hv, hb, ht, _, he, _⟩ := core_addText h d
  refine ⟨⟨[d], .cons hv .nil, by simp⟩, ?_, ?_⟩
  · intro b hb n hn
    rw [List.mem_singleton.1 hb, he] at hn
    cases hn
    simp only [owned, List.mem_append]
    exact .inl (.inl (.inl ht))
  · intro b hb n hn
    rw [List.mem_singleton.1 hb, he] at hn
    cases hn

theorem parts_bufs {s : St} {w : W} {N : List Nat} (h : Core s w N) : Parts s s.bufs N w.buffers.flatten :=
  ⟨⟨_, h.bufs, rfl⟩, fun b hb n hn => by unfold owned; exact List.mem_append_left _ (h.owns b hb n hn), h.users⟩

theorem prepare_bare (t : TableOrder) (w : W) :
    Writer.prepareBuffers t (bare w) = (bare (Writer.prepareBuffers t w).1, (Writer.prepareBuffers t w).2) := rfl

theorem part_head {s : St} {w : W} {N : List Nat} (t : TableOrder) (h : Core s w N) :
    Part s (s.headPart t) (Writer.headPart t w).1 N (Writer.headPart t w).2 := by
  unfold St.headPart Writer.headPart
  rw [show s.w.sentHeaders = w.sentHeaders by rw [h.weq]; rfl]
  split
  · exact ⟨h, .rfl', .refl s, fun _ h => h, .nil s N⟩
  · rw [h.weq, prepare_bare]
    simp only
    generalize hp : Writer.prepareBuffers t w = p
    have hb : p.1.buffers = w.buffers := by rw [← hp]; rfl
    have hg := grows_alloc s p.2
    refine ⟨⟨h.fault, rfl, ?_, h.owns, h.users, ?_, ?_⟩, ⟨rfl, rfl, rfl, rfl, rfl, rfl, rfl⟩, hg, ?_, ?_⟩
    · show List.Forall₂ _ s.bufs p.1.buffers
      rw [hb]
      exact valids_grow h.bufs hg
    · intro n hn
      by_cases hk : n = s.own.length
      · subst hk
        show (Heap.get (s.own ++ [some p.2]) _).isSome
        rw [get_append_new]; rfl
      · have : n ∈ owned s := by
          simp only [owned, St.alloc, List.mem_append, List.mem_singleton] at hn ⊢
          tauto
        have hl := h.live n this
        show (Heap.get (s.own ++ [some p.2]) _).isSome
        rw [get_append_lt _ (lt_of_get hl)]; exact hl
    · intro n
      have h1 := h.once n
      have h2 := count_new h.live
      simp only [owned, St.alloc, List.count_append] at h1 h2 ⊢
      by_cases hk : n = s.own.length
      · subst hk; simp; omega
      · simp [Ne.symm hk]; omega
    · intro n hn
      simp only [owned, St.alloc, List.mem_append] at hn ⊢
      tauto
    · refine ⟨⟨[p.2], .cons (valid_new s p.2 _ rfl) .nil, by simp⟩, ?_, ?_⟩
      · intro b hb n hn
        rw [List.mem_singleton.1 hb] at hn
        cases hn
        simp [owned]
      · intro b hb n hn
        rw [List.mem_singleton.1 hb] at hn
        cases hn

theorem part_payload {s : St} {w : W} {N : List Nat} (h : Core s w N) :
    Part s s.payloadPart w N (Writer.payloadPart w) := by
  unfold St.payloadPart Writer.payloadPart
  rw [show s.w.contentLength = w.contentLength by rw [h.weq]; rfl,
    show s.w.supportsChunks = w.supportsChunks by rw [h.weq]; rfl,
    show s.w.sendingChunks = w.sendingChunks by rw [h.weq]; rfl]
  split
  · split
    · obtain ⟨hc, hs, hg, hv, hb, ht, hm, he, _⟩ := core_addText h (toHex w.contentLength)
      refine ⟨hc, hs, hg, hm, ?_⟩
      exact (((parts_text h _).append (parts_crlf _ N)).append ((parts_bufs h).move hg hm)).append (parts_crlf _ N)
    · exact ⟨h, .rfl', .refl s, fun _ h => h, parts_bufs h⟩
  · exact ⟨h, .rfl', .refl s, fun _ h => h, .nil s N⟩

theorem part_final {s : St} {w : W} {N : List Nat} (h : Core s w N) (final : Bool) :
    Part s (s.finalPart final) w N (Writer.finalPart w final) := by
  unfold St.finalPart Writer.finalPart
  rw [show s.w.supportsChunks = w.supportsChunks by rw [h.weq]; rfl,
    show s.w.sendingChunks = w.sendingChunks by rw [h.weq]; rfl]
  split
  · obtain ⟨hc, hs, hg, hv, hb, ht, hm, he, _⟩ := core_addText h (b! "0")
    exact ⟨hc, hs, hg, hm, ((parts_text h _).append (parts_crlf _ N)).append (parts_crlf _ N)⟩
  · exact ⟨h, .rfl', .refl s, fun _ h => h, .nil s N⟩

/-! ### The invariant -/

/-- What is left of a writing. -/
structure PendOk (s : St) (i : Ideal) (p : Pending) : Prop where
  parts : ∃ d, Parts s p.bufs i.needed d ∧ i.w.wire = i.sent ++ d.drop p.off
  off : ∀ b r, p.bufs = b :: r → p.off ≤ b.len

structure Inv (s : St) (i : Ideal) : Prop where
  core : s.dead = false → Core s i.w i.needed
  gone : s.dead = true → s.fault = false ∧ s.w = bare i.w ∧ s.pending = none
  user : s.user = i.user
  held : s.held = i.held
  dead : s.dead = true ↔ i.held = false ∧ i.busy = none
  busy : s.pending.map (·.handler) = i.busy
  sent : s.wire = i.sent
  done : i.busy = none → i.sent = i.w.wire
  pend : ∀ p, s.pending = some p → PendOk s i p

theorem core_wire {s : St} {w : W} {N : List Nat} (h : Core s w N) (x : Bytes) : Core s { w with wire := x } N :=
  ⟨h.fault, h.weq, h.bufs, h.owns, h.users, h.live, h.once⟩

theorem idle_of {s : St} {i : Ideal} (h : Inv s i) (hh : i.held = true) (hb : i.busy = none) :
    s.dead = false ∧ s.pending = none ∧ Core s i.w i.needed ∧ s.use = s := by
  have hd : s.dead = false := by
    cases hd : s.dead with
    | false => rfl
    | true => have := (h.dead.1 hd).1; rw [hh] at this; cases this
  refine ⟨hd, ?_, h.core hd, ?_⟩
  swap
  · obtain ⟨⟩ := s
    simp only at hd
    subst hd
    simp [St.use]
  have := h.busy
  rw [hb] at this
  simpa using this

/-- A call on the writer other than sending. -/
theorem inv_call {s s' : St} {i : Ideal} {w' : W} {N : List Nat} (h : Inv s i) (hh : i.held = true) (hb : i.busy = none)
    (hc : Core s' w' N) (hs : Same s s') (hw : w'.wire = i.w.wire) :
    Inv s' { i with w := w', needed := N } := by
  obtain ⟨hd, hp, _, _⟩ := idle_of h hh hb
  have hd' : s'.dead = false := hs.dead.trans hd
  refine ⟨fun _ => hc, fun h => (by rw [hd'] at h; cases h), hs.user.trans h.user, hs.held.trans h.held, ?_, ?_, hs.wire.trans h.sent, ?_, ?_⟩
  · rw [hs.dead]; exact h.dead
  · rw [hs.pending]; exact h.busy
  · intro _; show i.sent = w'.wire; rw [hw]; exact h.done hb
  · intro p hp'; rw [hs.pending, hp] at hp'; cases hp'

theorem flush_wire (w : W) : (Writer.flush w).wire = w.wire := by
  unfold Writer.flush; split
  · rfl
  · split <;> rfl

theorem buffer_wire (w : W) (d : Bytes) : (Writer.writeBuffer w d).wire = w.wire := by
  unfold Writer.writeBuffer; split
  · rfl
  · exact flush_wire w

theorem head_wire (t : TableOrder) (w : W) : (Writer.headPart t w).1.wire = w.wire := by
  unfold Writer.headPart; split <;> rfl

theorem open_flush (w : W) : (Writer.flush w).isOpen = w.isOpen := by
  unfold Writer.flush; split
  · rfl
  · split <;> rfl

theorem inv_sendMore {s : St} {i : Ideal} (t : TableOrder) (h : Inv s i) (hh : i.held = true) (hb : i.busy = none)
    (final : Bool) (hd : Handler) :
    Inv (s.sendMore t final hd)
      { i with w := Writer.sendMore t i.w final, busy := if i.w.isOpen then some hd else none } := by
  obtain ⟨hdd, hp, hc, _⟩ := idle_of h hh hb
  unfold St.sendMore Writer.sendMore
  rw [show s.w.isOpen = i.w.isOpen by rw [hc.weq]; rfl]
  split
  · obtain ⟨c0, s0, _, _⟩ := core_flush hc
    have p1 := part_head t c0
    have p2 := part_payload p1.core
    have p3 := part_final p2.core final
    have hw : (Writer.headPart t (Writer.flush i.w)).1.wire = i.w.wire := by rw [head_wire, flush_wire]
    simp only
    generalize hx1 : s.flush = x0 at *
    generalize hx2 : x0.headPart t = x1 at *
    generalize hx3 : x1.1.payloadPart = x2 at *
    generalize hx4 : x2.1.finalPart final = x3 at *
    generalize Writer.headPart t (Writer.flush i.w) = v at *
    have sm : Same s x3.1 := s0.trans (p1.same.trans (p2.same.trans p3.same))
    have parts := ((p1.parts.move p2.grows p2.mono).append p2.parts).move p3.grows p3.mono |>.append p3.parts
    have hpn : x3.1.pending = none := sm.pending.trans hp
    refine ⟨?_, ?_, sm.user.trans h.user, sm.held.trans h.held, ?_, rfl, sm.wire.trans h.sent, ?_, ?_⟩
    · intro _
      have := core_wire p3.core (v.1.wire ++ (v.2 ++ Writer.payloadPart v.1 ++ Writer.finalPart v.1 final))
      exact ⟨by simp [this.fault, hpn], this.weq, this.bufs, this.owns, this.users, this.live, this.once⟩
    · intro hq; rw [show x3.1.dead = s.dead from sm.dead, hdd] at hq; cases hq
    · rw [show x3.1.dead = s.dead from sm.dead, hdd]; simp
    · simp
    · intro p hp
      cases hp
      refine ⟨⟨_, parts.move ⟨rfl, fun _ _ => rfl⟩ (fun _ h => h), ?_⟩, fun b r _ => Nat.zero_le _⟩
      show v.1.wire ++ _ = i.sent ++ _
      rw [hw, h.done hb]; rfl
  · refine ⟨fun _ => ⟨hc.fault, hc.weq, hc.bufs, hc.owns, hc.users, hc.live, hc.once⟩, ?_, h.user, h.held, ?_, ?_, h.sent, ?_, ?_⟩
    · intro hq; rw [show s.dead = true from hq] at hdd; cases hdd
    · show s.dead = true ↔ _
      rw [hdd]; simp [hh]
    · show s.pending.map _ = _
      rw [hp]; simp
    · intro _; exact h.done hb
    · intro p hp'; rw [show s.pending = some p from hp'] at hp; cases hp

/-! ### Taking the bytes -/

theorem skip_spec {s : St} {l : List Buf} {n : Nat} {ds : List Bytes} (h : List.Forall₂ (Valid s) l ds)
    (ho : ∀ b r, l = b :: r → n ≤ b.len) :
    ∃ ds', List.Forall₂ (Valid s) (skip l n).1 ds' ∧ ds'.flatten.drop (skip l n).2 = ds.flatten.drop n ∧
      (∀ b ∈ (skip l n).1, b ∈ l) ∧ (∀ b r, (skip l n).1 = b :: r → (skip l n).2 < b.len) := by
  induction h generalizing n with
  | nil => exact ⟨[], .nil, by simp [skip], nofun, nofun⟩
  | @cons b d r ds hv hr ih =>
    unfold skip
    split
    · rename_i hlt
      refine ⟨d :: ds, .cons hv hr, rfl, fun _ h => h, ?_⟩
      intro b' r' he; cases he; exact hlt
    · rename_i hge
      obtain ⟨ds', h1, h2, h3, h4⟩ := ih (n := 0) (fun _ _ _ => Nat.zero_le _)
      refine ⟨ds', h1, ?_, fun b' hb' => List.mem_cons_of_mem _ (h3 b' hb'), h4⟩
      rw [h2]
      have hd : d.length = b.len := by obtain ⟨_, _, _, h⟩ := hv; exact h
      have : n = d.length := by have := ho b r rfl; omega
      subst this
      simp

theorem inv_put {s : St} {i : Ideal} (h : Inv s i) : Inv s.put { i with sent := i.w.wire.take (i.sent.length + 1) } := by
  unfold St.put
  cases hp : s.pending with
  | none =>
    have hb : i.busy = none := by rw [← h.busy, hp]; rfl
    have : i.w.wire.take (i.sent.length + 1) = i.sent := by rw [h.done hb]; exact List.take_of_length_le (by omega)
    simp only [this]
    exact h
  | some p =>
    obtain ⟨⟨d, ⟨⟨ds, hv, hf⟩, ho, hu⟩, hw⟩, hoff⟩ := h.pend p hp
    obtain ⟨ds', hv', hf', hm, hlt⟩ := skip_spec hv hoff
    simp only
    cases hs : skip p.bufs p.off with
    | mk l n =>
      rw [hs] at hv' hf' hm hlt
      cases l with
      | nil =>
        cases hv'
        have : i.w.wire.take (i.sent.length + 1) = i.sent := by
          rw [hw, ← hf, ← hf', List.take_of_length_le] <;> simp
        simp only [this]
        exact h
      | cons b r =>
        cases hv' with
        | @cons _ d' _ dr hvb hvr =>
          obtain ⟨c, hc, hsl, hlen⟩ := hvb
          have hn : n < d'.length := by rw [hlen]; exact hlt b r rfl
          have hx : c[b.off + n]? = some d'[n] := by
            have : (slice c b.off b.len)[n]? = some d'[n] := by rw [hsl]; exact List.getElem?_eq_getElem hn
            rw [slice, List.getElem?_take_of_lt (by omega), List.getElem?_drop] at this
            exact this
          simp only [hc, Option.bind_some, hx]
          have hdrop : (d' :: dr).flatten.drop n = d'[n] :: (d' :: dr).flatten.drop (n + 1) := by
            have hn' : n < (d' :: dr).flatten.length := by simp; omega
            rw [List.drop_eq_getElem_cons hn']
            congr 1
            simp [List.getElem_append_left hn]
          have htake : i.w.wire.take (i.sent.length + 1) = i.sent ++ [d'[n]] := by
            rw [hw, ← hf, ← hf', hdrop, List.take_append, List.take_of_length_le (by omega)]
            simp
          have hdd : s.dead = false := by
            cases hq : s.dead with
            | false => rfl
            | true => have := (h.gone hq).2.2; rw [hp] at this; cases this
          have hcr := h.core hdd
          refine ⟨fun _ => ⟨hcr.fault, hcr.weq, hcr.bufs, hcr.owns, hcr.users, hcr.live, hcr.once⟩, ?_, h.user, h.held, h.dead, ?_, ?_, ?_, ?_⟩
          · intro hq; rw [show s.dead = true from hq] at hdd; cases hdd
          · have := h.busy; rw [hp] at this; exact this
          · show s.wire ++ _ = _; rw [htake, h.sent]
          · intro hb; have := h.busy; rw [hp, show i.busy = none from hb] at this; cases this
          · intro q hq
            cases hq
            refine ⟨⟨(d' :: dr).flatten, ⟨⟨d' :: dr, ?_, rfl⟩, fun b hb => ho b (hm b hb), fun b hb => hu b (hm b hb)⟩, ?_⟩, ?_⟩
            · exact (List.Forall₂.cons ⟨c, hc, hsl, hlen⟩ hvr).imp fun _ _ h => h
            · rw [htake, hw, ← hf, ← hf', hdrop]; simp
            · intro b' r' he; cases he; exact hlt b r rfl

theorem core_pending {s : St} {w : W} {N : List Nat} (h : Core s w N) (p : Option Pending) : Core { s with pending := p } w N :=
  ⟨h.fault, h.weq, h.bufs, h.owns, h.users, h.live, h.once⟩

theorem core_called {s : St} {w : W} {N : List Nat} (h : Core s w N) (l : List Called) : Core { s with called := l } w N :=
  ⟨h.fault, h.weq, h.bufs, h.owns, h.users, h.live, h.once⟩

theorem core_destroy {s : St} {w : W} {N : List Nat} (h : Core s w N) :
    s.destroy.fault = false ∧ s.destroy.w = bare w ∧ s.destroy.user = s.user ∧ s.destroy.pending = s.pending ∧
      s.destroy.wire = s.wire ∧ s.destroy.held = s.held ∧ s.destroy.dead = true := by
  obtain ⟨f1, f2, f3, f4, f5, f6, f7, f8, f9, f10, f11, f12⟩ := free_other s (owned s)
  refine ⟨?_, f1.trans h.weq, f2, f8, f9, f11, rfl⟩
  show (s.free (owned s)).fault = false
  rw [free_fault s (owned s) h.live h.once]; exact h.fault

theorem core_callBack {s : St} {i : Ideal} (hc : Core s i.w i.needed) (h : Handler) (ok : Bool) :
    ∃ N, Core (St.callBack { s with pending := none } h ok) (i.over h ok).w N ∧ (i.held = true → (i.over h ok).needed = N) ∧
      (St.callBack { s with pending := none } h ok).user = s.user ∧
      (St.callBack { s with pending := none } h ok).pending = none ∧
      (St.callBack { s with pending := none } h ok).wire = s.wire ∧
      (St.callBack { s with pending := none } h ok).held = s.held ∧
      (St.callBack { s with pending := none } h ok).dead = s.dead := by
  cases h with
  | user k =>
    refine ⟨i.needed, core_called (core_pending hc none) _, ?_, rfl, rfl, rfl, rfl, rfl⟩
    intro hh; simp [Ideal.over, hh]
  | own =>
    simp only [St.callBack, Ideal.over, BEq.rfl, Bool.true_and]
    rw [show s.w.isRequest = i.w.isRequest by rw [hc.weq]; rfl, show s.w.sendingChunks = i.w.sendingChunks by rw [hc.weq]; rfl]
    split
    · obtain ⟨h1, h2⟩ := core_clear (core_pending hc none)
      rename_i hcl
      exact ⟨[], core_called h1 _, fun _ => by rw [hcl]; rfl, h2.user, h2.pending, h2.wire, h2.held, h2.dead⟩
    · rename_i hcl
      refine ⟨i.needed, core_called (core_pending hc none) _, ?_, rfl, rfl, rfl, rfl, rfl⟩
      intro hh; rw [Bool.eq_false_iff.2 hcl, hh]; rfl

theorem inv_over {s : St} {i : Ideal} (hd : s.dead = false) (hc : Core s i.w i.needed) (hu : s.user = i.user)
    (hh : s.held = i.held) (hs : s.wire = i.sent) (hw : i.sent = i.w.wire) (h : Handler) (ok : Bool) :
    Inv (St.unused (St.callBack { s with pending := none } h ok)) (i.over h ok) := by
  obtain ⟨N, c0, c1, c2, c3, c4, c5, c6⟩ := core_callBack hc h ok
  generalize hx : St.callBack { s with pending := none } h ok = x at *
  have hbusy : (i.over h ok).busy = none := rfl
  have hheld : (i.over h ok).held = i.held := rfl
  have huser : (i.over h ok).user = i.user := rfl
  have hsent : (i.over h ok).sent = i.sent := rfl
  have hwire : (i.over h ok).sent = (i.over h ok).w.wire := by
    show i.sent = W.wire (if _ then _ else _)
    split
    · exact hw
    · exact hw
  have hxd : x.dead = false := c6.trans hd
  unfold St.unused
  simp only [c3, hxd, Option.map_none, Option.getD_none, Bool.or_false, Bool.false_or]
  rw [c5, hh]
  cases hq : i.held with
  | true =>
    simp only [if_true]
    refine ⟨fun _ => ?_, ?_, c2.trans hu, (c5.trans hh).trans hheld.symm, ?_, by rw [c3]; rfl, (c4.trans hs), fun _ => hwire, ?_⟩
    · rw [c1 hq]; exact c0
    · intro h; rw [hxd] at h; cases h
    · rw [hxd, hheld, hq]; simp
    · intro p hp; rw [c3] at hp; cases hp
  | false =>
    simp only [Bool.false_eq_true, if_false]
    obtain ⟨d1, d2, d3, d4, d5, d6, d7⟩ := core_destroy c0
    refine ⟨?_, ?_, (d3.trans c2).trans hu, ((d6.trans c5).trans hh).trans hheld.symm, ?_, ?_, (d5.trans c4).trans hs, fun _ => hwire, ?_⟩
    · intro h; rw [d7] at h; cases h
    · intro _; exact ⟨d1, d2, d4.trans c3⟩
    · rw [d7, hheld, hq]; simp [hbusy]
    · rw [d4, c3]; rfl
    · intro p hp; rw [d4, c3] at hp; cases hp

theorem pending_of {s : St} {i : Ideal} {p : Pending} (h : Inv s i) (hp : s.pending = some p) :
    s.dead = false ∧ Core s i.w i.needed ∧ i.busy = some p.handler := by
  have hd : s.dead = false := by
    cases hq : s.dead with
    | false => rfl
    | true => have := (h.gone hq).2.2; rw [hp] at this; cases this
  refine ⟨hd, h.core hd, ?_⟩
  have := h.busy; rw [hp] at this; exact this.symm

theorem inv_finish {s : St} {i : Ideal} (t : TableOrder) (h : Inv s i) : Inv (step t s .finish) (i.step t .finish) := by
  show Inv (match s.pending with
    | none => s
    | some p => match skip p.bufs p.off with
      | ([], _) => (St.callBack { s with pending := none } p.handler true).unused
      | _ => s) (match i.busy with
    | some h => if i.sent = i.w.wire then i.over h true else i
    | none => i)
  cases hp : s.pending with
  | none =>
    have hb : i.busy = none := by rw [← h.busy, hp]; rfl
    rw [hb]; exact h
  | some p =>
    obtain ⟨hd, hc, hb⟩ := pending_of h hp
    obtain ⟨⟨d, ⟨⟨ds, hv, hf⟩, ho, hu⟩, hw⟩, hoff⟩ := h.pend p hp
    obtain ⟨ds', hv', hf', hm, hlt⟩ := skip_spec hv hoff
    rw [hb]
    simp only
    cases hs : skip p.bufs p.off with
    | mk l n =>
      rw [hs] at hv' hf' hm hlt
      cases l with
      | nil =>
        cases hv'
        have hsw : i.sent = i.w.wire := by rw [hw, ← hf, ← hf']; simp
        rw [if_pos hsw]
        exact inv_over hd hc h.user h.held h.sent hsw _ _
      | cons b r =>
        cases hv' with
        | @cons _ d' _ dr hvb hvr =>
          have hsw : i.sent ≠ i.w.wire := by
            intro he
            rw [hw, ← hf, ← hf'] at he
            have h1 := congrArg List.length he
            have h2 := hlt b r rfl
            obtain ⟨_, _, _, h3⟩ := hvb
            simp at h1
            omega
          rw [if_neg hsw]; exact h

theorem inv_fail {s : St} {i : Ideal} (t : TableOrder) (h : Inv s i) : Inv (step t s .fail) (i.step t .fail) := by
  show Inv (match s.pending with
    | none => s
    | some p => (St.callBack { s with pending := none } p.handler false).unused) (match i.busy with
    | some h => Ideal.over { i with w := { i.w with wire := i.sent } } h false
    | none => i)
  cases hp : s.pending with
  | none =>
    have hb : i.busy = none := by rw [← h.busy, hp]; rfl
    rw [hb]; exact h
  | some p =>
    obtain ⟨hd, hc, hb⟩ := pending_of h hp
    rw [hb]
    exact inv_over (i := { i with w := { i.w with wire := i.sent } }) hd (core_wire hc _) h.user h.held h.sent rfl _ _

theorem inv_release {s : St} {i : Ideal} (t : TableOrder) (h : Inv s i) (ha : Allowed i .release) :
    Inv (step t s .release) (i.step t .release) := by
  show Inv (St.unused { s with held := false }) { i with held := false, needed := if i.busy.isSome then i.needed else [] }
  have hc' : ∀ N, Core s i.w N → Core { s with held := false } i.w N := fun N hc =>
    ⟨hc.fault, hc.weq, hc.bufs, hc.owns, hc.users, hc.live, hc.once⟩
  by_cases hd : s.dead = true
  · have hb := (h.dead.1 hd).2
    rw [show St.unused { s with held := false } = { s with held := false } by simp [St.unused, hd]]
    refine ⟨fun h => absurd (hd.symm.trans h) nofun, h.gone, h.user, rfl, ?_, h.busy, h.sent, h.done, ?_⟩
    · show s.dead = true ↔ _
      simp [hd, hb]
    · intro p hp
      have := (h.gone hd).2.2
      rw [show s.pending = some p from hp] at this; cases this
  · have hd' : s.dead = false := by simpa using hd
    have hc := h.core hd'
    obtain ⟨o, hp⟩ : ∃ o, s.pending = o := ⟨_, rfl⟩
    rcases o with _ | p
    swap
    · have hb : i.busy = some p.handler := by rw [← h.busy, hp]; rfl
      have hk := ha p.handler hb
      rw [show St.unused { s with held := false } = { s with held := false } by simp [St.unused, hd', hp, hk], hb]
      refine ⟨fun _ => hc' _ hc, fun h => absurd h hd, h.user, rfl, ?_, by rw [← hb]; exact h.busy, h.sent, nofun, ?_⟩
      · show s.dead = true ↔ _
        simp [hd']
      · intro q hq
        obtain ⟨⟨d, hp1, hp2⟩, hp3⟩ := h.pend q hq
        exact ⟨⟨d, hp1.move ⟨rfl, fun _ _ => rfl⟩ (fun _ h => h), hp2⟩, hp3⟩
    · have hb : i.busy = none := by rw [← h.busy, hp]; rfl
      rw [show St.unused { s with held := false } = St.destroy { s with held := false } by simp [St.unused, hd', hp]]
      obtain ⟨d1, d2, d3, d4, d5, d6, d7⟩ := core_destroy (hc' _ hc)
      refine ⟨?_, ?_, d3.trans h.user, d6, ?_, ?_, d5.trans h.sent, h.done, ?_⟩
      · intro h; rw [d7] at h; cases h
      · intro _; exact ⟨d1, d2, d4.trans hp⟩
      · rw [d7]; simp [hb]
      · rw [d4]; exact h.busy
      · intro q hq
        rw [d4] at hq
        rw [show s.pending = some q from hq] at hp; cases hp

theorem forall₂_mem {α β : Type} {R S : α → β → Prop} {l : List α} {m : List β} (h : List.Forall₂ R l m)
    (hi : ∀ a ∈ l, ∀ b, R a b → S a b) : List.Forall₂ S l m := by
  induction h with
  | nil => exact .nil
  | cons h _ ih => exact .cons (hi _ (by simp) _ h) (ih fun a ha => hi a (List.mem_cons_of_mem _ ha))

/-- The user changes memory that the writer does not need. -/
theorem inv_user {s : St} {i : Ideal} (h : Inv s i) (u : Heap)
    (hu : ∀ n ∈ i.needed, (s.user.get n).isSome → Heap.get u n = s.user.get n) : Inv { s with user := u } { i with user := u } := by
  have hv : ∀ b d, (∀ n, b.addr = .user n → n ∈ i.needed) → Valid s b d → Valid { s with user := u } b d := by
    rintro b d hb ⟨c, hc, h1, h2⟩
    refine ⟨c, ?_, h1, h2⟩
    cases ha : b.addr with
    | user n =>
      rw [ha] at hc
      show Heap.get u n = some c
      rw [hu n (hb n ha) (by rw [show s.user.get n = some c from hc]; rfl)]
      exact hc
    | own n => rw [ha] at hc; exact hc
    | crlf => rw [ha] at hc; exact hc
  refine ⟨?_, h.gone, rfl, h.held, h.dead, h.busy, h.sent, h.done, ?_⟩
  · intro hd
    have hc := h.core hd
    exact ⟨hc.fault, hc.weq, forall₂_mem hc.bufs fun b hb d => hv b d (hc.users b hb), hc.owns, hc.users, hc.live, hc.once⟩
  · intro p hp
    obtain ⟨⟨d, ⟨⟨ds, hv', hf⟩, ho, hu'⟩, hw⟩, hoff⟩ := h.pend p hp
    exact ⟨⟨d, ⟨⟨ds, forall₂_mem hv' fun b hb d => hv b d (hu' b hb), hf⟩, ho, hu'⟩, hw⟩, hoff⟩

theorem core_needed {s : St} {w : W} {N N' : List Nat} (h : Core s w N) (hn : ∀ n ∈ N, n ∈ N') : Core s w N' :=
  ⟨h.fault, h.weq, h.bufs, h.owns, fun b hb n hbn => hn n (h.users b hb n hbn), h.live, h.once⟩

theorem inv_step {s : St} {i : Ideal} (t : TableOrder) (h : Inv s i) (x : Act) (ha : Allowed i x) :
    Inv (step t s x) (i.step t x) := by
  cases x with
  | text d =>
    obtain ⟨_, _, hc, hus⟩ := idle_of h ha.1 ha.2
    obtain ⟨c, sm⟩ := core_text hc d
    show Inv (s.use.writeText d) _
    rw [hus]
    exact inv_call h ha.1 ha.2 c sm rfl
  | binary d =>
    obtain ⟨_, _, hc, hus⟩ := idle_of h ha.1 ha.2
    obtain ⟨c, sm⟩ := core_binary hc d
    show Inv (s.use.writeBinary d) _
    rw [hus]
    exact inv_call h ha.1 ha.2 c sm (buffer_wire _ _)
  | noCopy a off n =>
    obtain ⟨h1, h2, d, h3, h4⟩ := ha
    obtain ⟨_, _, hc, hus⟩ := idle_of h h1 h2
    obtain ⟨c, sm⟩ := core_noCopy (core_needed hc (N' := a :: i.needed) fun n hn => List.mem_cons_of_mem _ hn)
      ⟨.user a, off, n⟩ (slice d off n)
      ⟨d, by show s.user.get a = _; rw [h.user]; exact h3, rfl, by simp [slice]; omega⟩
      (by intro n hn; cases hn; simp) (by intro n hn; cases hn)
    show Inv (s.use.writeNoCopy _) _
    rw [hus]
    have := inv_call h h1 h2 c sm (buffer_wire _ _)
    show Inv _ { i with w := Writer.writeBuffer i.w (slice ((i.user.get a).getD []) off n), needed := a :: i.needed }
    rw [h3]
    exact this
  | clear =>
    obtain ⟨_, _, hc, hus⟩ := idle_of h ha.1 ha.2
    obtain ⟨c, sm⟩ := core_clear hc
    show Inv s.use.clear _
    rw [hus]
    exact inv_call h ha.1 ha.2 c sm rfl
  | change f =>
    obtain ⟨_, _, hc, hus⟩ := idle_of h ha.1 ha.2
    obtain ⟨c, sm⟩ := core_change hc f
    have := inv_call h ha.1 ha.2 c sm rfl
    show Inv { s.use.free s.head with head := [], w := { (s.use.free s.head).w with msg := f (s.use.free s.head).w.msg } } _
    rw [hus, (free_other s s.head).1]
    exact this
  | send k hd =>
    obtain ⟨_, _, hc, hus⟩ := idle_of h ha.1 ha.2
    show Inv (s.use.send t k hd) _
    rw [hus]
    cases k with
    | send => exact inv_sendMore t h ha.1 ha.2 false hd
    | chunk =>
      have hw : s.w = bare i.w := hc.weq
      have := inv_call (s' := { s with w := bare (if i.w.supportsChunks then { i.w with sendingChunks := true } else { i.w with sendingChunks := true, lifecycle := .close }) })
        (w' := if i.w.supportsChunks then { i.w with sendingChunks := true } else { i.w with sendingChunks := true, lifecycle := .close })
        (N := i.needed) h ha.1 ha.2
        ⟨hc.fault, rfl, by split <;> exact hc.bufs, hc.owns, hc.users, hc.live, hc.once⟩ ⟨rfl, rfl, rfl, rfl, rfl, rfl, rfl⟩
        (by split <;> rfl)
      have := inv_sendMore t this ha.1 ha.2 false hd
      have e : (St.send t s .chunk hd) = St.sendMore t { s with w := bare (if i.w.supportsChunks then { i.w with sendingChunks := true } else { i.w with sendingChunks := true, lifecycle := .close }) } false hd := by
        unfold St.send
        rw [hw]
        simp only
        congr 2
        show (if i.w.supportsChunks = true then _ else _) = _
        split <;> rfl
      rw [e]
      have e2 : i.step t (.send .chunk hd) = { i with w := Writer.sendMore t (if i.w.supportsChunks then { i.w with sendingChunks := true } else { i.w with sendingChunks := true, lifecycle := .close }) false, busy := if i.w.isOpen then some hd else none } := by
        simp only [Ideal.step, op, Writer.step]
      rw [e2]
      convert this using 3
      split <;> rfl
    | final =>
      have hw : s.w = bare i.w := hc.weq
      have := inv_call (s' := { s with w := bare { i.w with sendingChunks := true } })
        (w' := { i.w with sendingChunks := true }) (N := i.needed) h ha.1 ha.2
        ⟨hc.fault, rfl, hc.bufs, hc.owns, hc.users, hc.live, hc.once⟩ ⟨rfl, rfl, rfl, rfl, rfl, rfl, rfl⟩ rfl
      have := inv_sendMore t this ha.1 ha.2 true hd
      have e : (St.send t s .final hd) = St.sendMore t { s with w := bare { i.w with sendingChunks := true } } true hd := by
        unfold St.send
        rw [hw]; rfl
      rw [e]
      exact this
  | put => exact inv_put h
  | finish => exact inv_finish t h
  | fail => exact inv_fail t h
  | close =>
    show Inv { s with w := { s.w with isOpen := false } } { i with w := { i.w with isOpen := false } }
    refine ⟨?_, ?_, h.user, h.held, h.dead, h.busy, h.sent, h.done, ?_⟩
    · intro hd
      have hc := h.core hd
      exact ⟨hc.fault, by dsimp only; rw [hc.weq]; rfl, hc.bufs, hc.owns, hc.users, hc.live, hc.once⟩
    · intro hd
      obtain ⟨h1, h2, h3⟩ := h.gone hd
      exact ⟨h1, by dsimp only; rw [h2]; rfl, h3⟩
    · intro p hp
      obtain ⟨⟨d, hp1, hp2⟩, hp3⟩ := h.pend p hp
      exact ⟨⟨d, hp1.move ⟨rfl, fun _ _ => rfl⟩ (fun _ h => h), hp2⟩, hp3⟩
  | release => exact inv_release t h ha
  | new d =>
    show Inv { s with user := s.user ++ [some d] } { i with user := i.user ++ [some d] }
    rw [← h.user]
    exact inv_user h _ fun n _ hn => get_append_lt _ (lt_of_get hn)
  | set a k x =>
    show Inv { s with user := s.user.set a _ } { i with user := i.user.set a _ }
    rw [← h.user]
    exact inv_user h _ fun n hn _ => by
      rw [get_set, if_neg]
      rintro ⟨rfl, _⟩
      exact ha hn
  | free a =>
    show Inv { s with user := s.user.set a none } { i with user := i.user.set a none }
    rw [← h.user]
    exact inv_user h _ fun n hn _ => by
      rw [get_set, if_neg]
      rintro ⟨rfl, _⟩
      exact ha hn

/-- A writer just made. -/
structure Blank (w : W) : Prop where
  buffers : w.buffers = []
  stream : w.stream = []
  streamEmpty : w.streamEmpty = true
  contentLength : w.contentLength = 0
  wire : w.wire = []

theorem inv_fresh {w : W} (hw : Blank w) : Inv (fresh w) { w := Writer.initContent w } := by
  have hb : w = bare w := by
    obtain ⟨⟩ := w
    obtain ⟨h1, _, _, _, h2⟩ := hw
    simp only at h1 h2
    subst h1 h2
    rfl
  have base : ∀ own content, (∀ n ∈ content, (Heap.get own n).isSome) → (∀ n, content.count n ≤ 1) →
      Core ({ w := w, own := own, content := content } : St) w [] := by
    intro own content h1 h2
    refine ⟨rfl, hb, ?_, nofun, nofun, by simpa [owned] using h1, by simpa [owned] using h2⟩
    show List.Forall₂ _ [] w.buffers
    rw [hw.buffers]; exact .nil
  have mk : ∀ s w', Core s w' [] → s.user = [] → s.pending = none → s.wire = [] → s.held = true → s.dead = false →
      w'.wire = [] → Inv s { w := w' } := by
    intro s w' hc h1 h2 h3 h4 h5 h6
    refine ⟨fun _ => hc, fun h => (by rw [h5] at h; cases h), h1, h4, by rw [h5]; simp, by rw [h2]; rfl, h3, fun _ => h6.symm, ?_⟩
    intro p hp; rw [h2] at hp; cases hp
  have plain : Inv { w := w } { w := w } := mk _ _ (base [] [] nofun (by simp)) rfl rfl rfl rfl rfl hw.wire
  unfold fresh Writer.initContent
  split
  · rename_i c r hcr
    rw [hcr]
    simp only
    split
    · exact plain
    · have hcore := base [some (c :: r)] [0] (by simp [Heap.get]) (by intro n; exact List.count_le_length)
      obtain ⟨h1, h2⟩ := core_noCopy hcore ⟨.own 0, 0, (c :: r).length⟩ (c :: r)
        ⟨c :: r, rfl, slice_all _, rfl⟩ (by intro n hn; cases hn) (by intro n hn; cases hn; simp)
      exact mk _ _ h1 h2.user h2.pending h2.wire h2.held h2.dead (by rw [buffer_wire]; exact hw.wire)
  · rename_i hcr
    split
    · rename_i hcr'; exact absurd hcr' (hcr _ _)
    · exact plain

theorem inv_run {w : W} (hw : Blank w) (t : TableOrder) (tr : List Act) (ho : Obeys t (Writer.initContent w) tr) :
    Inv (run t (fresh w) tr) (ideal t (Writer.initContent w) tr) := by
  induction tr using List.reverseRecOn with
  | nil => exact inv_fresh hw
  | append_singleton tr x ih =>
    have h1 : Obeys t (Writer.initContent w) tr := fun tr₁ y tr₂ he => ho tr₁ y (tr₂ ++ [x]) (by simp [he])
    have h2 := ho tr x [] (by simp)
    have := inv_step t (ih h1) x h2
    simpa [run, ideal] using this

end Verif.WriterMemory
