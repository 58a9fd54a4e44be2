import Verif.Lemmas.WriterMemorySend
/-
Lemmas for `Verif.WriterMemory`: which memory is given back, and what is called.
-/
namespace Verif.WriterMemory
open Verif.Writer (W)
open Verif.Spec.WriterMemory

/-- All the memory of the writer is known to it. -/
def Accounted (s : St) : Prop := ∀ n, (s.own.get n).isSome → n ∈ owned s

theorem acc_alloc {s s' : St} {d : Bytes} (h : Accounted s) (ho : s'.own = s.own ++ [some d])
    (hm : ∀ n ∈ owned s, n ∈ owned s') (hk : s.own.length ∈ owned s') : Accounted s' := by
  intro n hn
  rw [ho] at hn
  by_cases hlt : n < s.own.length
  · rw [get_append_lt _ hlt] at hn
    exact hm n (h n hn)
  · have := lt_of_get hn
    rw [List.length_append, List.length_singleton] at this
    rw [show n = s.own.length by omega]; exact hk

theorem acc_addText {s : St} (h : Accounted s) (d : Bytes) : Accounted (s.addText d).1 :=
  acc_alloc h rfl (by intro n hn; simp only [owned, St.addText, List.mem_append] at hn ⊢; tauto)
    (by simp [owned, St.addText])

theorem acc_flush {s : St} (h : Accounted s) : Accounted s.flush := by
  unfold St.flush
  split
  · exact h
  · split
    · exact h
    · exact acc_addText h _

theorem acc_binary {s : St} (h : Accounted s) (d : Bytes) : Accounted (s.writeBinary d) := by
  unfold St.writeBinary
  split
  · exact h
  · refine acc_alloc (acc_flush h) (d := d) rfl ?_ ?_
    · intro n hn; simp only [owned, St.alloc, List.mem_append] at hn ⊢; tauto
    · simp [owned]

theorem acc_noCopy {s : St} (h : Accounted s) (b : Buf) : Accounted (s.writeNoCopy b) := by
  unfold St.writeNoCopy
  split
  · exact h
  · exact acc_flush h

theorem acc_free {s s' : St} {l : List Nat} (h : Accounted s) (ho : s'.own = (s.free l).own)
    (hm : ∀ n ∈ owned s, n ∈ l ∨ n ∈ owned s') : Accounted s' := by
  intro n hn
  rw [ho, free_get] at hn
  split at hn
  · cases hn
  · rename_i hl
    rcases hm n (h n hn) with h | h
    · exact absurd h hl
    · exact h

theorem acc_clear {s : St} (h : Accounted s) (hb : s.binary = []) : Accounted s.clear := by
  obtain ⟨_, _, _, f4, f5, f6, f7, _⟩ := free_other s s.text
  refine acc_free h (l := s.text) rfl ?_
  intro n hn
  simp only [owned, hb, List.mem_append, St.clear, f6, f7] at hn ⊢
  tauto

theorem acc_change {s : St} (h : Accounted s) (w : W) : Accounted { s.free s.head with head := [], w := w } := by
  obtain ⟨_, _, _, f4, f5, f6, f7, _⟩ := free_other s s.head
  refine acc_free h (l := s.head) rfl ?_
  intro n hn
  simp only [owned, List.mem_append, f4, f5, f6] at hn ⊢
  tauto

theorem acc_destroy {s : St} (h : Accounted s) : Accounted s.destroy :=
  acc_free h (l := owned s) rfl fun _ hn => .inl hn

theorem acc_unused {s : St} (h : Accounted s) : Accounted s.unused := by
  unfold St.unused
  split
  · exact h
  · exact acc_destroy h

theorem acc_sendMore {s : St} (t : TableOrder) (h : Accounted s) (final : Bool) (hd : Handler) :
    Accounted (s.sendMore t final hd) := by
  unfold St.sendMore
  split
  · have h1 := acc_flush h
    generalize s.flush = x at h1
    have h2 : Accounted (x.headPart t).1 := by
      unfold St.headPart
      split
      · exact h1
      · refine acc_alloc h1 rfl ?_ ?_
        · intro n hn; simp only [owned, St.alloc, List.mem_append] at hn ⊢; tauto
        · simp [owned]
    simp only
    generalize x.headPart t = y at h2
    have h3 : Accounted y.1.payloadPart.1 := by
      unfold St.payloadPart
      split
      · split
        · exact acc_addText h2 _
        · exact h2
      · exact h2
    generalize y.1.payloadPart = z at h3
    have h4 : Accounted (z.1.finalPart final).1 := by
      unfold St.finalPart
      split
      · exact acc_addText h3 _
      · exact h3
    exact h4
  · exact h

theorem acc_send {s : St} (t : TableOrder) (h : Accounted s) (k : Kind) (hd : Handler) : Accounted (s.send t k hd) := by
  cases k
  · exact acc_sendMore t h _ _
  · unfold St.send
    exact acc_sendMore t (by exact h) _ _
  · unfold St.send
    exact acc_sendMore t (by exact h) _ _

theorem acc_callBack {s : St} (h : Accounted s) (hd : Handler) (ok : Bool) (hb : s.w.isRequest = true → s.binary = []) :
    Accounted (s.callBack hd ok) := by
  cases hd with
  | user k => exact h
  | own =>
    unfold St.callBack
    simp only
    split
    · rename_i hc
      simp only [Bool.and_eq_true] at hc
      exact acc_clear h (hb hc.1.2)
    · exact h

/-! ### The cache of binary data -/

theorem bin_addText (s : St) (d : Bytes) : (s.addText d).1.binary = s.binary := rfl
theorem bin_flush (s : St) : s.flush.binary = s.binary := by
  unfold St.flush; split
  · rfl
  · split <;> rfl

theorem bin_sendMore (t : TableOrder) (s : St) (final : Bool) (hd : Handler) : (s.sendMore t final hd).binary = s.binary := by
  unfold St.sendMore
  split
  · rw [← bin_flush s]
    generalize s.flush = x
    have h2 : (x.headPart t).1.binary = x.binary := by
      unfold St.headPart; split <;> rfl
    simp only
    generalize x.headPart t = y at h2
    have h3 : y.1.payloadPart.1.binary = x.binary := by
      unfold St.payloadPart
      split
      · split <;> exact h2
      · exact h2
    generalize y.1.payloadPart = z at h3
    show (z.1.finalPart final).1.binary = _
    unfold St.finalPart; split <;> exact h3
  · rfl

theorem bin_send (t : TableOrder) (s : St) (k : Kind) (hd : Handler) : (s.send t k hd).binary = s.binary := by
  cases k
  · exact bin_sendMore t s _ _
  · exact bin_sendMore t { s with w := _ } _ _
  · exact bin_sendMore t { s with w := _ } _ _

theorem bin_unused {s : St} (h : s.binary = []) : s.unused.binary = [] := by
  unfold St.unused; split
  · exact h
  · rfl

theorem bin_callBack {s : St} (h : s.binary = []) (hd : Handler) (ok : Bool) : (s.callBack hd ok).binary = [] := by
  cases hd with
  | user k => exact h
  | own =>
    unfold St.callBack
    simp only
    split
    · rfl
    · exact h

/-- Without binary data, the cache for it is empty. -/
theorem bin_step {s : St} (t : TableOrder) (h : s.binary = []) (x : Act) (hx : ∀ d, x ≠ .binary d) : (step t s x).binary = [] := by
  cases x with
  | text d => exact h
  | binary d => exact absurd rfl (hx d)
  | noCopy a off n =>
    show (s.use.writeNoCopy _).binary = []
    unfold St.writeNoCopy
    split
    · exact h
    · exact (bin_flush s.use).trans h
  | clear => rfl
  | change f => exact (free_other s.use s.head).2.2.2.2.1.trans h
  | send k hd => exact (bin_send t s.use k hd).trans h
  | put =>
    show s.put.binary = []
    unfold St.put
    repeat' split
    all_goals exact h
  | finish =>
    unfold step
    simp only
    split
    · exact h
    · split
      · exact bin_unused (bin_callBack (s := { s with pending := none }) h _ _)
      · exact h
  | fail =>
    unfold step
    simp only
    split
    · exact h
    · exact bin_unused (bin_callBack (s := { s with pending := none }) h _ _)
  | close => exact h
  | release => exact bin_unused (s := { s with held := false }) h
  | new d => exact h
  | set a k x => exact h
  | free a => exact h

theorem acc_step {s : St} (t : TableOrder) (h : Accounted s) (x : Act) (hx : x = .clear → s.binary = [])
    (hr : s.w.isRequest = true → s.binary = []) : Accounted (step t s x) := by
  cases x with
  | text d => exact h
  | binary d => exact acc_binary (s := s.use) h d
  | noCopy a off n => exact acc_noCopy (s := s.use) h _
  | clear => exact acc_clear (s := s.use) h (hx rfl)
  | change f => exact acc_change (s := s.use) h _
  | send k hd => exact acc_send (s := s.use) t h k hd
  | put =>
    show Accounted s.put
    unfold St.put
    repeat' split
    all_goals exact h
  | finish =>
    unfold step
    simp only
    split
    · exact h
    · split
      · exact acc_unused (acc_callBack (s := { s with pending := none }) h _ _ hr)
      · exact h
  | fail =>
    unfold step
    simp only
    split
    · exact h
    · exact acc_unused (acc_callBack (s := { s with pending := none }) h _ _ hr)
  | close => exact h
  | release => exact acc_unused (s := { s with held := false }) h
  | new d => exact h
  | set a k x => exact h
  | free a => exact h

/-! ### A request writer remains one -/

theorem req_flush (w : W) : (Writer.flush w).isRequest = w.isRequest := by
  unfold Writer.flush; split
  · rfl
  · split <;> rfl

theorem req_buffer (w : W) (d : Bytes) : (Writer.writeBuffer w d).isRequest = w.isRequest := by
  unfold Writer.writeBuffer; split
  · rfl
  · exact req_flush w

theorem req_init (w : W) : (Writer.initContent w).isRequest = w.isRequest := by
  unfold Writer.initContent; split
  · split
    · rfl
    · exact req_buffer _ _
  · rfl

theorem req_sendMore (t : TableOrder) (w : W) (f : Bool) : (Writer.sendMore t w f).isRequest = w.isRequest := by
  unfold Writer.sendMore; split
  · rw [← req_flush w]
    generalize Writer.flush w = v
    show (Writer.headPart t v).1.isRequest = _
    unfold Writer.headPart; split <;> rfl
  · rfl

theorem req_step (t : TableOrder) (i : Ideal) (x : Act) : (i.step t x).w.isRequest = i.w.isRequest := by
  cases x with
  | text d => rfl
  | binary d => exact req_buffer _ _
  | noCopy a off n => exact req_buffer _ _
  | clear => rfl
  | change f => rfl
  | send k h =>
    cases k
    · exact req_sendMore t _ _
    · show (Writer.sendMore t _ _).isRequest = _
      rw [req_sendMore]; split <;> rfl
    · exact req_sendMore t _ _
  | put => rfl
  | finish =>
    unfold Ideal.step
    simp only
    split
    · split
      · unfold Ideal.over; simp only; split <;> rfl
      · rfl
    · rfl
  | fail =>
    unfold Ideal.step
    simp only
    split
    · unfold Ideal.over; simp only; split <;> rfl
    · rfl
  | close => rfl
  | release => rfl
  | new d => rfl
  | set a k x => rfl
  | free a => rfl

theorem req_ideal (t : TableOrder) (w : W) (tr : List Act) : (ideal t w tr).w.isRequest = w.isRequest := by
  induction tr using List.reverseRecOn with
  | nil => rfl
  | append_singleton tr x ih =>
    rw [← ih]
    simp only [ideal, List.foldl_append, List.foldl_cons, List.foldl_nil]
    exact req_step t _ x

/-! ### A destroyed writer has nothing left -/

theorem dead_unused {s : St} (h : s.dead = true → owned s = []) : s.unused.dead = true → owned s.unused = [] := by
  unfold St.unused
  split
  · exact h
  · intro _; rfl

theorem dead_step {s : St} {i : Ideal} (t : TableOrder) (hi : Inv s i) (h : s.dead = true → owned s = []) (x : Act)
    (ha : Allowed i x) : (step t s x).dead = true → owned (step t s x) = [] := by
  have key : ∀ s' : St, i.held = true → i.busy = none → Same s s' → s'.dead = true → owned s' = [] := by
    intro s' h1 h2 h3 h4
    obtain ⟨h5, _⟩ := idle_of hi h1 h2
    rw [h3.dead, h5] at h4; cases h4
  have skey : i.held = true → i.busy = none → (i.step t x).held = true → Inv (step t s x) (i.step t x) →
      (step t s x).dead = true → owned (step t s x) = [] := by
    intro h1 h2 h3 h4 h5
    have := (h4.dead.1 h5).1
    rw [h3] at this; cases this
  cases x with
  | text d => exact skey ha.1 ha.2 ha.1 (inv_step t hi _ ha)
  | binary d => exact skey ha.1 ha.2 ha.1 (inv_step t hi _ ha)
  | noCopy a off n => exact skey ha.1 ha.2.1 ha.1 (inv_step t hi _ ha)
  | clear => exact skey ha.1 ha.2 ha.1 (inv_step t hi _ ha)
  | change f => exact skey ha.1 ha.2 ha.1 (inv_step t hi _ ha)
  | send k hd => exact skey ha.1 ha.2 ha.1 (inv_step t hi _ ha)
  | put =>
    show s.put.dead = true → owned s.put = []
    unfold St.put
    repeat' split
    all_goals exact h
  | finish =>
    unfold step
    simp only
    split
    · exact h
    · rename_i p hp
      split
      · obtain ⟨hd, hc, _⟩ := pending_of hi hp
        obtain ⟨N, _, _, _, _, _, _, c6⟩ := core_callBack hc p.handler true
        exact dead_unused fun hq => by rw [c6, hd] at hq; cases hq
      · exact h
  | fail =>
    unfold step
    simp only
    split
    · exact h
    · rename_i p hp
      obtain ⟨hd, hc, _⟩ := pending_of hi hp
      obtain ⟨N, _, _, _, _, _, _, c6⟩ := core_callBack hc p.handler false
      exact dead_unused fun hq => by rw [c6, hd] at hq; cases hq
  | close => exact h
  | release => exact dead_unused (s := { s with held := false }) h
  | new d => exact h
  | set a k x => exact h
  | free a => exact h

/-! ### What is called -/

theorem called_free (s : St) (l : List Nat) : (s.free l).called = s.called := (free_other s l).2.2.2.2.2.2.2.2.2.1

theorem called_unused (s : St) : s.unused.called = s.called := by
  unfold St.unused; split
  · rfl
  · exact called_free _ _

theorem called_callBack (s : St) (h : Handler) (ok : Bool) :
    (s.callBack h ok).called = s.called ++ [match h with | .own => .finished ok | .user _ => .handler ok] := by
  cases h with
  | user k => rfl
  | own =>
    unfold St.callBack
    simp only
    split
    · exact congrArg (· ++ _) (called_free _ _)
    · rfl

theorem called_flush (s : St) : s.flush.called = s.called := by
  unfold St.flush; split
  · rfl
  · split <;> rfl

/-- One more is called, or one more is being written. -/
theorem called_sendMore (t : TableOrder) (s : St) (f : Bool) (h : Handler) :
    (s.w.isOpen = true → (s.sendMore t f h).called = s.called ∧
      ((s.sendMore t f h).pending.map (·.handler)) = some h) ∧
    (s.w.isOpen = false → (s.sendMore t f h).called = s.called ++ [.finished false] ∧
      (s.sendMore t f h).pending = s.pending) := by
  unfold St.sendMore
  constructor
  · intro ho
    rw [if_pos ho]
    refine ⟨?_, rfl⟩
    rw [← called_flush s]
    generalize s.flush = x
    have h2 : (x.headPart t).1.called = x.called := by
      unfold St.headPart; split <;> rfl
    simp only
    generalize x.headPart t = y at h2
    have h3 : y.1.payloadPart.1.called = x.called := by
      unfold St.payloadPart
      split
      · split <;> exact h2
      · exact h2
    generalize y.1.payloadPart = z at h3
    show (z.1.finalPart f).1.called = _
    unfold St.finalPart; split <;> exact h3
  · intro ho
    rw [if_neg (by simp [ho])]
    exact ⟨rfl, rfl⟩

theorem called_send (t : TableOrder) (s : St) (k : Kind) (h : Handler) :
    (s.w.isOpen = true → (s.send t k h).called = s.called ∧ ((s.send t k h).pending.map (·.handler)) = some h) ∧
    (s.w.isOpen = false → (s.send t k h).called = s.called ++ [.finished false] ∧ (s.send t k h).pending = s.pending) := by
  cases k with
  | send => exact called_sendMore t s _ h
  | chunk =>
    have := called_sendMore t { s with w := if s.w.supportsChunks then { s.w with sendingChunks := true } else { s.w with sendingChunks := true, lifecycle := .close } } false h
    rw [show ({ s with w := if s.w.supportsChunks then { s.w with sendingChunks := true } else { s.w with sendingChunks := true, lifecycle := .close } } : St).w.isOpen = s.w.isOpen by
      dsimp only; split <;> rfl] at this
    exact this
  | final => exact called_sendMore t { s with w := { s.w with sendingChunks := true } } true h

end Verif.WriterMemory
