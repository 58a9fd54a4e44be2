import Verif.Lemmas.Stream
/-
C44: bytes written to a `tcp::stream` are sent in order without loss or duplication, reads return the received bytes in
order, and up to ten characters can be put back. Shown as long as no operation has failed: after a failed write the
wrong bytes are sent again (`failed_write_resends`) and the buffer can be overrun (`failed_write_overrun`), after a
failed read the wrong bytes are put back (`failed_read_putback`).
-/
namespace Verif.Props.Stream
open Verif.Stream Verif.Spec.Stream

/-- A new stream buffer, and how the writes to come end. -/
def fresh (env : List Write) : Out := { env }

/-- C44, writing: whatever the sizes and the order of the calls, as long as the calls reported no error all bytes put
    are either sent or in the buffer, in order; and with the call that first reports one, the bytes sent are the
    beginning of those put. (Waits return only when notified.) -/
theorem writes_in_order_partial (env : List Write) (he : Write.spurious ∉ env) (ops : List WOp) (op : WOp) (o : Out)
    (ok : Bool) (h : (fresh env).run (ops ++ [op]) = some (o, List.replicate ops.length true ++ [ok])) :
    o.sent <+: (ops.flatMap put) ++ put op ∧ (ok = true → o.sent ++ o.buf = (ops.flatMap put) ++ put op) := by
  have key : ∀ (ops : List WOp) (o0 : Out) (all : Bytes), o0.Sound → o0.Good all →
      o0.run (ops ++ [op]) = some (o, List.replicate ops.length true ++ [ok]) →
      o.sent <+: all ++ ((ops.flatMap put) ++ put op) ∧
        (ok = true → o.sent ++ o.buf = all ++ ((ops.flatMap put) ++ put op)) := by
    intro ops
    induction ops with
    | nil =>
      intro o0 all hs hg h
      simp only [List.nil_append, Out.run, List.length_nil, List.replicate_zero] at h
      cases ho : o0.op op with
      | none => rw [ho] at h; cases h
      | some r =>
        obtain ⟨o', b⟩ := r
        rw [ho] at h
        simp only [Option.map_some, Option.some.injEq, Prod.mk.injEq, List.cons.injEq, and_true] at h
        obtain ⟨rfl, rfl⟩ := h
        obtain ⟨_, h2, h3⟩ := op_spec hs hg ho
        exact ⟨by simpa using h2, fun hb => by simpa using (h3 hb).1⟩
    | cons w ws ih =>
      intro o0 all hs hg h
      simp only [List.cons_append, Out.run, List.length_cons, List.replicate_succ] at h
      cases ho : o0.op w with
      | none => rw [ho] at h; cases h
      | some r =>
        obtain ⟨o', b⟩ := r
        rw [ho] at h
        simp only [] at h
        cases hr : o'.run (ws ++ [op]) with
        | none => rw [hr] at h; cases h
        | some r =>
          obtain ⟨o2, bs⟩ := r
          rw [hr] at h
          simp only [Option.map_some, Option.some.injEq, Prod.mk.injEq, List.cons.injEq] at h
          obtain ⟨rfl, rfl, rfl⟩ := h
          obtain ⟨h1, _, h3⟩ := op_spec hs hg ho
          have := ih o' (all ++ put w) h1 (h3 rfl) hr
          simpa [List.flatMap_cons, List.append_assoc] using this
  simpa using key ops (fresh env) [] he ⟨rfl, by simp [fresh]⟩ h

/-- C44, writing: no call is undefined before one has reported an error. -/
theorem writes_defined (env : List Write) (he : Write.spurious ∉ env) (ops : List WOp) (o : Out)
    (h : (fresh env).run ops = some (o, List.replicate ops.length true)) (op : WOp) : (o.op op).isSome := by
  have key : ∀ (ops : List WOp) (o0 : Out) (all : Bytes), o0.Sound → o0.Good all →
      o0.run ops = some (o, List.replicate ops.length true) → ∃ all, o.Sound ∧ o.Good all := by
    intro ops
    induction ops with
    | nil =>
      intro o0 all hs hg h
      simp only [Out.run, Option.some.injEq, Prod.mk.injEq] at h
      exact ⟨all, h.1 ▸ hs, h.1 ▸ hg⟩
    | cons w ws ih =>
      intro o0 all hs hg h
      simp only [Out.run, List.length_cons, List.replicate_succ] at h
      cases ho : o0.op w with
      | none => rw [ho] at h; cases h
      | some r =>
        obtain ⟨o', b⟩ := r
        rw [ho] at h
        simp only [] at h
        cases hr : o'.run ws with
        | none => rw [hr] at h; cases h
        | some r =>
          obtain ⟨o2, bs⟩ := r
          rw [hr] at h
          simp only [Option.map_some, Option.some.injEq, Prod.mk.injEq, List.cons.injEq] at h
          obtain ⟨rfl, rfl, rfl⟩ := h
          obtain ⟨h1, _, h3⟩ := op_spec hs hg ho
          exact ih o' (all ++ put w) h1 (h3 rfl) hr
  obtain ⟨all, hs, hg⟩ := key ops (fresh env) [] he ⟨rfl, by simp [fresh]⟩ h
  exact op_some op hs hg

/-- C44, writing: when the network takes everything, all calls succeed, and after a flush all bytes put were sent. -/
theorem writes_all (ops : List WOp) : ∃ o, (fresh []).run (ops ++ [.sync]) = some (o, List.replicate (ops.length + 1) true) ∧
    o.sent = ops.flatMap put ∧ o.buf = [] := by
  have hwrite : ∀ (o : Out) (d : Bytes), o.env = [] → o.write d = ({ o with sent := o.sent ++ d, error := false }, d.length) := by
    intro o d h
    unfold Out.write
    rw [h]
    simp
  have hflush : ∀ o : Out, o.env = [] → o.flush.2 = true ∧ o.flush.1.env = [] := by
    intro o h
    unfold Out.flush
    split
    · rw [hwrite _ _ h]; exact ⟨rfl, h⟩
    · exact ⟨rfl, h⟩
  have hop : ∀ (o : Out) (all : Bytes) (w : WOp), o.env = [] → o.Good all → ∃ o', o.op w = some (o', true) ∧
      o'.env = [] ∧ o'.Good (all ++ put w) := by
    intro o all w he hg
    have hs : o.Sound := by simp [Out.Sound, he]
    have h1 := op_some w hs hg
    have hres : ∀ o' b, o.op w = some (o', b) → b = true ∧ o'.env = [] := by
      intro o' b h
      cases w with
      | putc c =>
        simp only [Out.op, Out.putc] at h
        split at h
        · simp only [Option.some.injEq, Prod.mk.injEq] at h
          obtain ⟨rfl, rfl⟩ := h
          exact ⟨rfl, he⟩
        · split at h
          · simp only [Option.some.injEq] at h
            have := hflush { o with buf := o.buf ++ [c] } he
            rw [h] at this
            exact this
          · cases h
      | putn s =>
        simp only [Out.op, Out.putn] at h
        split at h
        · simp only [Option.map_some, Option.some.injEq, Prod.mk.injEq] at h
          obtain ⟨rfl, rfl⟩ := h
          exact ⟨by simp, he⟩
        · rename_i hl
          generalize hav : writeSize - 1 - o.buf.length = avail at h
          have hf := hflush { o with buf := o.buf ++ s.take avail } he
          generalize ({ o with buf := o.buf ++ s.take avail } : Out).flush = r at hf h
          obtain ⟨o1, ok⟩ := r
          obtain ⟨rfl, f2⟩ := hf
          simp only [] at f2 h
          split at h
          · contradiction
          · split at h
            · cases h
            · split at h
              · rw [hwrite _ _ f2] at h
                simp only [Option.map_some, Option.some.injEq, Prod.mk.injEq] at h
                obtain ⟨rfl, rfl⟩ := h
                refine ⟨?_, f2⟩
                simp only [List.length_drop, beq_iff_eq]
                omega
              · split at h
                · simp only [Option.map_some, Option.some.injEq, Prod.mk.injEq] at h
                  obtain ⟨rfl, rfl⟩ := h
                  exact ⟨by simp, f2⟩
                · cases h
      | sync =>
        simp only [Out.op, Out.sync, Option.some.injEq] at h
        have := hflush o he
        rw [h] at this
        exact this
    cases ho : o.op w with
    | none => rw [ho] at h1; cases h1
    | some r =>
      obtain ⟨o', b⟩ := r
      obtain ⟨rfl, h2⟩ := hres o' b ho
      exact ⟨o', rfl, h2, (op_spec hs hg ho).2.2 rfl⟩
  have key : ∀ (ops : List WOp) (o : Out) (all : Bytes), o.env = [] → o.Good all → ∃ o',
      o.run (ops ++ [.sync]) = some (o', List.replicate (ops.length + 1) true) ∧ o'.sent = all ++ ops.flatMap put ∧
        o'.buf = [] := by
    intro ops
    induction ops with
    | nil =>
      intro o all he hg
      have hs : o.Sound := by simp [Out.Sound, he]
      have h1 := hflush o he
      have h2 := (flush_spec hs).2.2 h1.1
      refine ⟨o.flush.1, ?_, ?_, h2.2⟩
      · simp only [List.nil_append, Out.run, Out.op, Out.sync, Option.map_some, List.length_nil, Nat.zero_add,
          List.replicate_one]
        rw [h1.1]
      · rw [h2.1, hg.1]; simp
    | cons w ws ih =>
      intro o all he hg
      obtain ⟨o1, h1, h2, h3⟩ := hop o all w he hg
      obtain ⟨o2, g1, g2, g3⟩ := ih o1 _ h2 h3
      refine ⟨o2, ?_, by rw [g2]; simp, g3⟩
      simp only [List.cons_append, Out.run, h1, g1, Option.map_some, List.length_cons]
      rfl
  simpa using key ops (fresh []) [] rfl ⟨rfl, by simp [fresh]⟩

example : (fresh []).run [.putc 1, .putn [2, 3], .sync, .putc 4] =
    some ({ buf := [4], sent := [1, 2, 3] }, [true, true, true, true]) := by decide +kernel

/-- Large data goes through the buffer and past it. -/
example (s : Bytes) : ∃ o, (fresh []).run [.putc 1, .putn s, .putc 2, .sync] = some (o, [true, true, true, true]) ∧
    o.sent = 1 :: s ++ [2] := by
  obtain ⟨o, h1, h2, _⟩ := writes_all [.putc 1, .putn s, .putc 2]
  exact ⟨o, h1, by simpa [put] using h2⟩

private theorem write_buf (o : Out) (d : Bytes) : (o.write d).1.buf = o.buf := by
  unfold Out.write; split <;> rfl

private theorem flush_bounded {o : Out} {n : Nat} (h : o.buf.length ≤ n) : o.flush.1.buf.length ≤ n := by
  unfold Out.flush
  split
  · have := write_buf o o.buf
    generalize o.write o.buf = r at this
    simp only [List.length_take, this]
    omega
  · exact h

/-- C44: whatever happens, the bytes waiting to be sent fit the array that holds them. -/
theorem writes_bounded (env : List Write) (ops : List WOp) (o : Out) (rs : List Bool)
    (h : (fresh env).run ops = some (o, rs)) : o.buf.length ≤ 8192 := by
  have step : ∀ (o o' : Out) (w : WOp) (b : Bool), o.buf.length ≤ 8192 → o.op w = some (o', b) → o'.buf.length ≤ 8192 := by
    intro o o' w b h0 hs
    have hW : writeSize = 8192 := rfl
    cases w with
    | putc c =>
      simp only [Out.op, Out.putc, hW] at hs
      split at hs
      · cases hs; simp; omega
      · split at hs
        · simp only [Option.some.injEq] at hs
          have := flush_bounded (o := { o with buf := o.buf ++ [c] }) (n := 8192) (by simp; omega)
          rw [hs] at this; exact this
        · cases hs
    | putn s =>
      simp only [Out.op, Out.putn, hW] at hs
      split at hs
      · simp only [Option.map_some, Option.some.injEq, Prod.mk.injEq] at hs
        rw [← hs.1]; simp; omega
      · have hf := flush_bounded (o := { o with buf := o.buf ++ s.take (8192 - 1 - o.buf.length) }) (n := 8192)
          (by simp; omega)
        generalize ({ o with buf := o.buf ++ s.take (8192 - 1 - o.buf.length) } : Out).flush = r at hs hf
        obtain ⟨o1, ok⟩ := r
        simp only at hs hf
        split at hs
        · simp only [Option.map_some, Option.some.injEq, Prod.mk.injEq] at hs
          rw [← hs.1]; exact hf
        · split at hs
          · cases hs
          · split at hs
            · have := write_buf o1 (s.drop (8192 - 1 - o.buf.length))
              generalize o1.write (s.drop (8192 - 1 - o.buf.length)) = r at hs this
              obtain ⟨o2, n⟩ := r
              simp only [Option.map_some, Option.some.injEq, Prod.mk.injEq] at hs this
              rw [← hs.1, this]; exact hf
            · split at hs
              · simp only [Option.map_some, Option.some.injEq, Prod.mk.injEq] at hs
                rw [← hs.1]; simp; omega
              · cases hs
    | sync =>
      simp only [Out.op, Out.sync, Option.some.injEq] at hs
      have := flush_bounded h0
      rw [hs] at this; exact this
  have all : ∀ (ops : List WOp) (o o' : Out) (rs : List Bool), o.buf.length ≤ 8192 → o.run ops = some (o', rs) →
      o'.buf.length ≤ 8192 := by
    intro ops
    induction ops with
    | nil => intro o o' rs h0 hr; simp only [Out.run, Option.some.injEq, Prod.mk.injEq] at hr; rw [← hr.1]; exact h0
    | cons w ws ih =>
      intro o o' rs h0 hr
      simp only [Out.run] at hr
      cases hs : o.op w with
      | none => rw [hs] at hr; cases hr
      | some r =>
        obtain ⟨o1, b⟩ := r
        rw [hs] at hr
        simp only [Option.map_eq_some_iff] at hr
        obtain ⟨⟨o2, rs2⟩, h2, h3⟩ := hr
        simp only [Prod.mk.injEq] at h3
        rw [← h3.1]
        exact ih o1 o2 rs2 (step o o1 w b h0 hs) h2
  exact all ops _ o rs (by simp [fresh]) h

example : ((fresh [.failed 0]).run [.putn (List.replicate 8191 0), .putc 1]).map (fun r => r.1.buf.length) = some 8192 := by
  decide +kernel

/-- Finding: a write fails after one of four bytes; when the stream is used again the first three bytes are sent, so
    that one byte is sent twice and one is lost. -/
theorem failed_write_resends : (fresh [.failed 1]).run [.putn (b! "abcd"), .sync, .sync] =
    some ({ sent := b! "aabc" }, [true, false, true]) := by decide +kernel

/-- Finding: when the buffer is full and cannot be sent, the next two characters overrun it. -/
theorem failed_write_overrun (s : Bytes) (hs : s.length = 8191) (a b : UInt8) :
    (fresh [.failed 0]).run [.putn s, .putc a, .putc b] = none := by
  have h1 : (fresh [.failed 0]).op (.putn s) = some ({ buf := s, env := [.failed 0] }, true) := by
    simp [Out.op, Out.putn, fresh, hs, writeSize]
  have h2 : ({ buf := s, env := [.failed 0] } : Out).op (.putc a) = some ({ buf := s ++ [a], error := true }, false) := by
    simp [Out.op, Out.putc, hs, writeSize, Out.flush, Out.write]
    rw [List.take_of_length_le (by simp [hs])]
  have h3 : ({ buf := s ++ [a], error := true } : Out).op (.putc b) = none := by
    simp [Out.op, Out.putc, hs, writeSize]
  simp only [Out.run, h1, h2, h3, Option.map_none]

example : ∃ s : Bytes, s.length = 8191 := ⟨List.replicate 8191 0, List.length_replicate⟩

/-- Finding: a wait that returns early makes the same bytes be sent twice. -/
theorem spurious_wakeup_resends : (fresh [.spurious]).run [.putn (b! "ab"), .sync, .sync] =
    some ({ sent := b! "abab" }, [true, true, true]) := by decide +kernel

/- Reading -/

/-- How many bytes a call asks for. -/
def want : ROp → Nat
  | .peek => 1
  | .getc => 1
  | .getn n => n
  | _ => 0

private theorem reads_step {data : Bytes} {i : In} {k : Cursor} (h : At data i k) (o : ROp)
    (hn : k.pos + want o ≤ data.length) :
    ∃ k', Reads data k o (i.op o).2 k' ∧ At data (i.op o).1 k' ∧
      k'.pos ≤ k.pos + want o := by
  have hunget : ∀ c, i.back.getLast? = some c → ∃ p, k.pos = p + 1 ∧ data[p]? = some c ∧
      At data { i with back := i.back.dropLast, avail := c :: i.avail } ⟨p, k.far⟩ := by
    intro c hc
    obtain ⟨base, h1, h2, h3, h4⟩ := h.base
    obtain ⟨l, hl⟩ : ∃ l, i.back = l ++ [c] := by
      have := List.getLast?_eq_some_iff.mp hc
      exact this
    rw [hl] at h1 h2
    simp only [List.length_append, List.length_singleton] at h2
    have hle := h.pos_le
    have hg : At data { i with back := i.back.dropLast, avail := c :: i.avail } ⟨base + l.length, k.far⟩ := by
      refine ⟨h.env, h.data, ⟨base, ?_, ?_, h3, h4⟩, ?_⟩
      · simp [hl, ← h1]
      · simp [hl]
      · have := h.far; simp only []; omega
    exact ⟨base + l.length, by omega, hg.get rfl, hg⟩
  have hnone : i.back.getLast? = none → k.pos = 0 ∨ 10 ≤ k.far - k.pos := by
    intro hc
    obtain ⟨base, h1, h2, h3, h4⟩ := h.base
    have : i.back = [] := by simpa using hc
    rw [this] at h2
    simp only [List.length_nil] at h2
    omega
  cases o with
  | peek =>
    simp only [want] at hn
    obtain ⟨i', c, l, h1, h2, h3, _⟩ := h.underflow (by omega)
    refine ⟨k, ?_, ?_, by simp [want]⟩
    · simp only [In.op, In.peek, h1]; exact .peek (h3.get h2)
    · simp only [In.op, In.peek, h1]; exact h3
  | getc =>
    simp only [want] at hn
    obtain ⟨i', c, l, h1, h2, h3, _⟩ := h.underflow (by omega)
    refine ⟨⟨k.pos + 1, max k.far (k.pos + 1)⟩, ?_, ?_, by simp [want]⟩
    · simp only [In.op, In.getc, h1]; exact .getc (h3.get h2)
    · simp only [In.op, In.getc, h1]; exact h3.bump (by rw [h2]; simp)
  | getn n =>
    simp only [want] at hn
    obtain ⟨i', h1, h2⟩ := At.getLoop (i.env.length + 2) i k n h (by omega) hn
    refine ⟨⟨k.pos + n, max k.far (k.pos + n)⟩, ?_, ?_, by simp [want]⟩
    · simp only [In.op, In.getn, h1]; exact .getn hn
    · simp only [In.op, In.getn, h1]; exact h2
  | unget =>
    cases hc : i.back.getLast? with
    | none =>
      refine ⟨k, ?_, ?_, by simp⟩
      · simp only [In.op, In.unget, hc]; exact .noUnget (hnone hc)
      · simp only [In.op, In.unget, hc]; exact h
    | some c =>
      obtain ⟨p, hp, h1, h2⟩ := hunget c hc
      obtain ⟨kp, kf⟩ := k
      simp only [] at hp
      subst hp
      refine ⟨⟨p, kf⟩, ?_, ?_, by simp only []; omega⟩
      · simp only [In.op, In.unget, hc]; exact .unget h1
      · simp only [In.op, In.unget, hc]; exact h2
  | putback d =>
    cases hc : i.back.getLast? with
    | none =>
      refine ⟨k, ?_, ?_, by simp⟩
      · simp [In.op, In.putback, hc]; exact .noPutback (hnone hc)
      · simp [In.op, In.putback, hc]; exact h
    | some c =>
      obtain ⟨p, hp, h1, h2⟩ := hunget c hc
      obtain ⟨kp, kf⟩ := k
      simp only [] at hp
      subst hp
      by_cases hcd : c = d
      · subst hcd
        refine ⟨⟨p, kf⟩, ?_, ?_, by simp only []; omega⟩
        · simp only [In.op, In.putback, hc, if_true, In.unget]; exact .putback h1
        · simp only [In.op, In.putback, hc, if_true, In.unget]; exact h2
      · have hne : ¬ (some c = some d) := by simpa using hcd
        refine ⟨⟨p + 1, kf⟩, ?_, ?_, by simp⟩
        · simp only [In.op, In.putback, hc, if_neg hne]; exact .badPutback (by rw [h1]; simpa using hcd)
        · simp only [In.op, In.putback, hc, if_neg hne]; exact h

/-- How many bytes the calls ask for. -/
def wanted (ops : List ROp) : Nat := (ops.map want).sum

/-- C44, reading: the bytes arrive in any pieces; the calls, in any order, act as on a cursor over them, and the last
    ten bytes read can always be put back. (There are enough bytes for what is asked for, so no read fails.) -/
theorem reads_in_order_partial (chunks : List Bytes) (hc : [] ∉ chunks) (ops : List ROp)
    (hn : wanted ops ≤ chunks.flatten.length) :
    ReadsAll chunks.flatten ⟨0, 0⟩ ops (({ env := chunks.map some } : In).run ops).2 := by
  have key : ∀ (ops : List ROp) (i : In) (k : Cursor), At chunks.flatten i k →
      k.pos + wanted ops ≤ chunks.flatten.length → ReadsAll chunks.flatten k ops (i.run ops).2 := by
    intro ops
    induction ops with
    | nil => intro i k _ _; exact .nil
    | cons o os ih =>
      intro i k h hn
      simp only [wanted, List.map_cons, List.sum_cons] at hn
      obtain ⟨k', h1, h2, h3⟩ := reads_step h o (by omega)
      have h4 := ih _ k' h2 (by simp only [wanted]; omega)
      exact .cons h1 h4
  refine key ops _ ⟨0, 0⟩ ⟨?_, ?_, ⟨0, ?_⟩, Nat.le_refl _⟩ (by simpa using hn)
  · intro x hx
    obtain ⟨l, hl, rfl⟩ := List.mem_map.mp hx
    cases l with
    | nil => exact absurd hl hc
    | cons c l => exact ⟨c, l, rfl⟩
  · simp [Function.comp_def]
  · simp

example : (({ env := [some (b! "ab"), some (b! "cde")] } : In).run
    [.getc, .getn 3, .unget, .unget, .unget, .getc, .putback (c! "b"), .putback (c! "x"), .getn 4]).2 =
    [.char (some (c! "a")), .chars (b! "bcd"), .char (some (c! "d")), .char (some (c! "c")), .char (some (c! "b")),
     .char (some (c! "b")), .char (some (c! "b")), .char none, .chars (b! "bcde")] := by decide +kernel

private theorem underflow_forward (i : In) : i.underflow.1.received.length = i.received.length + (i.underflow.1.avail.length - i.avail.length) ∧
    ∀ r, r ++ i.avail = i.received → r ++ i.underflow.1.avail = i.underflow.1.received := by
  unfold In.underflow
  split
  · rename_i h; simp
  · rename_i h
    simp only []
    split
    · simp only [h, List.length_append, List.length_nil, Nat.sub_zero, List.append_nil, true_and]
      intro r hr; rw [hr]
    · simp [h]

private theorem getLoop_forward (fuel : Nat) : ∀ (i : In) (n : Nat) (r : Bytes), r ++ i.avail = i.received →
    r ++ (In.getLoop fuel i n).2 ++ (In.getLoop fuel i n).1.avail = (In.getLoop fuel i n).1.received := by
  induction fuel with
  | zero => intro i n r h; simpa [In.getLoop] using h
  | succ fuel ih =>
    intro i n r h
    unfold In.getLoop
    split
    · simpa using h
    · simp only []
      have h1 : (r ++ i.avail.take n) ++ (i.avail.drop n) = i.received := by simpa using h
      split
      · have hu := (underflow_forward { i with back := i.back ++ i.avail.take n, avail := i.avail.drop n }).2 _ h1
        generalize ({ i with back := i.back ++ i.avail.take n, avail := i.avail.drop n } : In).underflow = q at hu
        obtain ⟨i2, c⟩ := q
        cases c with
        | none => simpa using hu
        | some c =>
          simp only [] at hu ⊢
          have := ih i2 (n - (i.avail.take n).length) _ hu
          generalize In.getLoop fuel i2 (n - (i.avail.take n).length) = q at this
          obtain ⟨i3, rest⟩ := q
          simpa using this
      · simpa using h1

/-- C44, reading: also when reads fail in between, the bytes returned by calls that only go forward, followed by those
    still in the buffer, are the bytes received: none is lost, none comes twice, and they are in order. -/
theorem forward_in_order (env : List (Option Bytes)) (ops : List ROp) (hf : ∀ o ∈ ops, forward o = true) :
    returned (ops.zip (({ env } : In).run ops).2) ++ (({ env } : In).run ops).1.avail =
      (({ env } : In).run ops).1.received := by
  have key : ∀ (ops : List ROp) (i : In) (r : Bytes), (∀ o ∈ ops, forward o = true) → r ++ i.avail = i.received →
      r ++ returned (ops.zip (i.run ops).2) ++ (i.run ops).1.avail = (i.run ops).1.received := by
    intro ops
    induction ops with
    | nil => intro i r _ h; simpa [In.run, returned] using h
    | cons o os ih =>
      intro i r hf h
      have hf' : ∀ o ∈ os, forward o = true := fun o ho => hf o (by simp [ho])
      have ho := hf o (by simp)
      have hrun : i.run (o :: os) = (((i.op o).1.run os).1, (i.op o).2 :: ((i.op o).1.run os).2) := rfl
      rw [hrun]
      simp only [List.zip_cons_cons]
      cases o with
      | peek =>
        have hu := (underflow_forward i).2 r h
        have := ih (i.op .peek).1 r hf' (by simpa [In.op, In.peek] using hu)
        simpa [returned] using this
      | getc =>
        have hu := (underflow_forward i).2 r h
        simp only [In.op, In.getc]
        cases hq : i.underflow with
        | mk i2 c =>
          rw [hq] at hu
          cases c with
          | none =>
            have := ih i2 r hf' hu
            simpa [returned] using this
          | some c =>
            have hc : ∃ l, i2.avail = c :: l := by
              unfold In.underflow at hq
              split at hq
              · rename_i c' l' hl
                simp only [Prod.mk.injEq, Option.some.injEq] at hq
                obtain ⟨rfl, rfl⟩ := hq
                exact ⟨_, hl⟩
              · simp only [] at hq
                split at hq
                · simp only [Prod.mk.injEq, Option.some.injEq] at hq
                  obtain ⟨rfl, rfl⟩ := hq
                  exact ⟨_, rfl⟩
                · simp at hq
            obtain ⟨l, hl⟩ := hc
            have := ih i2.bump (r ++ [c]) hf' (by simpa [In.bump, hl] using hu)
            simpa [returned] using this
      | getn n =>
        have hg := getLoop_forward (i.env.length + 2) i n r h
        simp only [In.op, In.getn]
        generalize In.getLoop (i.env.length + 2) i n = q at hg
        obtain ⟨i2, s⟩ := q
        have := ih i2 (r ++ s) hf' hg
        simpa [returned] using this
      | unget => cases ho
      | putback c => cases ho
  simpa using key ops { env } [] hf rfl

/-- Finding: when a read has failed (the end of the stream), putting back more characters than came with the last
    piece gives wrong ones: the third of "abc" is put back twice. -/
theorem failed_read_putback : (({ env := [some (b! "ab"), some (b! "c"), none] } : In).run
    [.getn 4, .unget, .unget, .getn 2]).2 =
    [.chars (b! "abc"), .char (some (c! "c")), .char (some (c! "c")), .chars (b! "cc")] := by decide +kernel

end Verif.Props.Stream
