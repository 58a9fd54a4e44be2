import Verif.Spec.Stream
import Mathlib.Tactic.Common
/-
Invariants of the stream buffer.
-/
namespace Verif.Stream
open Verif.Spec.Stream

/- Writing -/

/-- Nothing was lost or sent twice so far. -/
def Out.Good (o : Out) (all : Bytes) : Prop := o.sent ++ o.buf = all ∧ o.buf.length ≤ writeSize - 1

/-- Waits end only when the operation has. -/
def Out.Sound (o : Out) : Prop := Write.spurious ∉ o.env

theorem headD_sound {o : Out} (h : o.Sound) : o.env.headD .done ≠ .spurious := by
  unfold Out.Sound at h
  cases he : o.env with
  | nil => simp
  | cons x xs => rw [he] at h; simp at h; simp [Ne.symm h.1]

theorem tail_sound {o : Out} (h : o.Sound) : Write.spurious ∉ o.env.tail :=
  fun hm => h (List.mem_of_mem_tail hm)

theorem write_spec {o : Out} (data : Bytes) (h : o.Sound) : (o.write data).1.Sound ∧
    (o.write data).1.buf = o.buf ∧ (o.write data).2 ≤ data.length ∧
    (o.write data).1.sent = o.sent ++ data.take (o.write data).2 ∧
    ((o.write data).1.error = false → (o.write data).2 = data.length) := by
  have h1 := headD_sound h
  have h2 := tail_sound h
  unfold Out.write
  split
  · exact ⟨h2, rfl, Nat.le_refl _, by simp, fun _ => rfl⟩
  · rename_i k _
    refine ⟨h2, rfl, Nat.min_le_right _ _, ?_, by simp⟩
    simp only []
    congr 1
    rcases Nat.le_total k data.length with hk | hk
    · rw [Nat.min_eq_left hk]
    · rw [Nat.min_eq_right hk, List.take_of_length_le hk, List.take_length]
  · contradiction

theorem flush_spec {o : Out} (h : o.Sound) : o.flush.1.Sound ∧
    (∃ k, o.flush.1.sent = o.sent ++ o.buf.take k) ∧
    (o.flush.2 = true → o.flush.1.sent = o.sent ++ o.buf ∧ o.flush.1.buf = []) := by
  unfold Out.flush
  split
  · rename_i hl
    obtain ⟨h1, h2, h3, h4, h5⟩ := write_spec o.buf h
    refine ⟨h1, ⟨_, h4⟩, fun hb => ?_⟩
    simp only [Bool.not_eq_eq_eq_not, Bool.not_true] at hb
    have h6 := h5 hb
    simp only []
    rw [h4, h6, h2]
    simp
  · rename_i hl
    have h0 : o.buf = [] := by
      cases hb : o.buf with
      | nil => rfl
      | cons x xs => rw [hb] at hl; simp at hl
    exact ⟨h, ⟨0, by simp⟩, fun _ => by simp [h0]⟩

/-- One call: if it reports no error everything put so far is sent or in the buffer; otherwise what was sent is the
    beginning of it. -/
theorem op_spec {o o' : Out} {all : Bytes} {w : WOp} {b : Bool} (hs : o.Sound) (hg : o.Good all)
    (h : o.op w = some (o', b)) : o'.Sound ∧ o'.sent <+: all ++ put w ∧ (b = true → o'.Good (all ++ put w)) := by
  obtain ⟨g1, g2⟩ := hg
  have hw : writeSize - 1 < writeSize := by decide
  have hpre : ∀ k (x : Bytes), (o.sent ++ (o.buf ++ x).take k) <+: all ++ x := by
    intro k x
    rw [← g1, List.append_assoc]
    exact List.prefix_append_right_inj _ |>.mpr (List.take_prefix _ _)
  cases w with
  | putc c =>
    simp only [Out.op, Out.putc] at h
    split at h
    · rename_i hl
      simp only [Option.some.injEq, Prod.mk.injEq] at h
      obtain ⟨rfl, rfl⟩ := h
      refine ⟨hs, ?_, fun _ => ⟨by simp [put, ← g1], by simp only [List.length_append, List.length_singleton]; omega⟩⟩
      simp only [put]
      rw [← g1, List.append_assoc]
      exact List.prefix_append _ _
    · split at h
      · simp only [Option.some.injEq] at h
        have hf := flush_spec (o := { o with buf := o.buf ++ [c] }) hs
        rw [h] at hf
        obtain ⟨f1, ⟨k, f2⟩, f3⟩ := hf
        refine ⟨f1, ?_, fun hb => ?_⟩
        · simp only [] at f2; rw [f2]; exact hpre k [c]
        · obtain ⟨e1, e2⟩ := f3 hb
          simp only [] at e1 e2
          refine ⟨?_, by rw [e2]; simp⟩
          rw [e1, e2, put, ← g1]; simp
      · cases h
  | putn s =>
    simp only [Out.op, Out.putn] at h
    split at h
    · rename_i hl
      simp only [Option.map_some, Option.some.injEq, Prod.mk.injEq] at h
      obtain ⟨rfl, rfl⟩ := h
      refine ⟨hs, ?_, fun _ => ⟨by simp [put, ← g1], by simp only [List.length_append]; exact hl⟩⟩
      simp only [put]
      rw [← g1, List.append_assoc]
      exact List.prefix_append _ _
    · rename_i hl
      generalize hav : writeSize - 1 - o.buf.length = avail at h
      have hf := flush_spec (o := { o with buf := o.buf ++ s.take avail }) hs
      generalize ({ o with buf := o.buf ++ s.take avail } : Out).flush = r at hf h
      obtain ⟨o1, ok⟩ := r
      obtain ⟨f1, ⟨k, f2⟩, f3⟩ := hf
      simp only [] at f1 f2 f3 h
      have hp1 : o1.sent <+: all ++ s := by
        rw [f2]
        refine (hpre k (s.take avail)).trans ?_
        exact List.prefix_append_right_inj _ |>.mpr (List.take_prefix _ _)
      split at h
      · simp only [Option.map_some, Option.some.injEq, Prod.mk.injEq] at h
        obtain ⟨rfl, rfl⟩ := h
        refine ⟨f1, hp1, fun hb => ?_⟩
        simp only [beq_iff_eq] at hb
        rw [← hb] at hl
        omega
      · rename_i hok
        have hok' : ok = true := by simpa using hok
        obtain ⟨e1, e2⟩ := f3 hok'
        have hsplit : all ++ s = o1.sent ++ s.drop avail := by
          rw [e1, ← g1]; simp
        split at h
        · cases h
        · split at h
          · simp only [Option.map_some, Option.some.injEq, Prod.mk.injEq] at h
            obtain ⟨rfl, rfl⟩ := h
            obtain ⟨w1, w2, w3, w4, w5⟩ := write_spec (s.drop avail) f1
            refine ⟨w1, ?_, fun hb => ?_⟩
            · simp only [put]
              rw [w4, hsplit]
              exact List.prefix_append_right_inj _ |>.mpr (List.take_prefix _ _)
            · simp only [beq_iff_eq] at hb
              have hn : (o1.write (s.drop avail)).2 = (s.drop avail).length := by
                rw [List.length_drop] at w3 ⊢; omega
              refine ⟨?_, by rw [w2, e2]; simp⟩
              rw [w4, hn, w2, e2, put, hsplit]
              simp [List.take_of_length_le]
          · rename_i hsm
            simp only [Option.map_some, Option.some.injEq, Prod.mk.injEq] at h
            obtain ⟨rfl, rfl⟩ := h
            refine ⟨f1, hp1, fun _ => ⟨by simp [put, hsplit], by simp only [List.length_drop]; omega⟩⟩
  | sync =>
    simp only [Out.op, Out.sync, Option.some.injEq] at h
    have hf := flush_spec hs
    rw [h] at hf
    obtain ⟨f1, ⟨k, f2⟩, f3⟩ := hf
    refine ⟨f1, ?_, fun hb => ?_⟩
    · simp only [] at f2; rw [f2]; simpa [put] using hpre k []
    · obtain ⟨e1, e2⟩ := f3 hb
      exact ⟨by simp only [] at e1 e2; rw [e1, e2, put, ← g1], by simp only [] at e2; rw [e2]; simp⟩

/-- No call is undefined as long as the calls report no error. -/
theorem op_some {o : Out} {all : Bytes} (w : WOp) (hs : o.Sound) (hg : o.Good all) : (o.op w).isSome := by
  obtain ⟨g1, g2⟩ := hg
  have hw : writeSize - 1 < writeSize := by decide
  cases w with
  | putc c =>
    simp only [Out.op, Out.putc]
    split
    · rfl
    · rw [if_pos (by omega)]; rfl
  | putn s =>
    simp only [Out.op, Out.putn]
    split
    · rfl
    · generalize hav : writeSize - 1 - o.buf.length = avail
      have hf := flush_spec (o := { o with buf := o.buf ++ s.take avail }) hs
      generalize ({ o with buf := o.buf ++ s.take avail } : Out).flush = r at hf
      obtain ⟨o1, ok⟩ := r
      obtain ⟨_, _, f3⟩ := hf
      simp only [] at f3 ⊢
      split
      · rfl
      · rename_i hok
        have hok' : ok = true := by simpa using hok
        rw [if_neg (by omega)]
        split
        · rfl
        · rw [if_pos (f3 hok').2]; rfl
  | sync => rfl

/- Reading -/

theorem underflow_cons (i : In) (c : UInt8) (l : Bytes) (h : i.avail = c :: l) : i.underflow = (i, some c) := by
  unfold In.underflow
  rw [h]

theorem lastBytes_append (a b : Bytes) (n : Nat) (h : n ≤ b.length) : lastBytes n (a ++ b) = lastBytes n b := by
  unfold lastBytes
  rw [List.length_append, show a.length + b.length - n = a.length + (b.length - n) by omega, List.drop_append]
  simp

/-- The place of a buffer in the bytes that come. -/
structure At (data : Bytes) (i : In) (k : Cursor) : Prop where
  env : ∀ x ∈ i.env, ∃ c l, x = some (c :: l)
  data : data = i.received ++ (i.env.map (·.getD [])).flatten
  base : ∃ base, i.back ++ i.avail = i.received.drop base ∧ base + i.back.length = k.pos ∧
    base ≤ i.received.length ∧ (base = 0 ∨ base + 10 ≤ k.far)
  far : k.pos ≤ k.far

theorem At.avail {data : Bytes} {i : In} {k : Cursor} (h : At data i k) : i.avail = i.received.drop k.pos := by
  obtain ⟨base, h1, h2, _⟩ := h.base
  have : (i.back ++ i.avail).drop i.back.length = (i.received.drop base).drop i.back.length := by rw [h1]
  rw [List.drop_drop, h2] at this
  simpa using this

theorem At.pos_le {data : Bytes} {i : In} {k : Cursor} (h : At data i k) : k.pos ≤ i.received.length := by
  obtain ⟨base, h1, h2, h3, _⟩ := h.base
  have := congrArg List.length h1
  simp at this
  omega

theorem At.get {data : Bytes} {i : In} {k : Cursor} (h : At data i k) {c : UInt8} {l : Bytes}
    (ha : i.avail = c :: l) : data[k.pos]? = some c := by
  have h1 := h.avail
  have h2 := h.pos_le
  rw [ha] at h1
  have h3 : k.pos < i.received.length := by
    have := congrArg List.length h1
    simp at this
    omega
  rw [h.data, List.getElem?_append_left h3]
  have := congrArg List.head? h1
  simpa [List.head?_drop] using this.symm

theorem At.underflow {data : Bytes} {i : In} {k : Cursor} (h : At data i k) (hp : k.pos < data.length) :
    ∃ i' c l, i.underflow = (i', some c) ∧ i'.avail = c :: l ∧ At data i' k ∧ i'.env.length ≤ i.env.length ∧
      (i.avail = [] → i'.env.length < i.env.length) := by
  cases ha : i.avail with
  | cons c l => exact ⟨i, c, l, underflow_cons i c l ha, ha, h, Nat.le_refl _, by simp⟩
  | nil =>
    have hav := h.avail
    rw [ha] at hav
    have hle := h.pos_le
    have hpos : k.pos = i.received.length := by
      have := congrArg List.length hav
      simp at this
      omega
    cases he : i.env with
    | nil =>
      have hd := h.data
      rw [he] at hd
      simp at hd
      rw [hd] at hp
      omega
    | cons x xs =>
      obtain ⟨c, l, rfl⟩ := h.env x (by rw [he]; simp)
      refine ⟨{ back := lastBytes (min i.back.length putBackMax) i.back, avail := c :: l, kept := min i.back.length putBackMax, received := i.received ++ c :: l, env := xs }, c, l, ?_, rfl, ?_, by simp, by simp⟩
      · unfold In.underflow
        rw [ha, he]
        rfl
      · obtain ⟨base, h1, h2, h3, h4⟩ := h.base
        rw [ha, List.append_nil] at h1
        refine ⟨fun y hy => h.env y (by rw [he]; simp [hy]), ?_, ?_, h.far⟩
        · have hd := h.data
          rw [he] at hd
          simpa using hd
        · have hpb : putBackMax = 10 := rfl
          have hlen : (lastBytes (min i.back.length putBackMax) i.back).length = min i.back.length putBackMax := by
            simp [lastBytes]; omega
          refine ⟨k.pos - min i.back.length putBackMax, ?_, ?_, ?_, ?_⟩
          · simp only [lastBytes]
            rw [h1, List.drop_drop, List.drop_append]
            have h5 : k.pos - min (List.drop base i.received).length putBackMax - i.received.length = 0 := by omega
            rw [h5, List.drop_zero]
            congr 1
            congr 1
            rw [← h1]
            omega
          · simp only [hlen]; omega
          · simp; omega
          · have := h.far
            by_cases hb : i.back.length ≤ 10
            · rw [Nat.min_eq_left (by omega)]
              rcases h4 with h4 | h4
              · left; omega
              · right; omega
            · right; omega

theorem At.bump {data : Bytes} {i : In} {k : Cursor} (h : At data i k) {n : Nat} (hn : n ≤ i.avail.length) :
    At data { i with back := i.back ++ i.avail.take n, avail := i.avail.drop n } ⟨k.pos + n, max k.far (k.pos + n)⟩ := by
  obtain ⟨base, h1, h2, h3, h4⟩ := h.base
  refine ⟨h.env, h.data, ⟨base, ?_, ?_, h3, ?_⟩, by simp only []; omega⟩
  · simpa using h1
  · simp only [List.length_append, List.length_take]; omega
  · simp only []; omega

/-- The loop of `xsgetn`, with enough to read. -/
theorem At.getLoop {data : Bytes} (fuel : Nat) : ∀ (i : In) (k : Cursor) (n : Nat), At data i k →
    i.env.length + 1 ≤ fuel → k.pos + n ≤ data.length → ∃ i', In.getLoop fuel i n = (i', (data.drop k.pos).take n) ∧
      At data i' ⟨k.pos + n, max k.far (k.pos + n)⟩ := by
  induction fuel with
  | zero => intro i k n _ h; omega
  | succ fuel ih =>
    intro i k n h hf hn
    unfold In.getLoop
    by_cases h0 : n = 0
    · subst h0
      rw [if_pos rfl]
      refine ⟨i, by simp, ?_⟩
      have := h.far
      obtain ⟨p, f⟩ := k
      simp only [] at this
      simp only [Nat.add_zero, Nat.max_eq_left this]
      exact h
    · rw [if_neg h0]
      simp only []
      have hpart : i.avail.take n = (data.drop k.pos).take (min n i.avail.length) := by
        have h1 := h.avail
        have h2 := h.pos_le
        have h3 : data.drop k.pos = i.avail ++ (i.env.map (·.getD [])).flatten := by
          conv => lhs; rw [h.data]
          rw [List.drop_append, h1, Nat.sub_eq_zero_of_le h2, List.drop_zero]
        rw [h3, List.take_append_of_le_length (by omega)]
        rcases Nat.le_total n i.avail.length with hh | hh
        · rw [Nat.min_eq_left hh]
        · rw [Nat.min_eq_right hh, List.take_of_length_le hh, List.take_length]
      have hm : At data { i with back := i.back ++ i.avail.take n, avail := i.avail.drop n }
          ⟨k.pos + min n i.avail.length, max k.far (k.pos + min n i.avail.length)⟩ := by
        have := h.bump (n := min n i.avail.length) (by omega)
        rcases Nat.le_total n i.avail.length with hh | hh
        · rwa [Nat.min_eq_left hh] at this ⊢
        · rw [Nat.min_eq_right hh] at this ⊢
          rw [List.take_length, List.drop_length] at this
          rwa [List.take_of_length_le hh, List.drop_eq_nil_of_le hh]
      rw [List.length_take]
      by_cases hmore : n - min n i.avail.length > 0
      · rw [if_pos hmore]
        obtain ⟨i2, c, l, hu, _, ha2, _, he2⟩ := hm.underflow (by simp only []; omega)
        rw [hu]
        simp only []
        have hdrop : i.avail.drop n = [] := List.drop_eq_nil_of_le (by omega)
        have := he2 hdrop
        simp only [] at this
        obtain ⟨i3, e1, e2⟩ := ih i2 _ (n - min n i.avail.length) ha2 (by omega) (by simp only []; omega)
        rw [e1]
        refine ⟨i3, ?_, ?_⟩
        · simp only [Prod.mk.injEq, true_and]
          rw [hpart, ← List.drop_drop, ← List.take_add]
          congr 1
          omega
        · convert e2 using 2
          · simp only []; omega
          · simp only []; omega
      · rw [if_neg hmore]
        have hmin : min n i.avail.length = n := by omega
        rw [hmin] at hpart hm
        exact ⟨_, by rw [hpart], hm⟩

end Verif.Stream
