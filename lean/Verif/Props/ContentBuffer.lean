import Verif.Spec.ContentBuffer
import Verif.Model.MessageCopy
import Mathlib.Tactic.Common
/-
C63: copies of messages are equal and independent.
-/
namespace Verif.Props.ContentBuffer
open Verif.ContentBuffer Verif.Spec.ContentBuffer

/-- Object `i` holds the content `c`. -/
private def Holds (s : St) (i : Nat) (o : Obj) (c : List Cell) : Prop :=
  o.len = c.length ∧
    ((c = [] ∧ o.buf = none ∧ o.ptr = .empty i) ∨
      (c ≠ [] ∧ ∃ a, o.buf = some a ∧ o.ptr = .block a ∧ s.heap a = some (c ++ [some 0])))

private structure Inv (s : St) (v : Contents) : Prop where
  none_iff : ∀ i, s.objs i = none ↔ v i = none
  holds : ∀ i o c, s.objs i = some o → v i = some c → Holds s i o c
  inj : ∀ i j o p a, s.objs i = some o → s.objs j = some p → o.buf = some a → p.buf = some a → i = j
  fresh : ∀ a, s.next ≤ a → s.heap a = none
  owned : ∀ a, s.heap a ≠ none → ∃ i o, s.objs i = some o ∧ o.buf = some a

private theorem Inv.get {s : St} {v : Contents} (h : Inv s v) {i : Nat} {c : List Cell} (hv : v i = some c) :
    ∃ o, s.objs i = some o ∧ Holds s i o c := by
  cases ho : s.objs i with
  | none => rw [(h.none_iff i).1 ho] at hv; cases hv
  | some o => exact ⟨o, rfl, h.holds i o c ho hv⟩

private theorem Inv.none {s : St} {v : Contents} (h : Inv s v) {i : Nat} (hv : v i = none) : s.objs i = none :=
  (h.none_iff i).2 hv

private theorem loadz {s : St} {i : Nat} {o : Obj} {c : List Cell} (hi : s.objs i ≠ none) (h : Holds s i o c) :
    s.load o o.len = some c ∧ s.load o (o.len + 1) = some (c ++ [some 0]) := by
  obtain ⟨hl, ⟨hc, hb, hp⟩ | ⟨hc, a, hb, hp, hh⟩⟩ := h
  · have hs : (s.objs i).isSome := Option.isSome_iff_ne_none.2 hi
    subst hc
    simp [St.load, hp, hl, hs]
  · have e : (c ++ [some 0]).take (c.length + 1) = c ++ [some 0] := List.take_of_length_le (by simp)
    simp [St.load, hp, hl, hh, e]

/-- Freeing the block of object `i` keeps the others'. -/
private theorem free_other {s : St} {v : Contents} (h : Inv s v) {i : Nat} {o : Obj} (ho : s.objs i = some o) {j : Nat}
    {p : Obj} (hp : s.objs j = some p) (hj : j ≠ i) {a : Nat} (ha : p.buf = some a) : free s.heap o.buf a = s.heap a := by
  cases hb : o.buf with
  | none => rfl
  | some b =>
    have : a ≠ b := fun e => hj (h.inj j i p o a hp ho ha (e ▸ hb))
    simp [free, upd, this]

private theorem free_none {s : St} {o : Option Nat} {a : Nat} (h : s.heap a = none) : free s.heap o a = none := by
  cases o with
  | none => exact h
  | some b => simp only [free, upd]; split <;> first | rfl | exact h

private theorem free_owned {s : St} {v : Contents} (h : Inv s v) {i : Nat} {o : Obj} (ho : s.objs i = some o) {a : Nat}
    (ha : free s.heap o.buf a ≠ none) : ∃ j p, j ≠ i ∧ s.objs j = some p ∧ p.buf = some a := by
  have hh : s.heap a ≠ none := fun e => ha (free_none e)
  obtain ⟨j, p, hp, hb⟩ := h.owned a hh
  refine ⟨j, p, ?_, hp, hb⟩
  rintro rfl
  rw [ho] at hp
  cases hp
  rw [hb] at ha
  simp [free, upd] at ha

private theorem resize_inv {s : St} {v : Contents} (h : Inv s v) {i : Nat} {o : Obj} (ho : s.objs i = some o) (n : Nat) :
    Inv (s.resize i o n) (put v i (some (List.replicate n none))) := by
  have hbuf : ∀ j p a, s.objs j = some p → p.buf = some a → a < s.next := by
    intro j p a hp ha
    by_contra hc
    have h0 := h.fresh a (by omega)
    cases hv : v j with
    | none => rw [h.none hv] at hp; cases hp
    | some c =>
      obtain ⟨_, ⟨_, hb, _⟩ | ⟨_, b, hb, _, hh⟩⟩ := h.holds j p c hp hv
      · rw [ha] at hb; cases hb
      · rw [ha] at hb; cases hb; rw [h0] at hh; cases hh
  unfold St.resize
  by_cases hn : n = 0
  · subst hn
    rw [if_pos rfl]
    refine ⟨fun j => ?_, fun j p c hp hv => ?_, fun j k p q a hp hq ha hb => ?_, fun a ha => ?_, fun a ha => ?_⟩
    · simp only [upd, put]
      split
      · simp
      · exact h.none_iff j
    · simp only [upd, put] at hp hv
      split at hp
      · rename_i e
        rw [if_pos e] at hv
        cases hp; cases hv
        subst e
        exact ⟨rfl, .inl ⟨rfl, rfl, rfl⟩⟩
      · rename_i e
        rw [if_neg e] at hv
        obtain ⟨hl, hc | ⟨hc, a, h1, h2, h3⟩⟩ := h.holds j p c hp hv
        · exact ⟨hl, .inl hc⟩
        · exact ⟨hl, .inr ⟨hc, a, h1, h2, (free_other h ho hp e h1).trans h3⟩⟩
    · simp only [upd] at hp hq
      split at hp
      · cases hp; cases ha
      · split at hq
        · cases hq; cases hb
        · exact h.inj j k p q a hp hq ha hb
    · exact free_none (h.fresh a ha)
    · obtain ⟨j, p, hj, hp, hb⟩ := free_owned h ho ha
      exact ⟨j, p, by simp [upd, hj, hp], hb⟩
  · rw [if_neg hn]
    refine ⟨fun j => ?_, fun j p c hp hv => ?_, fun j k p q a hp hq ha hb => ?_, fun a ha => ?_, fun a ha => ?_⟩
    · simp only [upd, put]
      split
      · simp
      · exact h.none_iff j
    · simp only [upd, put] at hp hv
      split at hp
      · rename_i e
        rw [if_pos e] at hv
        cases hp; cases hv
        refine ⟨by simp, .inr ⟨by simpa using hn, s.next, rfl, rfl, by simp [upd]⟩⟩
      · rename_i e
        rw [if_neg e] at hv
        obtain ⟨hl, hc | ⟨hc, a, h1, h2, h3⟩⟩ := h.holds j p c hp hv
        · exact ⟨hl, .inl hc⟩
        · have hlt := hbuf j p a hp h1
          refine ⟨hl, .inr ⟨hc, a, h1, h2, ?_⟩⟩
          simp only [upd]
          rw [if_neg (by omega), free_other h ho hp e h1]
          exact h3
    · simp only [upd] at hp hq
      split at hp
      · cases hp
        cases ha
        split at hq
        · rename_i e1 e2; rw [e1, e2]
        · have := hbuf k q _ hq hb; omega
      · split at hq
        · cases hq
          cases hb
          have := hbuf j p _ hp ha; omega
        · exact h.inj j k p q a hp hq ha hb
    · simp only [upd]
      simp only at ha
      rw [if_neg (by omega)]
      exact free_none (h.fresh a (by omega))
    · simp only [upd] at ha ⊢
      split at ha
      · rename_i e
        exact ⟨i, _, by rw [if_pos rfl], by rw [e]⟩
      · obtain ⟨j, p, hj, hp, hb⟩ := free_owned h ho ha
        exact ⟨j, p, by simp [hj, hp], hb⟩

private theorem store_inv {s : St} {v : Contents} (h : Inv s v) {i : Nat} {o : Obj} {c : List Cell} (ho : s.objs i = some o)
    (hv : v i = some c) {k : Nat} {cs : List Cell} (hk : k + cs.length ≤ c.length) (hc0 : c ≠ []) :
    ∃ s', s.store o k cs = some s' ∧ Inv s' (put v i (some (c.take k ++ cs ++ c.drop (k + cs.length)))) := by
  obtain ⟨hl, ⟨hc, _⟩ | ⟨hc, a, hb, hp, hh⟩⟩ := h.holds i o c ho hv
  · exact absurd hc hc0
  · refine ⟨{ s with heap := upd s.heap a (some (c.take k ++ cs ++ c.drop (k + cs.length) ++ [some 0])) }, ?_, ?_⟩
    · simp only [St.store, hp, hh]
      rw [if_pos (by simp; omega), List.take_append_of_le_length (by omega), List.drop_append_of_le_length hk]
      simp
    · refine ⟨fun j => ?_, fun j p d hpj hvj => ?_, h.inj, fun b hb' => ?_, fun b hb' => ?_⟩
      · simp only [put]
        split
        · rename_i e; subst e; simp [ho]
        · exact h.none_iff j
      · simp only [put] at hvj
        split at hvj
        · rename_i e
          subst e
          rw [show s.objs j = some p from hpj] at ho
          cases ho
          cases hvj
          refine ⟨?_, .inr ⟨?_, a, hb, hp, by simp [upd]⟩⟩
          · rw [hl]; simp; omega
          · intro e
            have hcl := congrArg List.length e
            have hpos := List.length_pos_iff.2 hc
            simp only [List.length_append, List.length_take, List.length_drop, List.length_nil] at hcl
            omega
        · rename_i e
          obtain ⟨hl', hc' | ⟨hc', b, h1, h2, h3⟩⟩ := h.holds j p d hpj hvj
          · exact ⟨hl', .inl hc'⟩
          · have : b ≠ a := fun e' => e (h.inj j i p o a hpj ho (e' ▸ h1) hb)
            exact ⟨hl', .inr ⟨hc', b, h1, h2, by simp [upd, this, h3]⟩⟩
      · have : b ≠ a := by rintro rfl; rw [h.fresh b hb'] at hh; cases hh
        simp [upd, this, h.fresh b hb']
      · simp only [upd] at hb'
        split at hb'
        · rename_i e; exact ⟨i, o, ho, e ▸ hb⟩
        · exact h.owned b hb'

private theorem memcpy_inv {s : St} {v : Contents} (h : Inv s v) {i j : Nat} {c d : List Cell} (hi : v i = some c)
    (hj : v j = some d) (hl : c.length = d.length) (hd : d ≠ []) : ∃ s', s.memcpy i j = some s' ∧ Inv s' (put v i (some d)) := by
  obtain ⟨o, ho, _⟩ := h.get hi
  obtain ⟨p, hp, hp'⟩ := h.get hj
  have hld := (loadz (by rw [hp]; simp) hp').1
  have hc0 : c ≠ [] := by intro e; subst e; simp at hl; exact hd (List.length_eq_zero_iff.1 hl.symm)
  obtain ⟨s', h1, h2⟩ := store_inv h ho hi (k := 0) (cs := d) (by omega) hc0
  refine ⟨s', by simp only [St.memcpy, ho, hp, hld, h1], ?_⟩
  simpa [List.drop_eq_nil_of_le (Nat.le_of_eq hl)] using h2

private theorem put_put (v : Contents) (i : Nat) (c d : Option (List Cell)) : put (put v i c) i d = put v i d := by
  funext n; simp only [put]; split <;> rfl

private theorem new_inv {s : St} {v : Contents} (h : Inv s v) {i : Nat} (hi : s.objs i = none) :
    Inv { s with objs := upd s.objs i (some ⟨none, 0, .empty i⟩) } (put v i (some [])) := by
  refine ⟨fun j => ?_, fun j p c hp hv => ?_, fun j k p q a hp hq ha hb => ?_, h.fresh, fun a ha => ?_⟩
  · simp only [upd, put]
    split
    · simp
    · exact h.none_iff j
  · simp only [upd, put] at hp hv
    split at hp
    · rename_i e
      rw [if_pos e] at hv
      cases hp; cases hv
      subst e
      exact ⟨rfl, .inl ⟨rfl, rfl, rfl⟩⟩
    · rename_i e
      rw [if_neg e] at hv
      exact h.holds j p c hp hv
  · simp only [upd] at hp hq
    split at hp
    · cases hp; cases ha
    · split at hq
      · cases hq; cases hb
      · exact h.inj j k p q a hp hq ha hb
  · obtain ⟨j, p, hp, hb⟩ := h.owned a ha
    have : j ≠ i := by rintro rfl; rw [hi] at hp; cases hp
    exact ⟨j, p, by simp [upd, this, hp], hb⟩

private theorem step_inv {s : St} {v v' : Contents} (h : Inv s v) {op : Op} (hop : Spec.ContentBuffer.step v op = some v')
    (hs : ∀ i, op ≠ .assign i i) : ∃ s', s.step op = some s' ∧ Inv s' v' := by
  cases op with
  | new i =>
    simp only [Spec.ContentBuffer.step] at hop
    split at hop
    · rename_i hi
      cases hop
      exact ⟨_, by simp only [St.step, h.none hi], new_inv h (h.none hi)⟩
    · cases hop
  | copy i j =>
    simp only [Spec.ContentBuffer.step] at hop
    split at hop
    · rename_i hi
      cases hop
      obtain ⟨hi, hj⟩ := hi
      obtain ⟨d, hd⟩ := Option.ne_none_iff_exists'.1 hj
      obtain ⟨p, hp, hp'⟩ := h.get hd
      have hji : j ≠ i := by rintro rfl; exact hj hi
      have h1 := new_inv h (h.none hi)
      by_cases hl : p.len = 0
      · have hd0 : d = [] := List.length_eq_zero_iff.1 (by rw [← hp'.1]; exact hl)
        refine ⟨_, by simp only [St.step, h.none hi, hp, hl, ne_eq, not_true_eq_false, if_false]; rfl, ?_⟩
        rw [hd, hd0]
        exact h1
      · have hd0 : d ≠ [] := by intro e; subst e; exact hl (by simpa using hp'.1)
        have h2 := resize_inv h1 (i := i) (o := ⟨none, 0, .empty i⟩) (by simp [upd]) p.len
        rw [put_put] at h2
        obtain ⟨s', h3, h4⟩ := memcpy_inv h2 (i := i) (j := j) (c := List.replicate p.len none) (d := d) (by simp [put])
          (by simp [put, hji, hd]) (by simp [hp'.1]) hd0
        rw [put_put] at h4
        exact ⟨s', by simp only [St.step, h.none hi, hp, ne_eq, hl, not_false_eq_true, if_true]; exact h3, by rw [hd]; exact h4⟩
    · cases hop
  | assign i j =>
    simp only [Spec.ContentBuffer.step] at hop
    split at hop
    · rename_i hi
      cases hop
      obtain ⟨hi, hj⟩ := hi
      obtain ⟨c, hc⟩ := Option.ne_none_iff_exists'.1 hi
      obtain ⟨d, hd⟩ := Option.ne_none_iff_exists'.1 hj
      obtain ⟨o, ho, _⟩ := h.get hc
      obtain ⟨p, hp, hp'⟩ := h.get hd
      have hji : j ≠ i := by rintro rfl; exact hs j rfl
      have h2 := resize_inv h ho p.len
      by_cases hl : p.len = 0
      · have hd0 : d = [] := List.length_eq_zero_iff.1 (by rw [← hp'.1]; exact hl)
        rw [hl] at h2
        refine ⟨_, by simp only [St.step, ho, hp, hl, ne_eq, not_true_eq_false, if_false]; rfl, ?_⟩
        rw [hd, hd0]
        exact h2
      · have hd0 : d ≠ [] := by intro e; subst e; exact hl (by simpa using hp'.1)
        obtain ⟨s', h3, h4⟩ := memcpy_inv h2 (i := i) (j := j) (c := List.replicate p.len none) (d := d) (by simp [put])
          (by simp [put, hji, hd]) (by simp [hp'.1]) hd0
        rw [put_put] at h4
        exact ⟨s', by simp only [St.step, ho, hp, ne_eq, hl, not_false_eq_true, if_true]; exact h3, by rw [hd]; exact h4⟩
    · cases hop
  | create i n =>
    simp only [Spec.ContentBuffer.step] at hop
    split at hop
    · rename_i hi
      cases hop
      obtain ⟨c, hc⟩ := Option.ne_none_iff_exists'.1 hi
      obtain ⟨o, ho, _⟩ := h.get hc
      exact ⟨_, by simp only [St.step, ho], resize_inv h ho n⟩
    · cases hop
  | write i k b =>
    simp only [Spec.ContentBuffer.step] at hop
    cases hc : v i with
    | none => rw [hc] at hop; cases hop
    | some c =>
      rw [hc] at hop
      simp only at hop
      split at hop
      · rename_i hk
        cases hop
        obtain ⟨o, ho, ho'⟩ := h.get hc
        obtain ⟨s', h1, h2⟩ := store_inv h ho hc (k := k) (cs := [some b]) (by simp only [List.length_singleton]; omega)
          (by intro e; subst e; simp at hk)
        refine ⟨s', by simp only [St.step, ho, ho'.1, if_pos hk, h1], ?_⟩
        rw [List.set_eq_take_append_cons_drop, if_pos hk]
        simpa using h2
      · cases hop
  | destroy i =>
    simp only [Spec.ContentBuffer.step] at hop
    split at hop
    · rename_i hi
      cases hop
      obtain ⟨c, hc⟩ := Option.ne_none_iff_exists'.1 hi
      obtain ⟨o, ho, _⟩ := h.get hc
      refine ⟨{ s with objs := upd s.objs i none, heap := free s.heap o.buf }, by simp only [St.step, ho], fun j => ?_,
        fun j p c hp hv => ?_, fun j k p q a hp hq ha hb => ?_, fun a ha => free_none (h.fresh a ha), fun a ha => ?_⟩
      · simp only [upd, put]
        split
        · simp
        · exact h.none_iff j
      · simp only [upd, put] at hp hv
        split at hp
        · cases hp
        · rename_i e
          rw [if_neg e] at hv
          obtain ⟨hl, hc | ⟨hc, a, h1, h2, h3⟩⟩ := h.holds j p c hp hv
          · exact ⟨hl, .inl hc⟩
          · exact ⟨hl, .inr ⟨hc, a, h1, h2, (free_other h ho hp e h1).trans h3⟩⟩
      · simp only [upd] at hp hq
        split at hp
        · cases hp
        · split at hq
          · cases hq
          · exact h.inj j k p q a hp hq ha hb
      · obtain ⟨j, p, hj, hp, hb⟩ := free_owned h ho ha
        exact ⟨j, p, by simp [upd, hj, hp], hb⟩
    · cases hop

private theorem init_inv : Inv {} (fun _ => none) :=
  ⟨fun _ => ⟨fun _ => rfl, fun _ => rfl⟩, fun _ _ _ h => (by cases h), fun _ _ _ _ _ h => (by cases h), fun _ _ => rfl,
    fun _ h => absurd rfl h⟩

private theorem run_inv (ops : List Op) : ∀ {s : St} {v v' : Contents}, Inv s v → Spec.ContentBuffer.run v ops = some v' →
    NoSelf ops → ∃ s', s.run ops = some s' ∧ Inv s' v' := by
  induction ops with
  | nil => intro s v v' h hr _; simp only [Spec.ContentBuffer.run, Option.some.injEq] at hr; subst hr; exact ⟨s, rfl, h⟩
  | cons op ops ih =>
    intro s v v' h hr hs
    simp only [Spec.ContentBuffer.run] at hr
    cases hv : Spec.ContentBuffer.step v op with
    | none => rw [hv] at hr; cases hr
    | some w =>
      rw [hv] at hr
      obtain ⟨s1, h1, h2⟩ := step_inv h hv (fun i e => hs i (by rw [e]; simp))
      obtain ⟨s2, h3, h4⟩ := ih h2 hr (fun i hi => hs i (List.mem_cons_of_mem _ hi))
      exact ⟨s2, by simp only [St.run, h1, h3], h4⟩

/-- C63: any sequence of operations on any number of messages, without self-assignment, stays inside allocated memory,
    and afterwards every message has the content that it has if contents are values. In particular a copy has the content
    of the original, and changes to one do not show in the other. -/
theorem value_semantics (ops : List Op) (v : Contents) (h : Spec.ContentBuffer.run (fun _ => none) ops = some v)
    (hs : NoSelf ops) : ∃ s, ({} : St).run ops = some s ∧ ∀ i, s.content i = v i := by
  obtain ⟨s, h1, h2⟩ := run_inv ops init_inv h hs
  refine ⟨s, h1, fun i => ?_⟩
  cases hv : v i with
  | none => simp only [St.content, h2.none hv]
  | some c =>
    obtain ⟨o, ho, ho'⟩ := h2.get hv
    simp only [St.content, ho]
    exact (loadz (by rw [ho]; simp) ho').1

/-- A message is filled, copied, and original and copy are changed. -/
def exampleOps : List Op :=
  [.new 0, .create 0 2, .write 0 0 65, .write 0 1 66, .copy 1 0, .write 0 0 67, .new 2, .assign 2 1, .write 1 1 68, .destroy 0]

example : ∃ s, ({} : St).run exampleOps = some s ∧ s.content 0 = none ∧ s.content 1 = some [some 65, some 68] ∧
    s.content 2 = some [some 65, some 66] := ⟨_, rfl, by decide, by decide, by decide⟩

example : ∃ v, Spec.ContentBuffer.run (fun _ => none) exampleOps = some v ∧ v 0 = none ∧
    v 1 = some [some 65, some 68] ∧ v 2 = some [some 65, some 66] := ⟨_, rfl, by decide, by decide, by decide⟩

/-- C63: the content is followed by a NUL byte, of an empty message too, so that it can be used as a C string. -/
theorem nul_terminated (ops : List Op) (v : Contents) (h : Spec.ContentBuffer.run (fun _ => none) ops = some v)
    (hs : NoSelf ops) (i : Nat) (c : List Cell) (hi : v i = some c) :
    ∃ s, ({} : St).run ops = some s ∧ s.contentZ i = some (c ++ [some 0]) := by
  obtain ⟨s, h1, h2⟩ := run_inv ops init_inv h hs
  obtain ⟨o, ho, ho'⟩ := h2.get hi
  refine ⟨s, h1, ?_⟩
  simp only [St.contentZ, ho]
  exact (loadz (by rw [ho]; simp) ho').2

/-- C63: no memory is lost. Every block that is still allocated belongs to exactly one message, one with a content; when
    all messages are destroyed all memory is freed. -/
theorem no_leak (ops : List Op) (v : Contents) (h : Spec.ContentBuffer.run (fun _ => none) ops = some v) (hs : NoSelf ops) :
    ∃ s, ({} : St).run ops = some s ∧
      (∀ a, s.heap a ≠ none → ∃! i, ∃ o, s.objs i = some o ∧ o.buf = some a) ∧
      ((∀ i, v i = none ∨ v i = some []) → ∀ a, s.heap a = none) := by
  obtain ⟨s, h1, h2⟩ := run_inv ops init_inv h hs
  refine ⟨s, h1, fun a ha => ?_, fun hv a => ?_⟩
  · obtain ⟨i, o, ho, hb⟩ := h2.owned a ha
    exact ⟨i, ⟨o, ho, hb⟩, fun j ⟨p, hp, hb'⟩ => h2.inj j i p o a hp ho hb' hb⟩
  · by_contra ha
    obtain ⟨i, o, ho, hb⟩ := h2.owned a ha
    rcases hv i with hn | hn
    · rw [h2.none hn] at ho; cases ho
    · obtain ⟨_, ⟨_, hb', _⟩ | ⟨hc, _⟩⟩ := h2.holds i o [] ho hn
      · rw [hb] at hb'; cases hb'
      · exact hc rfl

/-- C63 fails for self-assignment: the content of a message assigned to itself is lost, for every message with a content.
    What is there afterwards is memory that nobody has written. -/
theorem self_assignment_loses (ops : List Op) (v : Contents) (h : Spec.ContentBuffer.run (fun _ => none) ops = some v)
    (hs : NoSelf ops) (i : Nat) (c : List Cell) (hi : v i = some c) :
    ∃ s, ({} : St).run (ops ++ [.assign i i]) = some s ∧ s.content i = some (List.replicate c.length none) := by
  obtain ⟨s, h1, h2⟩ := run_inv ops init_inv h hs
  obtain ⟨o, ho, ho'⟩ := h2.get hi
  have hrun : ∀ (ops : List Op) (s0 : St), s0.run ops = some s → s0.run (ops ++ [.assign i i]) = s.step (.assign i i) := by
    intro ops
    induction ops with
    | nil => intro s0 h0; simp only [St.run, Option.some.injEq] at h0; subst h0; simp only [List.nil_append, St.run]; cases s0.step (.assign i i) <;> rfl
    | cons op ops ih =>
      intro s0 h0
      simp only [St.run, List.cons_append] at h0 ⊢
      cases he : s0.step op with
      | none => rw [he] at h0; cases h0
      | some s1 => rw [he] at h0; exact ih s1 h0
  rw [hrun ops _ h1]
  have h3 := resize_inv h2 ho o.len
  have hvi : put v i (some (List.replicate o.len none)) i = some (List.replicate o.len none) := by simp [put]
  have key : ∃ s', s.step (.assign i i) = some s' ∧ Inv s' (put v i (some (List.replicate o.len none))) := by
    by_cases hl : o.len = 0
    · rw [hl] at h3 ⊢
      exact ⟨_, by simp only [St.step, ho, hl, ne_eq, not_true_eq_false, if_false], h3⟩
    · obtain ⟨s', h4, h5⟩ := memcpy_inv h3 hvi hvi rfl (by simpa using hl)
      rw [put_put] at h5
      exact ⟨s', by simp only [St.step, ho, ne_eq, hl, not_false_eq_true, if_true]; exact h4, h5⟩
  obtain ⟨s', h4, h5⟩ := key
  refine ⟨s', h4, ?_⟩
  obtain ⟨p, hp, hp'⟩ := h5.get hvi
  simp only [St.content, hp]
  rw [(loadz (by rw [hp]; simp) hp').1, ho'.1]

example : ∃ s, ({} : St).run [.new 0, .create 0 1, .write 0 0 65, .assign 0 0] = some s ∧ s.content 0 = some [none] :=
  ⟨_, rfl, by decide⟩

/-- C63: copy and assignment carry over every member, the cached first line too: a copy is indistinguishable from the
    original, whatever the target was before. -/
theorem members_copied (f g : Verif.FirstLine.F) : f.copy = f ∧ f.assign g = g := ⟨rfl, rfl⟩

example : ∃ f g : Verif.FirstLine.F, f ≠ g ∧ f.assign g = g :=
  ⟨{}, { msg := { verMajor := 0, contentLength := 3 }, cache := b! "GET / HTTP/1.1" }, by decide +kernel, rfl⟩

end Verif.Props.ContentBuffer
