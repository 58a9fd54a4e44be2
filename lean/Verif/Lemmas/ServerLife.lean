import Verif.Spec.ServerLife
import Mathlib.Tactic.Common
import Mathlib.Data.List.Nodup
import Mathlib.Data.List.Range
import Mathlib.Data.List.Perm.Subperm
/-
Invariants of servers that share a scheduler.
-/
namespace Verif.ServerLife
open Verif.Spec.ServerLife

@[simp] theorem set_same {α : Type} (f : Nat → α) (i : Nat) (x : α) : set f i x i = x := by simp [set]

theorem set_apply {α : Type} (f : Nat → α) (i j : Nat) (x : α) : set f i x j = if j = i then x else f j := rfl

theorem starts_notifyUsers (pc : Nat → Pc) (i : Nat) : starts (notifyUsers pc i) = starts (pc i) := by
  unfold notifyUsers; cases pc i <;> rfl
theorem stops_notifyUsers (pc : Nat → Pc) (i : Nat) : stops (notifyUsers pc i) = stops (pc i) := by
  unfold notifyUsers; cases pc i <;> rfl
theorem joins_notifyUsers (pc : Nat → Pc) (i : Nat) : joins (notifyUsers pc i) = joins (pc i) := by
  unfold notifyUsers; cases pc i <;> rfl
theorem shuts_notifyUsers (pc : Nat → Pc) (i : Nat) : shuts (notifyUsers pc i) = shuts (pc i) := by
  unfold notifyUsers; cases pc i <;> rfl
theorem shutJoin_notifyUsers (pc : Nat → Pc) (i : Nat) : notifyUsers pc i = .shutJoin ↔ pc i = .shutJoin := by
  unfold notifyUsers; cases pc i <;> simp
theorem count_notifyUsers (pc : Nat → Pc) (i v : Nat) : notifyUsers pc i = .startCount v ↔ pc i = .startCount v := by
  unfold notifyUsers; cases pc i <;> simp
theorem destroys_notifyUsers (pc : Nat → Pc) (i : Nat) : destroys (notifyUsers pc i) = destroys (pc i) := by
  unfold notifyUsers; cases pc i <;> rfl
theorem shutWait_notifyUsers (pc : Nat → Pc) (i : Nat) : notifyUsers pc i ≠ .shutWait false := by
  unfold notifyUsers; cases pc i <;> simp

theorem starts_notifyStopped (pc : Nat → Pc) (v i : Nat) : starts (notifyStopped pc v i) = starts (pc i) := by
  unfold notifyStopped; cases pc i <;> rfl
theorem stops_notifyStopped (pc : Nat → Pc) (v i : Nat) : stops (notifyStopped pc v i) = stops (pc i) := by
  unfold notifyStopped; cases pc i <;> rfl
theorem joins_notifyStopped (pc : Nat → Pc) (v i : Nat) : joins (notifyStopped pc v i) = joins (pc i) := by
  unfold notifyStopped; cases pc i <;> rfl
theorem shuts_notifyStopped (pc : Nat → Pc) (v i : Nat) : shuts (notifyStopped pc v i) = shuts (pc i) := by
  unfold notifyStopped; cases pc i <;> rfl
theorem shutJoin_notifyStopped (pc : Nat → Pc) (v i : Nat) : notifyStopped pc v i = .shutJoin ↔ pc i = .shutJoin := by
  unfold notifyStopped; cases pc i <;> simp
theorem count_notifyStopped (pc : Nat → Pc) (v i w : Nat) :
    notifyStopped pc v i = .startCount w ↔ pc i = .startCount w := by
  unfold notifyStopped; cases pc i <;> simp
theorem destroys_notifyStopped (pc : Nat → Pc) (v i : Nat) : destroys (notifyStopped pc v i) = destroys (pc i) := by
  unfold notifyStopped; cases pc i <;> rfl
theorem shutWait_notifyStopped (pc : Nat → Pc) (v i : Nat) (b : Bool) :
    notifyStopped pc v i = .shutWait b ↔ pc i = .shutWait b := by
  unfold notifyStopped; cases pc i <;> simp

/-- The server counts as a user of the scheduler: it was started, or its `stop` is running. -/
def Reg (s : St) (v : Nat) : Prop :=
  (s.listening v = true ∧ ∀ i, starts (s.pc i) ≠ some v) ∨ ∃ i, stops (s.pc i) = some v

structure Inv (s : St) : Prop where
  uniq : ∀ i j v, (starts (s.pc i) = some v ∨ stops (s.pc i) = some v) →
    (starts (s.pc j) = some v ∨ stops (s.pc j) = some v) → i = j
  startL : ∀ i v, starts (s.pc i) = some v → s.listening v = true
  stopL : ∀ i v, stops (s.pc i) = some v → s.listening v = false
  small : ∀ v, s.listening v = true → v < 2 ^ 32 - 1
  smallStop : ∀ i v, stops (s.pc i) = some v → v < 2 ^ 32 - 1
  regs : ∃ r : List Nat, r.Nodup ∧ s.users.toNat = r.length ∧ ∀ v, v ∈ r ↔ Reg s v
  calm : ∀ i j v, starts (s.pc i) = some v → shuts (s.pc j) = false
  runReg : ∀ v, Reg s v → s.running = true
  runCount : ∀ i v, s.pc i = .startCount v → s.running = true
  heldOf : ∀ i, s.pc i = .shutJoin → s.held = true
  heldRun : s.held = true → s.running = false
  heldBy : s.held = true → ∃ i, s.pc i = .shutJoin
  heldOne : ∀ i j, s.pc i = .shutJoin → s.pc j = .shutJoin → i = j
  alive : ∀ c, Alive s c → s.listening (s.owner c) = true ∨ ∃ i, stops (s.pc i) = some (s.owner c)
  fresh : ∀ c, s.next ≤ c → s.status c = .absent
  gone : ∀ v, s.gone v = true → s.listening v = false ∧
    ∀ i, starts (s.pc i) ≠ some v ∧ stops (s.pc i) ≠ some v ∧ joins (s.pc i) ≠ some v
  destr : ∀ i j v, destroys (s.pc i) = some v → joins (s.pc j) ≠ some v
  good : s.bad = false
  noteU : ∀ i, s.pc i = .shutWait false → s.users ≠ 0

theorem init_inv : Inv {} := by
  refine ⟨?_, ?_, ?_, ?_, ?_, ⟨[], by simp, rfl, ?_⟩, ?_, ?_, ?_, ?_, ?_, ?_, ?_, ?_, ?_, ?_, ?_, rfl, ?_⟩ <;>
    simp [starts, stops, Reg, Alive, destroys]

theorem use_eq {s : St} (hi : Inv s) {v : Nat} (h : s.gone v = false) : s.use v = s := by
  have := hi.good
  cases s
  simp_all [St.use]

theorem gone_of_alive {s : St} (hi : Inv s) {c : Nat} (h : Alive s c) : s.gone (s.owner c) = false := by
  cases hg : s.gone (s.owner c)
  · rfl
  · obtain ⟨h1, h2⟩ := hi.gone _ hg
    rcases hi.alive c h with h3 | ⟨i, h3⟩
    · rw [h1] at h3; cases h3
    · exact absurd h3 (h2 i).2.1

theorem inv_status {s : St} (hi : Inv s) (st : Nat → Status)
    (h1 : ∀ c, st c ≠ .absent → st c ≠ .finished → Alive s c) (h2 : ∀ c, s.next ≤ c → st c = .absent) :
    Inv { s with status := st } :=
  ⟨hi.uniq, hi.startL, hi.stopL, hi.small, hi.smallStop, hi.regs, hi.calm, hi.runReg, hi.runCount, hi.heldOf, hi.heldRun,
    hi.heldBy, hi.heldOne, fun c h => hi.alive c (h1 c h.1 h.2), h2, hi.gone, hi.destr, hi.good, hi.noteU⟩

theorem alive_lt {s : St} (hi : Inv s) {c : Nat} (h : Alive s c) : c < s.next := by
  rcases Nat.lt_or_ge c s.next with h1 | h1
  · exact h1
  · exact absurd (hi.fresh c h1) h.1

theorem inv_set_status {s : St} (hi : Inv s) {c : Nat} (h : Alive s c) (x : Status) :
    Inv { s with status := set s.status c x } := by
  have hl := alive_lt hi h
  refine inv_status hi _ ?_ ?_
  · intro d h1 h2
    rw [set_apply] at h1 h2
    split at h1
    · rename_i e; rw [e]; exact h
    · rename_i e; rw [if_neg e] at h2; exact ⟨h1, h2⟩
  · intro d hd
    rw [set_apply, if_neg (by omega)]
    exact hi.fresh d hd

theorem inv_prune {s : St} (hi : Inv s) (v : Nat) :
    Inv { s with status := fun c => if s.status c = .orphan ∧ s.owner c = v then Status.finished else s.status c } := by
  refine inv_status hi _ ?_ ?_
  · intro d h1 h2
    split at h1
    · rename_i e; rw [if_pos e] at h2; exact absurd rfl h2
    · rename_i e; rw [if_neg e] at h2; exact ⟨h1, h2⟩
  · intro d hd
    have := hi.fresh d hd
    simp [this]

theorem inv_listen {s : St} (hi : Inv s) (v : Nat) : Inv (s.listen v) := by
  unfold St.listen
  split
  · rename_i hl
    refine ⟨hi.uniq, hi.startL, hi.stopL, hi.small, hi.smallStop, hi.regs, hi.calm, hi.runReg, hi.runCount, hi.heldOf, hi.heldRun,
      hi.heldBy, hi.heldOne, ?_, ?_, hi.gone, hi.destr, hi.good, hi.noteU⟩
    · intro c h
      simp only [Alive, set_apply] at h
      simp only [set_apply]
      split at h
      · rename_i e
        rw [if_pos e]
        exact Or.inl hl
      · rename_i e
        rw [if_neg e]
        apply hi.alive c
        obtain ⟨h1, h2⟩ := h
        split at h1
        · rename_i e'; rw [if_pos e'] at h2; exact absurd rfl h2
        · rename_i e'; rw [if_neg e'] at h2; exact ⟨h1, h2⟩
    · intro c h
      have h : s.next + 1 ≤ c := h
      simp only [set_apply]
      rw [if_neg (by omega)]
      have := hi.fresh c (by omega)
      simp [this]
  · exact hi

theorem listen_eq (s : St) (v : Nat) : (s.listen v).pc = s.pc ∧ (s.listen v).listening = s.listening ∧
    (s.listen v).gone = s.gone ∧ (s.listen v).running = s.running ∧ (s.listen v).log = s.log ∧
    (s.listen v).users = s.users ∧ (s.listen v).held = s.held := by
  unfold St.listen; split <;> simp

/-- A thread moves on inside `start`. -/
theorem inv_pc_start {s : St} (hi : Inv s) {t v : Nat} {p : Pc} (h0 : starts (s.pc t) = some v) (hp : starts p = some v)
    (hc : p = .startCount v → s.running = true) : Inv { s with pc := set s.pc t p } := by
  have hj : joins p = none ∧ stops p = none ∧ shuts p = false ∧ destroys p = none ∧ p ≠ .shutJoin ∧ p ≠ .shutWait false ∧
      ∀ w, p = .startCount w → w = v := by
    cases p <;> simp_all [starts, joins, stops, shuts, destroys]
  have hj0 : joins (s.pc t) = none ∧ stops (s.pc t) = none ∧ s.pc t ≠ .shutJoin := by
    cases h : s.pc t <;> simp_all [starts, joins, stops]
  have hS : ∀ i w, starts (set s.pc t p i) = some w ↔ starts (s.pc i) = some w := by
    intro i w; rw [set_apply]; split
    · rename_i e; rw [e, h0, hp]
    · rfl
  have hT : ∀ i w, stops (set s.pc t p i) = some w ↔ stops (s.pc i) = some w := by
    intro i w; rw [set_apply]; split
    · rename_i e; rw [e, hj.2.1, hj0.2.1]
    · rfl
  have hR : ∀ w, Reg { s with pc := set s.pc t p } w ↔ Reg s w := by
    intro w; simp [Reg, hS, hT]
  refine ⟨?_, ?_, ?_, hi.small, ?_, ?_, ?_, ?_, ?_, ?_, hi.heldRun, ?_, ?_, ?_, hi.fresh, ?_, ?_, hi.good, ?_⟩
  · intro i j w; simp only [hS, hT]; exact hi.uniq i j w
  · intro i w; simp only [hS]; exact hi.startL i w
  · intro i w; simp only [hT]; exact hi.stopL i w
  · intro i w; simp only [hT]; exact hi.smallStop i w
  · obtain ⟨r, h1, h2, h3⟩ := hi.regs
    exact ⟨r, h1, h2, fun w => by rw [hR]; exact h3 w⟩
  · intro i j w h
    rw [hS] at h
    simp only [set_apply]
    split
    · exact hj.2.2.1
    · exact hi.calm i j w h
  · intro w h; exact hi.runReg w ((hR w).1 h)
  · intro i w h
    simp only [set_apply] at h
    split at h
    · exact hc (by rw [h, hj.2.2.2.2.2.2 w h])
    · exact hi.runCount i w h
  · intro i h
    simp only [set_apply] at h
    split at h
    · exact absurd h hj.2.2.2.2.1
    · exact hi.heldOf i h
  · intro h
    obtain ⟨i, h1⟩ := hi.heldBy h
    refine ⟨i, ?_⟩
    simp only [set_apply]
    split
    · rename_i e; rw [e] at h1; exact absurd h1 hj0.2.2
    · exact h1
  · intro i j h1 h2
    simp only [set_apply] at h1 h2
    split at h1
    · exact absurd h1 hj.2.2.2.2.1
    · split at h2
      · exact absurd h2 hj.2.2.2.2.1
      · exact hi.heldOne i j h1 h2
  · intro c h
    simp only [hT]
    exact hi.alive c h
  · intro w h
    obtain ⟨h1, h2⟩ := hi.gone w h
    refine ⟨h1, fun i => ⟨?_, ?_, ?_⟩⟩
    · rw [Ne, hS]; exact (h2 i).1
    · rw [Ne, hT]; exact (h2 i).2.1
    · simp only [set_apply]; split
      · rw [hj.1]; simp
      · exact (h2 i).2.2
  · intro i j w h
    simp only [set_apply] at h ⊢
    split at h
    · rw [hj.2.2.2.1] at h; cases h
    · split
      · rw [hj.1]; simp
      · exact hi.destr i j w h
  · intro i h
    simp only [set_apply] at h
    split at h
    · exact absurd h hj.2.2.2.2.2.1
    · exact hi.noteU i h

theorem inv_log {s : St} (hi : Inv s) (l : List Ev) : Inv { s with log := l } :=
  ⟨hi.uniq, hi.startL, hi.stopL, hi.small, hi.smallStop, hi.regs, hi.calm, hi.runReg, hi.runCount, hi.heldOf, hi.heldRun,
    hi.heldBy, hi.heldOne, hi.alive, hi.fresh, hi.gone, hi.destr, hi.good, hi.noteU⟩

theorem inv_startup {s : St} (hi : Inv s) (h : s.held = false) : Inv { s with running := true } :=
  ⟨hi.uniq, hi.startL, hi.stopL, hi.small, hi.smallStop, hi.regs, hi.calm, fun _ _ => rfl, fun _ _ _ => rfl, hi.heldOf,
    (fun h' => by rw [h] at h'; cases h'),
    hi.heldBy, hi.heldOne, hi.alive, hi.fresh, hi.gone, hi.destr, hi.good, hi.noteU⟩

/-- A thread moves on outside `start` and `stop`. -/
theorem inv_pc_plain {s : St} (hi : Inv s) {t : Nat} {p : Pc} (h0 : starts (s.pc t) = none) (h1 : stops (s.pc t) = none)
    (h2 : s.pc t ≠ .shutJoin) (g0 : starts p = none) (g1 : stops p = none) (g2 : p ≠ .shutJoin)
    (gj : ∀ v, joins p = some v → s.gone v = false ∧ ∀ i, destroys (s.pc i) ≠ some v)
    (gs : shuts p = true → ∀ i, starts (s.pc i) = none) (gw : p = .shutWait false → s.users ≠ 0) :
    Inv { s with pc := set s.pc t p } := by
  have hd : destroys p = none ∧ ∀ w, p ≠ .startCount w := by
    cases p <;> simp_all [starts, stops, destroys]
  have hS : ∀ i w, starts (set s.pc t p i) = some w ↔ starts (s.pc i) = some w := by
    intro i w; rw [set_apply]; split
    · rename_i e; rw [e, h0, g0]
    · rfl
  have hT : ∀ i w, stops (set s.pc t p i) = some w ↔ stops (s.pc i) = some w := by
    intro i w; rw [set_apply]; split
    · rename_i e; rw [e, h1, g1]
    · rfl
  have hR : ∀ w, Reg { s with pc := set s.pc t p } w ↔ Reg s w := by
    intro w; simp [Reg, hS, hT]
  have ⟨q1, q2, q3, q4, q5, q6, q7, q8, q9, q10, q11, q12, q13, q14, q15, q16, q17, q18, q19⟩ := hi
  refine ⟨?_, ?_, ?_, q4, ?_, ?_, ?_, ?_, ?_, ?_, q11, ?_, ?_, ?_, q15, ?_, ?_, q18, ?_⟩
  · intro i j w; simp only [hS, hT]; exact q1 i j w
  · intro i w; simp only [hS]; exact q2 i w
  · intro i w; simp only [hT]; exact q3 i w
  · intro i w; simp only [hT]; exact q5 i w
  · obtain ⟨r, h1, h2, h3⟩ := q6
    exact ⟨r, h1, h2, fun w => by rw [hR]; exact h3 w⟩
  · intro i j w h
    rw [hS] at h
    simp only [set_apply]
    split
    · cases hp : shuts p
      · rfl
      · rw [gs hp i] at h; cases h
    · exact q7 i j w h
  · intro w h; exact q8 w ((hR w).1 h)
  · grind [set_apply]
  · grind [set_apply]
  · intro h; obtain ⟨i, hj⟩ := q12 h; exact ⟨i, by grind [set_apply]⟩
  · grind [set_apply]
  · intro c h; simp only [hT]; exact q14 c h
  · intro w h
    refine ⟨(q16 w h).1, fun i => ⟨?_, ?_, ?_⟩⟩
    · rw [Ne, hS]; exact ((q16 w h).2 i).1
    · rw [Ne, hT]; exact ((q16 w h).2 i).2.1
    · grind [set_apply]
  · grind [set_apply]
  · grind [set_apply]

theorem inv_start_begin {s : St} (hi : Inv s) {t v : Nat} (h0 : s.pc t = .idle) (hl : s.listening v = false)
    (hq : Quiet s v) (hs : ∀ i, shuts (s.pc i) = false) (hv : v < 2 ^ 32 - 1) (hg : s.gone v = false) :
    Inv { s with listening := set s.listening v true, pc := set s.pc t (.startListen v) } := by
  have ⟨q1, q2, q3, q4, q5, q6, q7, q8, q9, q10, q11, q12, q13, q14, q15, q16, q17, q18, q19⟩ := hi
  have e1 : starts (.startListen v) = some v := rfl
  have e2 : stops (.startListen v) = none := rfl
  have e3 : joins (.startListen v) = none := rfl
  have e4 : destroys (.startListen v) = none := rfl
  have e5 : shuts (.startListen v) = false := rfl
  have e6 : starts .idle = none := rfl
  have e7 : stops .idle = none := rfl
  have hR : ∀ w, Reg { s with listening := set s.listening v true, pc := set s.pc t (.startListen v) } w ↔ Reg s w := by
    intro w
    simp only [Reg]
    by_cases hw : w = v
    · subst hw
      constructor
      · rintro (⟨_, h⟩ | ⟨i, h⟩)
        · exact absurd (by simp [e1]) (h t)
        · exact .inr ⟨i, by grind [set_apply]⟩
      · rintro (⟨h, _⟩ | ⟨i, h⟩)
        · rw [hl] at h; cases h
        · exact absurd h (hq i).2
    · constructor
      · rintro (⟨h1, h2⟩ | ⟨i, h⟩)
        · refine .inl ⟨by grind [set_apply], fun i => ?_⟩
          have := h2 i
          grind [set_apply]
        · exact .inr ⟨i, by grind [set_apply]⟩
      · rintro (⟨h1, h2⟩ | ⟨i, h⟩)
        · refine .inl ⟨by grind [set_apply], fun i => ?_⟩
          have := h2 i
          grind [set_apply]
        · exact .inr ⟨i, by grind [set_apply]⟩
  refine ⟨?_, ?_, ?_, ?_, ?_, ?_, ?_, ?_, ?_, ?_, q11, ?_, ?_, ?_, q15, ?_, ?_, q18, ?_⟩
  · have := hq; unfold Quiet at this; grind [set_apply]
  · grind [set_apply]
  · have := hq; unfold Quiet at this; grind [set_apply]
  · grind [set_apply]
  · grind [set_apply]
  · obtain ⟨r, h1, h2, h3⟩ := q6
    exact ⟨r, h1, h2, fun w => by rw [hR]; exact h3 w⟩
  · grind [set_apply]
  · intro w h; exact q8 w ((hR w).1 h)
  · grind [set_apply]
  · grind [set_apply]
  · intro h; obtain ⟨i, hj⟩ := q12 h; exact ⟨i, by grind [set_apply]⟩
  · grind [set_apply]
  · intro c h
    rcases q14 c h with h | ⟨i, h⟩
    · left; grind [set_apply]
    · right; exact ⟨i, by grind [set_apply]⟩
  · grind [set_apply]
  · grind [set_apply]
  · grind [set_apply]

theorem length_small {r : List Nat} {n : Nat} (h : r.Nodup) (hb : ∀ v ∈ r, v < n) : r.length ≤ n := by
  have : r ⊆ List.range n := fun v hv => List.mem_range.2 (hb v hv)
  have := (List.subperm_of_subset h this).length_le
  simpa using this

theorem reg_small {s : St} (hi : Inv s) {v : Nat} (h : Reg s v) : v < 2 ^ 32 - 1 := by
  rcases h with ⟨h, _⟩ | ⟨i, h⟩
  · exact hi.small v h
  · exact hi.smallStop i v h

/-- The server is counted. -/
theorem inv_count {s : St} (hi : Inv s) {t v : Nat} (h0 : s.pc t = .startCount v) :
    Inv { s with users := s.users + 1, pc := set s.pc t .idle } := by
  have ⟨q1, q2, q3, q4, q5, q6, q7, q8, q9, q10, q11, q12, q13, q14, q15, q16, q17, q18, q19⟩ := hi
  have e1 : starts (.startCount v) = some v := rfl
  have e2 : stops (.startCount v) = none := rfl
  have e3 : joins .idle = none := rfl
  have e4 : destroys .idle = none := rfl
  have e5 : shuts .idle = false := rfl
  have e6 : starts .idle = none := rfl
  have e7 : stops .idle = none := rfl
  have hst : starts (s.pc t) = some v := by rw [h0]; rfl
  have hT : ∀ i w, stops (set s.pc t .idle i) = some w ↔ stops (s.pc i) = some w := by
    intro i w; rw [set_apply]; split
    · rename_i e; rw [e, h0, e2, e7]
    · rfl
  have hR : ∀ w, Reg { s with users := s.users + 1, pc := set s.pc t .idle } w ↔ w = v ∨ Reg s w := by
    intro w
    simp only [Reg, hT]
    by_cases hw : w = v
    · subst hw
      simp only [true_or, iff_true]
      refine .inl ⟨q2 t w hst, fun i => ?_⟩
      rw [set_apply]
      split
      · rw [e6]; simp
      · intro h
        exact absurd (q1 i t w (.inl h) (.inl hst)) (by assumption)
    · have : ∀ i, starts (set s.pc t .idle i) = some w ↔ starts (s.pc i) = some w := by
        intro i; rw [set_apply]; split
        · rename_i e; rw [e, hst, e6]; simp; exact fun h => hw h.symm
        · rfl
      simp [this, hw]
  have hn : ¬ Reg s v := by
    rintro (⟨_, h⟩ | ⟨i, h⟩)
    · exact h t hst
    · have := q1 i t v (.inr h) (.inl hst)
      rw [this, h0, e2] at h; cases h
  refine ⟨?_, ?_, ?_, q4, ?_, ?_, ?_, ?_, ?_, ?_, q11, ?_, ?_, ?_, q15, ?_, ?_, q18, ?_⟩
  · grind [set_apply]
  · grind [set_apply]
  · grind [set_apply]
  · grind [set_apply]
  · obtain ⟨r, h1, h2, h3⟩ := q6
    refine ⟨v :: r, List.nodup_cons.2 ⟨by rw [h3]; exact hn, h1⟩, ?_, fun w => by rw [hR, List.mem_cons, h3]⟩
    have hb : (v :: r).length ≤ 2 ^ 32 - 1 := by
      refine length_small (List.nodup_cons.2 ⟨by rw [h3]; exact hn, h1⟩) ?_
      intro w hw
      rcases List.mem_cons.1 hw with e | e
      · rw [e]; exact q4 v (q2 t v hst)
      · exact reg_small hi ((h3 w).1 e)
    simp only [List.length_cons] at hb ⊢
    rw [UInt32.toNat_add, h2]
    show (r.length + 1) % 2 ^ 32 = _
    omega
  · grind [set_apply]
  · intro w h
    exact q9 t v h0
  · grind [set_apply]
  · grind [set_apply]
  · intro h; obtain ⟨i, hj⟩ := q12 h; exact ⟨i, by grind [set_apply]⟩
  · grind [set_apply]
  · intro c h; simp only [hT]; exact q14 c h
  · grind [set_apply]
  · grind [set_apply]
  · intro i h
    have h : set s.pc t .idle i = .shutWait false := h
    rw [set_apply] at h
    split at h
    · cases h
    · have := q7 t i v hst
      rw [h] at this; cases this

/-- `stop` begins. -/
theorem inv_stop_begin {s : St} (hi : Inv s) {t v : Nat} {g : Bool} (h0 : s.pc t = .idle) (hl : s.listening v = true)
    (hq : Quiet s v) (hj : g = true → ∀ i, joins (s.pc i) ≠ some v) :
    Inv { s with listening := set s.listening v false, pc := set s.pc t (.stopLoop v g) } := by
  have ⟨q1, q2, q3, q4, q5, q6, q7, q8, q9, q10, q11, q12, q13, q14, q15, q16, q17, q18, q19⟩ := hi
  have e1 : starts (.stopLoop v g) = none := rfl
  have e2 : stops (.stopLoop v g) = some v := rfl
  have e3 : joins (.stopLoop v g) = none := rfl
  have e4 : ∀ w, destroys (.stopLoop v g) = some w → w = v ∧ g = true := by cases g <;> simp [destroys]
  have e5 : shuts (.stopLoop v g) = false := rfl
  have e6 : starts .idle = none := rfl
  have e7 : stops .idle = none := rfl
  have hR : ∀ w, Reg { s with listening := set s.listening v false, pc := set s.pc t (.stopLoop v g) } w ↔ Reg s w := by
    intro w
    simp only [Reg]
    by_cases hw : w = v
    · subst hw
      constructor
      · intro _
        exact .inl ⟨hl, fun i => (hq i).1⟩
      · intro _
        exact .inr ⟨t, by simp [e2]⟩
    · constructor
      · rintro (⟨h1, h2⟩ | ⟨i, h⟩)
        · refine .inl ⟨by grind [set_apply], fun i => ?_⟩
          have := h2 i
          grind [set_apply]
        · exact .inr ⟨i, by grind [set_apply]⟩
      · rintro (⟨h1, h2⟩ | ⟨i, h⟩)
        · refine .inl ⟨by grind [set_apply], fun i => ?_⟩
          have := h2 i
          grind [set_apply]
        · exact .inr ⟨i, by grind [set_apply]⟩
  unfold Quiet at hq
  refine ⟨?_, ?_, ?_, ?_, ?_, ?_, ?_, ?_, ?_, ?_, q11, ?_, ?_, ?_, q15, ?_, ?_, q18, ?_⟩
  · grind [set_apply]
  · grind [set_apply]
  · grind [set_apply]
  · grind [set_apply]
  · grind [set_apply]
  · obtain ⟨r, h1, h2, h3⟩ := q6
    exact ⟨r, h1, h2, fun w => by rw [hR]; exact h3 w⟩
  · grind [set_apply]
  · intro w h; exact q8 w ((hR w).1 h)
  · grind [set_apply]
  · grind [set_apply]
  · intro h; obtain ⟨i, hj⟩ := q12 h; exact ⟨i, by grind [set_apply]⟩
  · grind [set_apply]
  · intro c h
    by_cases e : s.owner c = v
    · right; exact ⟨t, by simp [e2, e]⟩
    · rcases q14 c h with h | ⟨i, h⟩
      · left; grind [set_apply]
      · right; exact ⟨i, by grind [set_apply]⟩
  · grind [set_apply]
  · grind [set_apply]
  · grind [set_apply]

/-- `shutdown` has waited for the users. -/
theorem inv_shut_begin {s : St} (hi : Inv s) {t : Nat} (h0 : s.pc t = .idle ∨ ∃ b, s.pc t = .shutWait b)
    (hh : s.held = false) (hu : ∀ v, ¬ Reg s v) (hs : ∀ i, starts (s.pc i) = none) :
    Inv { s with running := false, held := true, pc := set s.pc t .shutJoin } := by
  have ⟨q1, q2, q3, q4, q5, q6, q7, q8, q9, q10, q11, q12, q13, q14, q15, q16, q17, q18, q19⟩ := hi
  have e1 : starts .shutJoin = none := rfl
  have e2 : stops .shutJoin = none := rfl
  have e3 : joins .shutJoin = none := rfl
  have e4 : destroys .shutJoin = none := rfl
  have h1 : stops (s.pc t) = none := by rcases h0 with h | ⟨b, h⟩ <;> rw [h] <;> rfl
  have hS : ∀ i, starts (set s.pc t .shutJoin i) = none := by
    intro i; rw [set_apply]; split
    · rfl
    · exact hs i
  have hT : ∀ i w, stops (set s.pc t .shutJoin i) = some w ↔ stops (s.pc i) = some w := by
    intro i w; rw [set_apply]; split
    · rename_i e; rw [e, h1, e2]
    · rfl
  have hR : ∀ w, Reg { s with running := false, held := true, pc := set s.pc t .shutJoin } w ↔ Reg s w := by
    intro w; simp [Reg, hS, hs, hT]
  refine ⟨?_, ?_, ?_, q4, ?_, ?_, ?_, ?_, ?_, fun _ _ => rfl, fun _ => rfl, fun _ => ⟨t, by simp⟩, ?_, ?_, q15, ?_, ?_, q18, ?_⟩
  · intro i j w; simp only [hS, hT]; have := q1 i j w; grind
  · intro i w; simp [hS]
  · intro i w; simp only [hT]; exact q3 i w
  · intro i w; simp only [hT]; exact q5 i w
  · obtain ⟨r, h1, h2, h3⟩ := q6
    exact ⟨r, h1, h2, fun w => by rw [hR]; exact h3 w⟩
  · intro i j w h; simp [hS] at h
  · intro w h; exact absurd ((hR w).1 h) (hu w)
  · intro i w h
    have h : set s.pc t .shutJoin i = .startCount w := h
    have := hS i
    rw [h] at this; cases this
  · intro i j g1 g2
    simp only [set_apply] at g1 g2
    have hno : ∀ i, s.pc i ≠ .shutJoin := fun i h => by have := q10 i h; rw [hh] at this; cases this
    grind
  · intro c h; simp only [hT]; exact q14 c h
  · intro w h
    refine ⟨(q16 w h).1, fun i => ⟨by simp [hS], ?_, ?_⟩⟩
    · rw [Ne, hT]; exact ((q16 w h).2 i).2.1
    · have := ((q16 w h).2 i).2.2
      grind [set_apply]
  · grind [set_apply]
  · grind [set_apply]

/-- `shutdown` returns. -/
theorem inv_shut_end {s : St} (hi : Inv s) {t : Nat} (h0 : s.pc t = .shutJoin) :
    Inv { s with held := false, pc := set s.pc t .idle } := by
  have ⟨q1, q2, q3, q4, q5, q6, q7, q8, q9, q10, q11, q12, q13, q14, q15, q16, q17, q18, q19⟩ := hi
  have e1 : starts .shutJoin = none := rfl
  have e2 : stops .shutJoin = none := rfl
  have e3 : joins .idle = none := rfl
  have e4 : destroys .idle = none := rfl
  have e5 : shuts .idle = false := rfl
  have e6 : starts .idle = none := rfl
  have e7 : stops .idle = none := rfl
  have hS : ∀ i w, starts (set s.pc t .idle i) = some w ↔ starts (s.pc i) = some w := by
    intro i w; rw [set_apply]; split
    · rename_i e; rw [e, h0, e1, e6]
    · rfl
  have hT : ∀ i w, stops (set s.pc t .idle i) = some w ↔ stops (s.pc i) = some w := by
    intro i w; rw [set_apply]; split
    · rename_i e; rw [e, h0, e2, e7]
    · rfl
  have hR : ∀ w, Reg { s with held := false, pc := set s.pc t .idle } w ↔ Reg s w := by
    intro w; simp [Reg, hS, hT]
  have hno : ∀ i, set s.pc t .idle i ≠ .shutJoin := by
    intro i h
    rw [set_apply] at h
    split at h
    · cases h
    · exact absurd (q13 i t h h0) (by assumption)
  refine ⟨?_, ?_, ?_, q4, ?_, ?_, ?_, ?_, ?_, fun i h => absurd h (hno i), (fun h => by cases h), (fun h => by cases h),
    fun i j h => absurd h (hno i), ?_, q15, ?_, ?_, q18, ?_⟩
  · intro i j w; simp only [hS, hT]; exact q1 i j w
  · intro i w; simp only [hS]; exact q2 i w
  · intro i w; simp only [hT]; exact q3 i w
  · intro i w; simp only [hT]; exact q5 i w
  · obtain ⟨r, h1, h2, h3⟩ := q6
    exact ⟨r, h1, h2, fun w => by rw [hR]; exact h3 w⟩
  · intro i j w h
    rw [hS] at h
    have := q7 i j w h
    grind [set_apply]
  · intro w h; exact q8 w ((hR w).1 h)
  · grind [set_apply]
  · intro c h; simp only [hT]; exact q14 c h
  · intro w h
    refine ⟨(q16 w h).1, fun i => ⟨?_, ?_, ?_⟩⟩
    · rw [Ne, hS]; exact ((q16 w h).2 i).1
    · rw [Ne, hT]; exact ((q16 w h).2 i).2.1
    · have := ((q16 w h).2 i).2.2
      grind [set_apply]
  · grind [set_apply]
  · grind [set_apply]

theorem inv_gone {s : St} (hi : Inv s) {v : Nat} (hl : s.listening v = false) (hq : Quiet s v)
    (hj : ∀ i, joins (s.pc i) ≠ some v) : Inv { s with gone := set s.gone v true } :=
  ⟨hi.uniq, hi.startL, hi.stopL, hi.small, hi.smallStop, hi.regs, hi.calm, hi.runReg, hi.runCount, hi.heldOf, hi.heldRun,
    hi.heldBy, hi.heldOne, hi.alive, hi.fresh, (by
      intro w h
      have h : set s.gone v true w = true := h
      rw [set_apply] at h
      split at h
      · rename_i e; subst e; exact ⟨hl, fun i => ⟨(hq i).1, (hq i).2, hj i⟩⟩
      · exact hi.gone w h), hi.destr, hi.good, hi.noteU⟩

theorem busy_false {s : St} (hi : Inv s) {v : Nat} (h : s.busy v = false) {c : Nat} (hc : Alive s c) (ho : s.owner c = v) :
    s.status c = .orphan := by
  have hl := alive_lt hi hc
  unfold St.busy at h
  rw [List.any_eq_false] at h
  have := h c (List.mem_range.2 hl)
  have h1 := hc.1
  have h2 := hc.2
  simp_all

/-- `stop` returns. -/
theorem inv_stop_end {s : St} (hi : Inv s) {t v : Nat} {g : Bool} (h0 : s.pc t = .stopLoop v g)
    (ha : ∀ c, Alive s c → s.owner c ≠ v) (pc : Nat → Pc)
    (hpc : pc = if s.users - 1 = 0 then notifyUsers s.pc else s.pc) (gn : Nat → Bool)
    (hg : gn = if g then set s.gone v true else s.gone) :
    Inv { s with users := s.users - 1, gone := gn, pc := set (notifyStopped pc v) t .idle } := by
  have ⟨q1, q2, q3, q4, q5, q6, q7, q8, q9, q10, q11, q12, q13, q14, q15, q16, q17, q18, q19⟩ := hi
  have hst : stops (s.pc t) = some v := by rw [h0]; rfl
  have hst' : starts (s.pc t) = none := by rw [h0]; rfl
  have p1 : ∀ i, starts (pc i) = starts (s.pc i) := by
    intro i; rw [hpc]; split
    · exact starts_notifyUsers _ _
    · rfl
  have p2 : ∀ i, stops (pc i) = stops (s.pc i) := by
    intro i; rw [hpc]; split
    · exact stops_notifyUsers _ _
    · rfl
  have p3 : ∀ i, joins (pc i) = joins (s.pc i) := by
    intro i; rw [hpc]; split
    · exact joins_notifyUsers _ _
    · rfl
  have p4 : ∀ i, destroys (pc i) = destroys (s.pc i) := by
    intro i; rw [hpc]; split
    · exact destroys_notifyUsers _ _
    · rfl
  have p5 : ∀ i, shuts (pc i) = shuts (s.pc i) := by
    intro i; rw [hpc]; split
    · exact shuts_notifyUsers _ _
    · rfl
  have p6 : ∀ i, pc i = .shutJoin ↔ s.pc i = .shutJoin := by
    intro i; rw [hpc]; split
    · exact shutJoin_notifyUsers _ _
    · rfl
  have p7 : ∀ i w, pc i = .startCount w ↔ s.pc i = .startCount w := by
    intro i w; rw [hpc]; split
    · exact count_notifyUsers _ _ _
    · rfl
  have p8 : ∀ i, pc i = .shutWait false → s.users - 1 ≠ 0 := by
    intro i; rw [hpc]; split
    · exact fun h => absurd h (shutWait_notifyUsers _ _)
    · exact fun _ => by assumption
  generalize hP : set (notifyStopped pc v) t .idle = P
  have r1 : ∀ i w, starts (P i) = some w ↔ starts (s.pc i) = some w := by
    intro i w; rw [← hP, set_apply]; split
    · rename_i e; rw [e, hst']; simp [starts]
    · rw [starts_notifyStopped, p1]
  have r2 : ∀ i w, stops (P i) = some w ↔ i ≠ t ∧ stops (s.pc i) = some w := by
    intro i w; rw [← hP, set_apply]; split
    · rename_i e; simp [stops, e]
    · rename_i e; rw [stops_notifyStopped, p2]; simp [e]
  have r3 : ∀ i w, joins (P i) = some w → joins (s.pc i) = some w := by
    intro i w; rw [← hP, set_apply]; split
    · simp [joins]
    · rw [joins_notifyStopped, p3]; exact id
  have r4 : ∀ i w, destroys (P i) = some w → destroys (s.pc i) = some w := by
    intro i w; rw [← hP, set_apply]; split
    · simp [destroys]
    · rw [destroys_notifyStopped, p4]; exact id
  have r5 : ∀ i, shuts (s.pc i) = false → shuts (P i) = false := by
    intro i; rw [← hP, set_apply]; split
    · simp [shuts]
    · rw [shuts_notifyStopped, p5]; exact id
  have r6 : ∀ i, P i = .shutJoin ↔ s.pc i = .shutJoin := by
    intro i; rw [← hP, set_apply]; split
    · rename_i e; simp [e, h0]
    · rw [shutJoin_notifyStopped, p6]
  have r7 : ∀ i w, P i = .startCount w → s.pc i = .startCount w := by
    intro i w; rw [← hP, set_apply]; split
    · simp
    · rw [count_notifyStopped, p7]; exact id
  have r8 : ∀ i, P i = .shutWait false → s.users - 1 ≠ 0 := by
    intro i; rw [← hP, set_apply]; split
    · simp
    · rw [shutWait_notifyStopped]; exact p8 i
  have hlv := q3 t v hst
  have huni : ∀ i w, stops (s.pc i) = some w → i ≠ t → w ≠ v := by
    intro i w h hne e
    subst e
    exact hne (q1 i t w (.inr h) (.inr hst))
  have hR : ∀ w, Reg { s with users := s.users - 1, gone := gn, pc := P } w ↔ Reg s w ∧ w ≠ v := by
    intro w
    simp only [Reg, r2]
    constructor
    · rintro (⟨h1, h2⟩ | ⟨i, h1, h2⟩)
      · refine ⟨.inl ⟨h1, fun i => ?_⟩, ?_⟩
        · have := h2 i; rwa [Ne, r1] at this
        · rintro rfl; rw [hlv] at h1; cases h1
      · exact ⟨.inr ⟨i, h2⟩, huni i w h2 h1⟩
    · rintro ⟨⟨h1, h2⟩ | ⟨i, h1⟩, hw⟩
      · refine .inl ⟨h1, fun i => ?_⟩
        rw [Ne, r1]; exact h2 i
      · refine .inr ⟨i, ?_, h1⟩
        rintro rfl
        rw [hst] at h1; exact hw (Option.some.inj h1).symm
  have hreg : Reg s v := .inr ⟨t, hst⟩
  refine ⟨?_, ?_, ?_, q4, ?_, ?_, ?_, ?_, ?_, ?_, q11, ?_, ?_, ?_, q15, ?_, ?_, q18, ?_⟩
  · intro i j w; simp only [r1, r2]; have := q1 i j w; grind
  · intro i w; simp only [r1]; exact q2 i w
  · intro i w; simp only [r2]; exact fun h => q3 i w h.2
  · intro i w; simp only [r2]; exact fun h => q5 i w h.2
  · obtain ⟨r, h1, h2, h3⟩ := q6
    have hm : v ∈ r := (h3 v).2 hreg
    refine ⟨r.erase v, h1.erase v, ?_, fun w => ?_⟩
    · have hlen : 0 < r.length := List.length_pos_of_mem hm
      show (s.users - 1).toNat = _
      rw [List.length_erase_of_mem hm, UInt32.toNat_sub_of_le, h2]
      · rfl
      · rw [UInt32.le_iff_toNat_le, h2]; exact hlen
    · rw [h1.mem_erase_iff, hR, h3]; tauto
  · intro i j w h
    rw [r1] at h
    exact r5 j (q7 i j w h)
  · intro w h; exact q8 w ((hR w).1 h).1
  · intro i w h; exact q9 i w (r7 i w h)
  · intro i h; exact q10 i ((r6 i).1 h)
  · intro h; obtain ⟨i, h1⟩ := q12 h; exact ⟨i, (r6 i).2 h1⟩
  · intro i j g1 g2; exact q13 i j ((r6 i).1 g1) ((r6 j).1 g2)
  · intro c h
    simp only [r2]
    rcases q14 c h with h1 | ⟨i, h1⟩
    · exact .inl h1
    · refine .inr ⟨i, ?_, h1⟩
      rintro rfl
      rw [hst] at h1
      exact ha c h (Option.some.inj h1).symm
  · intro w h
    have hcase : s.gone w = true ∨ (g = true ∧ w = v) := by
      have h : gn w = true := h
      rw [hg] at h
      split at h
      · rename_i hgt
        rw [set_apply] at h
        split at h
        · exact .inr ⟨hgt, by assumption⟩
        · exact .inl h
      · exact .inl h
    rcases hcase with h | ⟨hgt, rfl⟩
    · obtain ⟨h1, h2⟩ := q16 w h
      refine ⟨h1, fun i => ⟨?_, ?_, fun h => (h2 i).2.2 (r3 i w h)⟩⟩
      · rw [Ne, r1]; exact (h2 i).1
      · rw [Ne, r2]; exact fun h => (h2 i).2.1 h.2
    · refine ⟨hlv, fun i => ⟨?_, ?_, fun h => ?_⟩⟩
      · rw [Ne, r1]; exact fun h => by
          have := q1 i t w (.inl h) (.inr hst)
          rw [this, hst'] at h; cases h
      · rw [Ne, r2]; exact fun h => huni i w h.2 h.1 rfl
      · exact q17 t i w (by rw [h0, hgt]; rfl) (r3 i w h)
  · intro i j w h1 h2
    exact q17 i j w (r4 i w h1) (r3 j w h2)
  · exact r8

theorem inv_stopRound {s s' : St} (hi : Inv s) {t v : Nat} {g : Bool} (h0 : s.pc t = .stopLoop v g)
    (h : s.stopRound t v g = some s') : Inv s' := by
  unfold St.stopRound at h
  simp only at h
  have hp := inv_prune hi v
  split at h
  · cases h
    have : set s.pc t (.stopLoop v g) = s.pc := by
      funext i; rw [set_apply]; split
      · rename_i e; rw [e, h0]
      · rfl
    rw [this]
    exact hp
  · rename_i hb
    split at h
    · cases h
    · cases h
      have hb : s.busy v = false := by simpa using hb
      refine inv_log (inv_stop_end hp h0 ?_ _ rfl _ rfl) _
      rintro c ⟨h1, h2⟩ ho
      simp only at h1 h2 ho
      split at h1
      · rename_i e; rw [if_pos e] at h2; exact h2 rfl
      · rename_i e
        rw [if_neg e] at h2
        exact e ⟨busy_false hi hb ⟨h1, h2⟩ ho, ho⟩

theorem set_set {α : Type} (f : Nat → α) (i : Nat) (x y : α) : set (set f i x) i y = set f i y := by
  funext j; simp only [set_apply]; split <;> rfl

theorem set_notifyUsers (pc : Nat → Pc) (t : Nat) (p q : Pc) :
    ∀ v, set (notifyStopped (notifyUsers (set pc t p)) v) t q = set (notifyStopped (notifyUsers pc) v) t q := by
  intro v
  funext j; simp only [set_apply]; split
  · rfl
  · rename_i e; simp [notifyStopped, notifyUsers, set_apply, e]

theorem set_notifyStopped (pc : Nat → Pc) (t : Nat) (p q : Pc) :
    ∀ v, set (notifyStopped (set pc t p) v) t q = set (notifyStopped pc v) t q := by
  intro v
  funext j; simp only [set_apply]; split
  · rfl
  · rename_i e; simp [notifyStopped, set_apply, e]

/-- A `stop` that begins does the same as one that has entered the loop. -/
theorem stopRound_mid (s : St) (t v : Nat) (g : Bool) (p : Pc) :
    ({ s with pc := set s.pc t p } : St).stopRound t v g = s.stopRound t v g := by
  unfold St.stopRound St.busy
  simp only [set_set]
  by_cases hu : s.users - 1 = 0
  · simp only [hu, if_true, set_notifyUsers]
  · simp only [hu, if_false, set_notifyStopped]

theorem no_reg_of_users {s : St} (hi : Inv s) (h : s.users = 0) (v : Nat) : ¬ Reg s v := by
  obtain ⟨r, h1, h2, h3⟩ := hi.regs
  rw [h] at h2
  have : r = [] := List.eq_nil_of_length_eq_zero h2.symm
  rw [← h3, this]
  simp

theorem inv_shutRound {s : St} (hi : Inv s) {t : Nat} (h0 : s.pc t = .idle ∨ ∃ b, s.pc t = .shutWait b)
    (hh : s.held = false) (hs : ∀ i, starts (s.pc i) = none) : Inv (s.shutRound t) := by
  unfold St.shutRound
  split
  · rename_i hu
    have hne : s.users ≠ 0 := by
      intro e; rw [e] at hu; exact absurd hu (by decide)
    refine inv_pc_plain hi (hs t) ?_ ?_ rfl rfl (by simp) (by simp [joins]) (fun _ => hs) (fun _ => hne)
    · rcases h0 with h | ⟨b, h⟩ <;> rw [h] <;> rfl
    · rcases h0 with h | ⟨b, h⟩ <;> rw [h] <;> simp
  · rename_i hu
    have he : s.users = 0 := by
      rw [gt_iff_lt, UInt32.lt_iff_toNat_lt] at hu
      exact UInt32.toNat_inj.1 (by simpa using hu)
    exact inv_shut_begin hi h0 hh (no_reg_of_users hi he) hs

theorem inv_joinRound {s : St} (hi : Inv s) {t v : Nat} (h0 : s.pc t = .idle ∨ ∃ b, s.pc t = .joinWait v b)
    (hg : s.gone v = false) (hd : ∀ i, destroys (s.pc i) ≠ some v) : Inv (s.joinRound t v) := by
  have a0 : starts (s.pc t) = none ∧ stops (s.pc t) = none ∧ s.pc t ≠ .shutJoin := by
    rcases h0 with h | ⟨b, h⟩ <;> rw [h] <;> simp [starts, stops]
  unfold St.joinRound
  split
  · exact inv_pc_plain hi a0.1 a0.2.1 a0.2.2 rfl rfl (by simp) (by
      intro w hw
      simp only [joins, Option.some.injEq] at hw
      subst hw; exact ⟨hg, hd⟩) (by simp [shuts]) (by simp)
  · exact inv_log (inv_pc_plain hi a0.1 a0.2.1 a0.2.2 rfl rfl (by simp) (by simp [joins]) (by simp [shuts]) (by simp)) _

theorem alive_of {s : St} {c : Nat} {x : Status} (h : s.status c = x) (h1 : x ≠ .absent) (h2 : x ≠ .finished) : Alive s c :=
  ⟨by rw [h]; exact h1, by rw [h]; exact h2⟩

/-- The invariant is kept. -/
theorem step_inv {W : List Nat} {s s' : St} {t : Nat} {a : Act} (hi : Inv s) (ho : Careful s t a)
    (h : s.step W t a = some s') : Inv s' := by
  cases a with
  | go =>
    simp only [St.step, St.go] at h
    split at h
    · cases h
    · rename_i v hp
      cases h
      have hg : s.gone v = false := by
        cases hg : s.gone v
        · rfl
        · exact absurd (by rw [hp]; rfl) ((hi.gone v hg).2 t).1
      rw [use_eq hi hg]
      have hl := inv_listen hi v
      have := inv_pc_start hl (t := t) (v := v) (p := .startLook v) (by rw [(listen_eq s v).1, hp]; rfl) rfl (by simp)
      rwa [(listen_eq s v).1] at this
    · rename_i v hp
      cases h
      have hg : s.gone v = false := by
        cases hg : s.gone v
        · rfl
        · exact absurd (by rw [hp]; rfl) ((hi.gone v hg).2 t).1
      rw [use_eq hi hg]
      refine inv_pc_start hi (v := v) (by rw [hp]; rfl) (by split <;> rfl) ?_
      intro h
      split at h
      · assumption
      · cases h
    · rename_i v hp
      split at h
      · cases h
      · rename_i hh
        cases h
        refine inv_pc_start (inv_startup hi (by simpa using hh)) (v := v) ?_ rfl (fun _ => rfl)
        show starts (s.pc t) = _
        rw [hp]; rfl
    · rename_i v hp
      split at h
      · cases h
      · cases h
        exact inv_log (inv_count hi hp) _
    · rename_i v g hp
      have hg : s.gone v = false := by
        cases hg : s.gone v
        · rfl
        · exact absurd (by rw [hp]; rfl) ((hi.gone v hg).2 t).2.1
      rw [use_eq hi hg] at h
      exact inv_stopRound hi hp h
    · rename_i v n hp
      cases h
      have hj : joins (s.pc t) = some v := by rw [hp]; rfl
      have hg : s.gone v = false := by
        cases hg : s.gone v
        · rfl
        · exact absurd hj ((hi.gone v hg).2 t).2.2
      rw [use_eq hi hg]
      exact inv_joinRound hi (.inr ⟨n, hp⟩) hg (fun i hd => hi.destr i t v hd hj)
    · rename_i b hp
      split at h
      · cases h
      · rename_i hh
        cases h
        refine inv_shutRound hi (.inr ⟨b, hp⟩) (by simpa using hh) ?_
        intro i
        cases hs : starts (s.pc i) with
        | none => rfl
        | some v =>
          have := hi.calm i t v hs
          rw [hp] at this; cases this
    · rename_i hp
      split at h
      · cases h
        exact inv_log (inv_shut_end hi hp) _
      · cases h
  | start v =>
    obtain ⟨hg, hq, hs, hv⟩ := ho
    simp only [St.step] at h
    split at h
    · rename_i hp
      rw [use_eq hi hg] at h
      split at h
      · cases h; exact inv_log hi _
      · rename_i hl
        cases h
        exact inv_start_begin hi hp (by simpa using hl) hq hs hv hg
    · cases h
  | stop v =>
    obtain ⟨hg, hq⟩ := ho
    simp only [St.step] at h
    split at h
    · rename_i hp
      rw [use_eq hi hg] at h
      split at h
      · rename_i hl
        rw [← stopRound_mid _ t v false (.stopLoop v false)] at h
        exact inv_stopRound (inv_stop_begin hi hp hl hq (by simp)) (by simp) h
      · cases h; exact inv_log hi _
    · cases h
  | join v =>
    obtain ⟨hg, hd⟩ := ho
    simp only [St.step] at h
    split at h
    · rename_i hp
      cases h
      rw [use_eq hi hg]
      exact inv_joinRound hi (.inl hp) hg hd
    · cases h
  | destroy v =>
    obtain ⟨hg, hq, hj⟩ := ho
    simp only [St.step] at h
    split at h
    · rename_i hp
      rw [use_eq hi hg] at h
      split at h
      · rename_i hl
        rw [← stopRound_mid _ t v true (.stopLoop v true)] at h
        exact inv_stopRound (inv_stop_begin hi hp hl hq (fun _ => hj)) (by simp) h
      · rename_i hl
        cases h
        exact inv_log (inv_gone hi (by simpa using hl) hq hj) _
    · cases h
  | startup =>
    simp only [St.step] at h
    split at h
    · rename_i hp
      cases h
      exact inv_startup hi hp.2
    · cases h
  | shutdown =>
    have ho : ∀ i, starts (s.pc i) = none := ho
    simp only [St.step] at h
    split at h
    · rename_i hp
      split at h
      · cases h
        exact inv_shutRound hi (.inl hp.1) hp.2 ho
      · rename_i hr
        cases h
        have hr : s.running = false := by simpa using hr
        have := inv_shut_begin hi (t := t) (.inl hp.1) hp.2 (fun v hv => by rw [hi.runReg v hv] at hr; cases hr) ho
        rwa [← hr] at this
    · cases h
  | accept c ok =>
    simp only [St.step] at h
    split at h
    · rename_i hp
      cases h
      have ha : Alive s c := alive_of hp.2 (by simp) (by simp)
      rw [use_eq hi (gone_of_alive hi ha)]
      have hl := inv_listen hi (s.owner c)
      refine inv_set_status hl ?_ _
      have hlt := alive_lt hi ha
      unfold St.listen
      split
      · refine alive_of (x := .accepting) ?_ (by simp) (by simp)
        simp only [set_apply]
        rw [if_neg (by omega), hp.2]
        simp
      · exact ha
    · cases h
  | handle c =>
    simp only [St.step] at h
    split at h
    · rename_i hp
      cases h
      have ha : Alive s c := alive_of hp.2 (by simp) (by simp)
      rw [use_eq hi (gone_of_alive hi ha)]
      exact inv_set_status hi ha _
    · cases h
  | await c =>
    simp only [St.step] at h
    split at h
    · rename_i hp
      cases h
      exact inv_set_status hi (alive_of hp.2 (by simp) (by simp)) _
    · cases h
  | finish c keep =>
    simp only [St.step] at h
    split at h
    · rename_i hp
      cases h
      have ha : Alive s c := alive_of hp.2 (by simp) (by simp)
      rw [use_eq hi (gone_of_alive hi ha)]
      exact inv_set_status hi ha _
    · cases h
  | drop c =>
    simp only [St.step] at h
    split at h
    · rename_i hp
      cases h
      exact inv_set_status hi (alive_of hp.2 (by simp) (by simp)) _
    · cases h

theorem inv {W : List Nat} {s : St} (hr : Reach W Careful s) : Inv s := by
  induction hr with
  | init => exact init_inv
  | step _ ho hs ih => exact step_inv ih ho hs

theorem listen_status {s : St} {v c : Nat} (hc : c < s.next) :
    (s.listen v).status c = (if s.listening v = true ∧ s.status c = .orphan ∧ s.owner c = v then .finished else s.status c) ∧
      (s.listen v).owner c = s.owner c := by
  unfold St.listen
  split
  · rename_i h
    have hne : ¬ c = s.next := by omega
    simp only [set_apply, hne, if_false, h, true_and, and_self]
  · rename_i h
    simp [h]

/-- Numbers that are not given out belong to no connection. -/
def Fresh (s : St) : Prop := ∀ c, s.next ≤ c → s.status c = .absent

theorem lt_of_status {s : St} (hf : Fresh s) {c : Nat} (h : s.status c ≠ .absent) : c < s.next := by
  rcases Nat.lt_or_ge c s.next with h1 | h1
  · exact h1
  · exact absurd (hf c h1) h

theorem fresh_set {s : St} (hf : Fresh s) {c : Nat} (h : s.status c ≠ .absent) (x : Status) (d : Nat) (hd : s.next ≤ d) :
    set s.status c x d = .absent := by
  have := lt_of_status hf h
  rw [set_apply, if_neg (by omega)]
  exact hf d hd

theorem fresh_prune {s : St} (hf : Fresh s) (v : Nat) (d : Nat) (hd : s.next ≤ d) :
    (if s.status d = .orphan ∧ s.owner d = v then Status.finished else s.status d) = .absent := by
  simp [hf d hd]

theorem fresh_listen {s : St} (hf : Fresh s) (v : Nat) : Fresh (s.listen v) := by
  unfold St.listen
  split
  · intro d hd
    have hd : s.next + 1 ≤ d := hd
    simp only [set_apply]
    rw [if_neg (by omega)]
    exact fresh_prune hf v d (by omega)
  · exact hf

theorem fresh_stopRound {s s' : St} (hf : Fresh s) {t v : Nat} {g : Bool} (h : s.stopRound t v g = some s') : Fresh s' := by
  simp only [St.stopRound] at h
  split at h
  · cases h; exact fresh_prune hf v
  · split at h
    · cases h
    · cases h; exact fresh_prune hf v

theorem fresh_step {W : List Nat} {s s' : St} {t : Nat} {a : Act} (hf : Fresh s) (h : s.step W t a = some s') : Fresh s' := by
  cases a <;> simp only [St.step] at h
  case go =>
    simp only [St.go] at h
    split at h
    · cases h
    · cases h; exact fresh_listen (s := s.use _) hf _
    · cases h; exact hf
    · split at h <;> cases h; exact hf
    · split at h <;> cases h; exact hf
    · exact fresh_stopRound (s := s.use _) hf h
    · cases h; unfold St.joinRound; split <;> exact hf
    · split at h
      · cases h
      · cases h; unfold St.shutRound; split <;> exact hf
    · split at h <;> cases h; exact hf
  case start v => split at h <;> (try split at h) <;> cases h <;> exact hf
  case stop v =>
    split at h
    · split at h
      · refine fresh_stopRound ?_ h; exact hf
      · cases h; exact hf
    · cases h
  case join v =>
    split at h
    · cases h; unfold St.joinRound; split <;> exact hf
    · cases h
  case destroy v =>
    split at h
    · split at h
      · refine fresh_stopRound ?_ h; exact hf
      · cases h; exact hf
    · cases h
  case startup => split at h <;> cases h; exact hf
  case shutdown =>
    split at h
    · split at h
      · cases h; unfold St.shutRound; split <;> exact hf
      · cases h; exact hf
    · cases h
  case accept c ok =>
    split at h
    · rename_i hp
      cases h
      have hl := lt_of_status hf (c := c) (by rw [hp.2]; simp)
      refine fresh_set (fresh_listen (s := s.use _) hf _) ?_ _
      rw [(listen_status (s := s.use _) hl).1]
      split
      · simp
      · show s.status c ≠ _
        rw [hp.2]; simp
    · cases h
  case handle c =>
    split at h
    · rename_i hp; cases h; exact fresh_set hf (by rw [hp.2]; simp) _
    · cases h
  case await c =>
    split at h
    · rename_i hp; cases h; exact fresh_set hf (by rw [hp.2]; simp) _
    · cases h
  case finish c keep =>
    split at h
    · rename_i hp; cases h; exact fresh_set (s := s.use _) hf (by show s.status c ≠ _; rw [hp.2]; simp) _
    · cases h
  case drop c =>
    split at h
    · rename_i hp; cases h; exact fresh_set hf (by rw [hp.2]; simp) _
    · cases h

theorem fresh {W : List Nat} {ok : St → Nat → Act → Prop} {s : St} (hr : Reach W ok s) : Fresh s := by
  induction hr with
  | init => intro c _; rfl
  | step _ _ hs ih => exact fresh_step ih hs

end Verif.ServerLife
