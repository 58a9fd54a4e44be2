import Verif.Spec.ReadTimer
import Mathlib.Tactic.Common
import Mathlib.Data.List.Induction
namespace Verif.ReadTimer
open Spec.ReadTimer

variable {timeout : Nat}

theorem run_snoc (l : List Act) (x : Act) (s' : St) :
    run timeout (l ++ [x]) = some s' ↔ ∃ s, run timeout l = some s ∧ s.step timeout x = some s' := by
  simp only [run, List.foldlM_append, List.foldlM_cons, List.foldlM_nil]
  cases h : List.foldlM (St.step timeout) {} l with
  | none => simp
  | some s =>
    simp only [Option.bind_eq_bind, Option.bind_some, Option.some.injEq, exists_eq_left']
    cases s.step timeout x <;> simp

theorem run_induct {P : List Act → St → Prop} (h0 : P [] {})
    (hs : ∀ l s x s', run timeout l = some s → P l s → s.step timeout x = some s' → P (l ++ [x]) s') {l : List Act} {s : St}
    (h : run timeout l = some s) : P l s := by
  induction l using List.reverseRecOn generalizing s with
  | nil => cases h; exact h0
  | append_singleton l x ih =>
    obtain ⟨s0, h1, h2⟩ := (run_snoc l x s).1 h
    exact hs l s0 x s h1 (ih h1) h2

/-! ### Logs -/

theorem snoc_split {α : Type} {log : List α} {e x : α} {a b : List α} (h : log ++ [e] = a ++ x :: b) :
    (b = [] ∧ x = e ∧ a = log) ∨ ∃ b', b = b' ++ [e] ∧ log = a ++ x :: b' := by
  rcases List.eq_nil_or_concat b with rfl | ⟨b', y, rfl⟩
  · left
    obtain ⟨h1, h2⟩ := List.append_inj' h rfl
    simp only [List.cons.injEq, and_true] at h2
    exact ⟨rfl, h2.symm, h1.symm⟩
  · right
    rw [List.concat_eq_append] at h
    rw [List.concat_eq_append]
    rw [← List.cons_append, ← List.append_assoc] at h
    obtain ⟨h1, h2⟩ := List.append_inj' h rfl
    simp only [List.cons.injEq, and_true] at h2
    exact ⟨b', by rw [h2], h1⟩

theorem waiting_asked (log : List Ev) (t : Nat) : WaitingSince (log ++ [.asked t]) t := ⟨log, [], rfl, nofun⟩

theorem waiting_snoc {log : List Ev} {t0 : Nat} (h : WaitingSince log t0) {e : Ev} (he : turns e = false) :
    WaitingSince (log ++ [e]) t0 := by
  obtain ⟨a, b, rfl, hb⟩ := h
  refine ⟨a, b ++ [e], by simp, ?_⟩
  intro x hx
  rcases List.mem_append.1 hx with hx | hx
  · exact hb x hx
  · rw [List.mem_singleton.1 hx]; exact he

theorem waiting_unique {log : List Ev} {t0 t1 : Nat} (h0 : WaitingSince log t0) (h1 : WaitingSince log t1) : t0 = t1 := by
  induction log using List.reverseRecOn generalizing t0 t1 with
  | nil => obtain ⟨a, b, h, _⟩ := h0; simp at h
  | append_singleton log e ih =>
    obtain ⟨a, b, h, hb⟩ := h0
    obtain ⟨a', b', h', hb'⟩ := h1
    rcases snoc_split h with ⟨rfl, hx, rfl⟩ | ⟨c, rfl, hc⟩
    · rcases snoc_split h' with ⟨rfl, hx', _⟩ | ⟨c', rfl, _⟩
      · rw [← hx'] at hx; simpa using hx
      · have := hb' e (by simp)
        rw [← hx] at this; cases this
    · rcases snoc_split h' with ⟨rfl, hx', _⟩ | ⟨c', rfl, hc'⟩
      · have := hb e (by simp)
        rw [← hx'] at this; cases this
      · exact ih ⟨a, c, hc, fun x hx => hb x (by simp [hx])⟩ ⟨a', c', hc', fun x hx => hb' x (by simp [hx])⟩

theorem arrived_snoc {log : List Ev} {e : Ev} : Arrived (log ++ [e]) ↔ isArrived e = true ∨ (isGot e = false ∧ Arrived log) := by
  constructor
  · rintro ⟨a, t, b, h, hb⟩
    rcases snoc_split h with ⟨rfl, hx, rfl⟩ | ⟨c, rfl, hc⟩
    · left; rw [← hx]; rfl
    · exact .inr ⟨hb e (by simp), a, t, c, hc, fun x hx => hb x (by simp [hx])⟩
  · rintro (h | ⟨h, a, t, b, rfl, hb⟩)
    · cases e <;> simp [isArrived] at h
      exact ⟨log, _, [], rfl, nofun⟩
    · refine ⟨a, t, b ++ [e], by simp, ?_⟩
      intro x hx
      rcases List.mem_append.1 hx with hx | hx
      · exact hb x hx
      · rw [List.mem_singleton.1 hx]; exact h

theorem fired_snoc {log : List Ev} {e : Ev} : Fired (log ++ [e]) ↔ isCancelled e = true ∨ (turns e = false ∧ Fired log) := by
  constructor
  · rintro ⟨a, t, b, h, hb⟩
    rcases snoc_split h with ⟨rfl, hx, rfl⟩ | ⟨c, rfl, hc⟩
    · left; rw [← hx]; rfl
    · exact .inr ⟨hb e (by simp), a, t, c, hc, fun x hx => hb x (by simp [hx])⟩
  · rintro (h | ⟨h, a, t, b, rfl, hb⟩)
    · cases e <;> simp [isCancelled] at h
      exact ⟨log, _, [], rfl, nofun⟩
    · refine ⟨a, t, b ++ [e], by simp, ?_⟩
      intro x hx
      rcases List.mem_append.1 hx with hx | hx
      · exact hb x hx
      · rw [List.mem_singleton.1 hx]; exact h

/-- Each event is justified by those before it. -/
def Each (P : List Ev → Ev → Prop) (log : List Ev) : Prop := ∀ pre e post, log = pre ++ e :: post → P pre e

theorem each_snoc {P : List Ev → Ev → Prop} {log : List Ev} {e : Ev} (h : Each P log) (he : P log e) : Each P (log ++ [e]) := by
  intro pre x post hx
  rcases snoc_split hx with ⟨rfl, rfl, rfl⟩ | ⟨b', rfl, h'⟩
  · exact he
  · exact h pre x b' h'

/-! ### What holds always -/

/-- What an event says about those before it. -/
def Just (timeout : Nat) (pre : List Ev) : Ev → Prop
  | .cancelled t => ∃ t0, WaitingSince pre t0 ∧ t0 + timeout ≤ t ∧ 0 < timeout
  | .aborted t k => k = .read ∧ ∃ t0, WaitingSince pre t0 ∧ t0 + timeout ≤ t ∧ 0 < timeout
  | .got t r => (Arrived pre ↔ r = .data) ∧ ∃ t0, WaitingSince pre t0 ∧ (r = .aborted → t0 + timeout ≤ t ∧ 0 < timeout)
  | .wrote _ r => r ≠ .aborted
  | _ => True

/-- The timer of the reader. -/
structure Cur (timeout : Nat) (s : St) (t : Timer.St) : Prop where
  live : t.cancelled = false
  deadline : ∃ t0, WaitingSince s.log t0 ∧ t.deadline = t0 + timeout
  due : t.pending = 0 → t.deadline ≤ s.now
  fired : Fired s.log ↔ t.pending + t.queued = 0
  phase : s.phase = .armed ∨ s.phase = .waiting

structure Inv (timeout : Nat) (s : St) : Prop where
  clock : ∀ t ∈ s.timers, t.now = s.now
  few : ∀ t ∈ s.timers, t.pending + t.queued ≤ 1
  old : ∀ (k : Nat) t, s.timers[k]? = some t → s.cur ≠ some k → t.cancelled = true
  cur : ∀ k, s.cur = some k → ∃ t, s.timers[k]? = some t ∧ Cur timeout s t
  armed : 0 < timeout → (s.phase = .armed ∨ s.phase = .waiting) → s.cur ≠ none
  never : timeout = 0 → s.timers = []
  ops : match s.phase with
    | .user => s.cur = none ∧ (s.op = .idle ∨ s.op = .pending .write ∨ ∃ r, r ≠ .aborted ∧ s.op = .complete .write r)
    | .armed => s.op = .idle ∧ ∃ t0, WaitingSince s.log t0
    | .waiting => (s.op = .pending .read ∨ ∃ r, s.op = .complete .read r) ∧ ∃ t0, WaitingSince s.log t0
    | .parsing => s.cur = none ∧ s.op = .idle
  arrived : Arrived s.log ↔ s.op = .complete .read .data
  aborted : s.op = .complete .read .aborted → ∃ t0, WaitingSince s.log t0 ∧ t0 + timeout ≤ s.now ∧ 0 < timeout
  each : Each (Just timeout) s.log

theorem inv_new : Inv timeout {} := by
  refine ⟨nofun, nofun, ?_, nofun, ?_, fun _ => rfl, ⟨rfl, .inl rfl⟩, ?_, nofun, ?_⟩
  · intro k t h; simp at h
  · rintro _ (h | h) <;> cases h
  · constructor
    · rintro ⟨a, t, b, h, _⟩; simp at h
    · nofun
  · intro pre e post h; simp at h

theorem inv_ask {s : St} (h : Inv timeout s) (hc : s.cur = none) (ho : s.op = .idle) : Inv timeout (s.ask timeout) := by
  have harr : ¬Arrived s.log := fun ha => by have := h.arrived.1 ha; rw [ho] at this; cases this
  have harr' : ¬Arrived (s.log ++ [.asked s.now]) := by rw [arrived_snoc]; simp [isArrived, harr]
  have heach : Each (Just timeout) (s.log ++ [.asked s.now]) := each_snoc h.each trivial
  by_cases ht : 0 < timeout
  · have e : s.ask timeout = { s with
        phase := .armed, log := s.log ++ [.asked s.now], timers := s.timers ++ [({ now := s.now } : Timer.St).start timeout]
        cur := some s.timers.length } := by simp [St.ask, ht]
    rw [e]
    refine ⟨?_, ?_, ?_, ?_, fun _ _ => nofun, fun h0 => by omega, ⟨ho, _, waiting_asked ..⟩, ?_, ?_, heach⟩
    · intro t hm
      rcases List.mem_append.1 hm with hm | hm
      · exact h.clock t hm
      · rw [List.mem_singleton.1 hm]; rfl
    · intro t hm
      rcases List.mem_append.1 hm with hm | hm
      · exact h.few t hm
      · rw [List.mem_singleton.1 hm]; simp [Timer.St.start]
    · intro k t hk hne
      simp only [] at hk hne
      by_cases hlt : k < s.timers.length
      · rw [List.getElem?_append_left hlt] at hk
        exact h.old k t hk (by rw [hc]; nofun)
      · rw [List.getElem?_append_right (by omega)] at hk
        have : k - s.timers.length = 0 := by
          by_contra h0
          rw [List.getElem?_eq_none (by simp; omega)] at hk
          cases hk
        exact absurd (by rw [Option.some.injEq]; omega) hne
    · intro k hk
      simp only [Option.some.injEq] at hk
      subst hk
      refine ⟨({ now := s.now } : Timer.St).start timeout, by simp, rfl, ⟨s.now, waiting_asked .., rfl⟩, ?_, ?_, .inl rfl⟩
      · intro h0; simp [Timer.St.start] at h0
      · rw [fired_snoc]; simp [isCancelled, turns, Timer.St.start]
    · simp only []
      rw [ho]
      exact ⟨fun ha => absurd ha harr', nofun⟩
    · simp only []; rw [ho]; nofun
  · have e : s.ask timeout = { s with phase := .armed, log := s.log ++ [.asked s.now], cur := none } := by simp [St.ask, ht]
    rw [e]
    refine ⟨h.clock, h.few, ?_, nofun, fun h0 => absurd h0 ht, h.never, ⟨ho, _, waiting_asked ..⟩, ?_, ?_, heach⟩
    · intro k t hk hne; exact h.old k t hk (by rw [hc]; nofun)
    · simp only []
      rw [ho]
      exact ⟨fun ha => absurd ha harr', nofun⟩
    · simp only []; rw [ho]; nofun

theorem cancel_cancelled (t : Timer.St) : t.cancel.cancelled = true := by simp only [Timer.St.cancel]; split <;> rfl
theorem cancel_now (t : Timer.St) : t.cancel.now = t.now := by simp only [Timer.St.cancel]; split <;> rfl
theorem cancel_few (t : Timer.St) : t.cancel.pending + t.cancel.queued = t.pending + t.queued := by
  simp only [Timer.St.cancel]; split <;> (simp; try omega)

theorem modify_get (l : List Timer.St) (k j : Nat) (f : Timer.St → Timer.St) :
    (l.modify k f)[j]? = if k = j then l[j]?.map f else l[j]? := by
  rw [List.getElem?_modify]
  split <;> cases l[j]? <;> simp

/-- What is left of the invariant for the timers after the reader's timer was cancelled. -/
theorem disarm_timers {s : St} (h : Inv timeout s) : (∀ t ∈ s.disarm.timers, t.now = s.now) ∧
    (∀ t ∈ s.disarm.timers, t.pending + t.queued ≤ 1) ∧ (∀ (k : Nat) t, s.disarm.timers[k]? = some t → t.cancelled = true) ∧
    (timeout = 0 → s.disarm.timers = []) ∧ s.disarm.cur = none ∧ s.disarm.now = s.now := by
  cases hc : s.cur with
  | none =>
    have e : s.disarm = s := by simp [St.disarm, hc]
    rw [e]
    exact ⟨h.clock, h.few, fun k t hk => h.old k t hk (by rw [hc]; nofun), h.never, hc, rfl⟩
  | some k =>
    have e : s.disarm = { s with timers := s.timers.modify k Timer.St.cancel, cur := none } := by simp [St.disarm, hc]
    rw [e]
    have mem : ∀ t ∈ s.timers.modify k Timer.St.cancel, ∃ t0 ∈ s.timers, t = t0 ∨ t = t0.cancel := by
      intro t ht
      obtain ⟨j, hj⟩ := List.mem_iff_getElem?.1 ht
      rw [modify_get] at hj
      split at hj
      · cases hg : s.timers[j]? with
        | none => rw [hg] at hj; cases hj
        | some t0 =>
          rw [hg] at hj
          exact ⟨t0, List.mem_of_getElem? hg, .inr (by simpa using hj.symm)⟩
      · exact ⟨t, List.mem_of_getElem? hj, .inl rfl⟩
    refine ⟨?_, ?_, ?_, ?_, rfl, rfl⟩
    · intro t ht
      obtain ⟨t0, h0, rfl | rfl⟩ := mem t ht
      · exact h.clock _ h0
      · rw [cancel_now]; exact h.clock _ h0
    · intro t ht
      obtain ⟨t0, h0, rfl | rfl⟩ := mem t ht
      · exact h.few _ h0
      · rw [cancel_few]; exact h.few _ h0
    · intro j t hj
      simp only [] at hj
      rw [modify_get] at hj
      split at hj
      · cases hg : s.timers[j]? with
        | none => rw [hg] at hj; cases hj
        | some t0 =>
          rw [hg] at hj
          simp only [Option.map_some, Option.some.injEq] at hj
          rw [← hj]; exact cancel_cancelled t0
      · rename_i hkj
        exact h.old j t hj (by rw [hc]; simpa using hkj)
    · intro h0
      simp [h.never h0]

/-- The events of a step that leaves timers and phase as they are. -/
theorem cur_log {s s' : St} {t : Timer.St} (h : Cur timeout s t) (hn : s'.now = s.now) (hp : s'.phase = s.phase)
    {e : Ev} (hl : s'.log = s.log ++ [e]) (h1 : turns e = false) (h2 : isCancelled e = false) : Cur timeout s' t := by
  obtain ⟨t0, hw, hd⟩ := h.deadline
  refine ⟨h.live, ⟨t0, hl ▸ waiting_snoc hw h1, hd⟩, fun h0 => hn ▸ h.due h0, ?_, hp ▸ h.phase⟩
  rw [hl, fired_snoc, h1, h2]
  simp [h.fired]

/-- Timers change, nothing else: allowed if each stays what it was in the invariant. -/
theorem inv_timers {s : St} (h : Inv timeout s) {ts : List Timer.St} {k : Nat} {t t' : Timer.St} (hk : s.timers[k]? = some t)
    (e : ts = s.timers.set k t') (hnow : t'.now = t.now) (hfew : t'.pending + t'.queued ≤ 1) (hcan : t'.cancelled = t.cancelled)
    (hcur : s.cur = some k → Cur timeout s t') : Inv timeout { s with timers := ts } := by
  subst e
  have hlt : k < s.timers.length := (List.getElem?_eq_some_iff.1 hk).1
  have hm := List.mem_of_getElem? hk
  have mem : ∀ x ∈ s.timers.set k t', x = t' ∨ x ∈ s.timers := by
    intro x hx
    rcases List.mem_or_eq_of_mem_set hx with hx | hx
    · exact .inr hx
    · exact .inl hx
  refine ⟨?_, ?_, ?_, ?_, h.armed, ?_, h.ops, h.arrived, h.aborted, h.each⟩
  · intro x hx
    rcases mem x hx with rfl | hx
    · rw [hnow]; exact h.clock t hm
    · exact h.clock x hx
  · intro x hx
    rcases mem x hx with rfl | hx
    · exact hfew
    · exact h.few x hx
  · intro j x hj hne
    simp only [] at hj hne
    rw [List.getElem?_set] at hj
    split at hj
    · rename_i hkj
      subst hkj
      have hj' : t' = x := by simpa [hlt] using hj
      rw [← hj', hcan]; exact h.old k t hk hne
    · exact h.old j x hj hne
  · intro j hj
    simp only [] at hj ⊢
    rw [List.getElem?_set]
    by_cases hkj : k = j
    · subst hkj
      exact ⟨t', by simp [hlt], ⟨(hcur hj).live, (hcur hj).deadline, (hcur hj).due, (hcur hj).fired, (hcur hj).phase⟩⟩
    · obtain ⟨x, hx, c⟩ := h.cur j hj
      exact ⟨x, by simp [hkj, hx], ⟨c.live, c.deadline, c.due, c.fired, c.phase⟩⟩
  · intro h0
    rw [h.never h0] at hk; simp at hk

theorem no_arrived {s : St} (h : Inv timeout s) (ho : s.op ≠ .complete .read .data) : ¬Arrived s.log := fun ha => ho (h.arrived.1 ha)

theorem phase_read {s : St} (h : Inv timeout s) {op : Op} (ho : s.op = op) (hr : op = .pending .read ∨ (∃ r, op = .complete .read r) := by simp) :
    s.phase = .waiting := by
  have hops := h.ops
  subst ho
  cases hph : s.phase <;> simp only [hph] at hops
  · rcases hops.2 with e | e | ⟨r, _, e⟩ <;> rw [e] at hr <;> simp at hr
  · rw [hops.1] at hr; simp at hr
  · rfl
  · rw [hops.2] at hr; simp at hr

theorem phase_write {s : St} (h : Inv timeout s) {op : Op} (ho : s.op = op) (hr : op = .pending .write ∨ (∃ r, op = .complete .write r) := by simp) :
    s.phase = .user := by
  have hops := h.ops
  subst ho
  cases hph : s.phase <;> simp only [hph] at hops
  · rfl
  · rw [hops.1] at hr; simp at hr
  · rcases hops.1 with e | ⟨r, e⟩ <;> rw [e] at hr <;> simp at hr
  · rw [hops.2] at hr; simp at hr

theorem inv_step {s s' : St} {x : Act} (h : Inv timeout s) (hx : s.step timeout x = some s') : Inv timeout s' := by
  have hops := h.ops
  cases x with
  | receive pipelined =>
    simp only [St.step] at hx
    split at hx
    · rename_i hc
      rw [hc.1] at hops
      simp only [Option.some.injEq] at hx
      subst hx
      cases pipelined with
      | false => exact inv_ask h hops.1 hc.2
      | true =>
        exact ⟨h.clock, h.few, h.old, (fun k hk => by simp only [if_true] at hk; rw [hops.1] at hk; cases hk),
          (fun _ hp => by rcases hp with hp | hp <;> cases hp), h.never, ⟨hops.1, hc.2⟩, h.arrived, h.aborted, h.each⟩
    · cases hx
  | begin =>
    simp only [St.step] at hx
    split at hx
    · rename_i hp
      rw [hp] at hops
      simp only [Option.some.injEq] at hx
      subst hx
      refine ⟨h.clock, h.few, h.old, ?_, fun h0 _ => h.armed h0 (.inl hp), h.never, ⟨.inl rfl, hops.2⟩, ?_, nofun, h.each⟩
      · intro k hk
        obtain ⟨t, ht, c⟩ := h.cur k hk
        exact ⟨t, ht, c.live, c.deadline, c.due, c.fired, .inr rfl⟩
      · exact ⟨fun ha => absurd ha (no_arrived (s := s) h (by rw [hops.1]; nofun)), nofun⟩
    · cases hx
  | arrive =>
    simp only [St.step] at hx
    split at hx
    · rename_i ho
      simp only [Option.some.injEq] at hx
      subst hx
      have hp : s.phase = .waiting := phase_read h ho
      rw [hp] at hops
      refine ⟨h.clock, h.few, h.old, ?_, h.armed, h.never, ?_, ?_, nofun, each_snoc h.each trivial⟩
      · intro k hk
        obtain ⟨t, ht, c⟩ := h.cur k hk
        exact ⟨t, ht, cur_log c rfl rfl rfl rfl rfl⟩
      · simp only [hp]
        obtain ⟨t0, hw⟩ := hops.2
        exact ⟨.inr ⟨_, rfl⟩, t0, waiting_snoc hw rfl⟩
      · simp only []
        rw [arrived_snoc]; simp [isArrived]
    · cases hx
  | fail =>
    simp only [St.step] at hx
    split at hx
    · rename_i k ho
      simp only [Option.some.injEq] at hx
      subst hx
      refine ⟨h.clock, h.few, h.old, ?_, h.armed, h.never, ?_, ?_, ?_, h.each⟩
      · intro k hk
        obtain ⟨t, ht, c⟩ := h.cur k hk
        exact ⟨t, ht, c.live, c.deadline, c.due, c.fired, c.phase⟩
      · simp only []
        cases hph : s.phase <;> rw [hph] at hops
        · rcases hops.2 with e | e | ⟨r, _, e⟩ <;> rw [ho] at e <;> cases e
          exact ⟨hops.1, .inr (.inr ⟨_, by simp, rfl⟩)⟩
        · have e := hops.1; rw [ho] at e; cases e
        · rcases hops.1 with e | ⟨r, e⟩ <;> rw [ho] at e <;> cases e
          exact ⟨.inr ⟨_, rfl⟩, hops.2⟩
        · have e := hops.2; rw [ho] at e; cases e
      · exact ⟨fun ha => absurd ha (no_arrived (s := s) h (by rw [ho]; nofun)), nofun⟩
      · simp
    · cases hx
  | handle =>
    simp only [St.step] at hx
    split at hx
    · rename_i r ho
      simp only [Option.some.injEq] at hx
      have hp : s.phase = .waiting := phase_read h ho
      rw [hp] at hops
      obtain ⟨t0, hw⟩ := hops.2
      obtain ⟨d1, d2, d3, d4, d5, d6⟩ := disarm_timers h
      have hj : Each (Just timeout) (s.log ++ [.got s.now r]) := by
        refine each_snoc h.each ⟨?_, t0, hw, ?_⟩
        · rw [h.arrived, ho]; simp
        · rintro rfl
          obtain ⟨t1, hw1, h1⟩ := h.aborted ho
          rw [waiting_unique hw hw1]; exact h1
      have hna : ¬Arrived (s.log ++ [.got s.now r]) := by rw [arrived_snoc]; simp [isArrived, isGot]
      by_cases hr : r = .data
      · simp only [hr, if_true] at hx hj hna
        subst hx
        refine ⟨?_, d2, fun k t hk _ => d3 k t hk, ?_, (fun _ hp => by rcases hp with hp | hp <;> cases hp), d4, ⟨d5, rfl⟩, ?_, nofun, hj⟩
        · intro t ht; simp only []; rw [d6]; exact d1 t ht
        · intro k hk; simp only [d5] at hk; cases hk
        · exact ⟨fun ha => absurd ha hna, nofun⟩
      · simp only [hr, if_false] at hx
        subst hx
        have hna' : ¬Arrived (s.log ++ [.got s.now r] ++ [.told s.disarm.now]) := by rw [arrived_snoc]; simp [isArrived, hna]
        refine ⟨?_, d2, fun k t hk _ => d3 k t hk, ?_, (fun _ hp => by rcases hp with hp | hp <;> cases hp), d4, ⟨d5, .inl rfl⟩, ?_, nofun,
          each_snoc hj trivial⟩
        · intro t ht; simp only []; rw [d6]; exact d1 t ht
        · intro k hk; simp only [d5] at hk; cases hk
        · exact ⟨fun ha => absurd ha hna', nofun⟩
    · cases hx
  | more =>
    simp only [St.step] at hx
    split at hx
    · rename_i hp
      rw [hp] at hops
      simp only [Option.some.injEq] at hx
      subst hx
      exact inv_ask h hops.1 hops.2
    · cases hx
  | finish =>
    simp only [St.step] at hx
    split at hx
    · rename_i hp
      rw [hp] at hops
      simp only [Option.some.injEq] at hx
      subst hx
      refine ⟨h.clock, h.few, h.old, (fun k hk => by rw [hops.1] at hk; cases hk), (fun _ hp => by rcases hp with hp | hp <;> cases hp),
        h.never, ⟨hops.1, .inl hops.2⟩, ?_, ?_, each_snoc h.each trivial⟩
      · simp only []
        rw [arrived_snoc, h.arrived, hops.2]; simp [isArrived]
      · simp only []; rw [hops.2]; nofun
    · cases hx
  | write =>
    simp only [St.step] at hx
    split at hx
    · rename_i hc
      rw [hc.1] at hops
      simp only [Option.some.injEq] at hx
      subst hx
      refine ⟨h.clock, h.few, h.old, (fun k hk => by rw [hops.1] at hk; cases hk), h.armed, h.never, ?_, ?_, nofun, h.each⟩
      · simp only [hc.1]; exact ⟨hops.1, .inr (.inl trivial)⟩
      · exact ⟨fun ha => absurd ha (no_arrived (s := s) h (by rw [hc.2]; nofun)), nofun⟩
    · cases hx
  | sent =>
    simp only [St.step] at hx
    split at hx
    · rename_i ho
      simp only [Option.some.injEq] at hx
      subst hx
      have hp : s.phase = .user := phase_write h ho
      rw [hp] at hops
      refine ⟨h.clock, h.few, h.old, (fun k hk => by rw [hops.1] at hk; cases hk), h.armed, h.never, ?_, ?_, nofun, h.each⟩
      · simp only [hp]; exact ⟨hops.1, .inr (.inr ⟨_, by simp, rfl⟩)⟩
      · exact ⟨fun ha => absurd ha (no_arrived (s := s) h (by rw [ho]; nofun)), nofun⟩
    · cases hx
  | handleWrite =>
    simp only [St.step] at hx
    split at hx
    · rename_i r ho
      simp only [Option.some.injEq] at hx
      subst hx
      have hp : s.phase = .user := phase_write h ho
      rw [hp] at hops
      have hr : r ≠ .aborted := by
        rcases hops.2 with e | e | ⟨r, h1, e⟩ <;> rw [ho] at e <;> cases e
        exact h1
      refine ⟨h.clock, h.few, h.old, (fun k hk => by rw [hops.1] at hk; cases hk), h.armed, h.never, ?_, ?_, nofun,
        each_snoc h.each hr⟩
      · simp only [hp]; exact ⟨hops.1, .inl trivial⟩
      · have := h.arrived
        rw [ho] at this
        simp only []
        rw [arrived_snoc, this]; simp [isArrived]
    · cases hx
  | tick n =>
    simp only [St.step, Option.some.injEq] at hx
    subst hx
    refine ⟨?_, ?_, ?_, ?_, h.armed, ?_, h.ops, h.arrived, ?_, h.each⟩
    · intro t ht
      obtain ⟨t0, h0, rfl⟩ := List.mem_map.1 ht
      simp [Timer.St.step, h.clock t0 h0]
    · intro t ht
      obtain ⟨t0, h0, rfl⟩ := List.mem_map.1 ht
      exact h.few t0 h0
    · intro k t hk hne
      simp only [List.getElem?_map, Option.map_eq_some_iff] at hk
      obtain ⟨t0, h0, rfl⟩ := hk
      exact h.old k t0 h0 hne
    · intro k hk
      obtain ⟨t, ht, c⟩ := h.cur k hk
      refine ⟨t.step (.tick n), by simp [ht], c.live, c.deadline, ?_, c.fired, c.phase⟩
      intro h0
      have := c.due h0
      simp only [Timer.St.step]; omega
    · intro h0; simp [h.never h0]
    · intro ho
      obtain ⟨t0, hw, h1, h2⟩ := h.aborted ho
      exact ⟨t0, hw, by simp only []; omega, h2⟩
  | expire k =>
    simp only [St.step] at hx
    split at hx
    · cases hx
    · rename_i t hk
      split at hx
      · rename_i hd
        simp only [Option.some.injEq] at hx
        subst hx
        have hm := List.mem_of_getElem? hk
        have hf := h.few t hm
        have e : t.expire = { t with queued := t.queued + t.pending, pending := 0, log := t.log ++ [.expired t.now] } := by
          simp [Timer.St.expire, hd]
        refine inv_timers h hk rfl (by rw [e]) (by rw [e]; simp only []; omega) (by rw [e]) ?_
        intro hc
        obtain ⟨t', ht', c⟩ := h.cur k hc
        rw [hk] at ht'; cases ht'
        rw [e]
        refine ⟨c.live, c.deadline, fun _ => ?_, ?_, c.phase⟩
        · have := h.clock t hm
          simp only []; omega
        · rw [c.fired]; simp only []; omega
      · cases hx
  | callback k =>
    simp only [St.step] at hx
    split at hx
    · cases hx
    · rename_i t hk
      split at hx
      · rename_i hq
        simp only [Option.some.injEq] at hx
        have hm := List.mem_of_getElem? hk
        have hf := h.few t hm
        have e1 : t.callback.now = t.now := by simp only [Timer.St.callback, hq, if_true]; split <;> rfl
        have e2 : t.callback.pending = t.pending ∧ t.callback.queued = t.queued - 1 ∧ t.callback.cancelled = t.cancelled ∧
            t.callback.deadline = t.deadline := by
          simp only [Timer.St.callback, hq, if_true]; split <;> exact ⟨rfl, rfl, rfl, rfl⟩
        by_cases hcan : t.cancelled = true
        · simp only [hcan, if_true] at hx
          subst hx
          refine inv_timers h hk rfl e1 (by omega) e2.2.2.1 ?_
          intro hc
          obtain ⟨t', ht', c⟩ := h.cur k hc
          rw [hk] at ht'; cases ht'
          rw [c.live] at hcan; cases hcan
        · simp only [hcan] at hx
          have hc : s.cur = some k := by
            by_contra hne
            exact hcan (h.old k t hk hne)
          obtain ⟨t', ht', c⟩ := h.cur k hc
          rw [hk] at ht'; cases ht'
          obtain ⟨t0, hw, hd⟩ := c.deadline
          have hdue := c.due (by omega)
          have ht : 0 < timeout := by
            by_contra h0
            rw [h.never (by omega)] at hk; simp at hk
          have hcp : s.phase = .armed ∨ s.phase = .waiting := c.phase
          -- the timers first
          have hw1 : WaitingSince (s.log ++ [.cancelled s.now]) t0 := waiting_snoc hw rfl
          have hf1 : Fired (s.log ++ [.cancelled s.now]) := by rw [fired_snoc]; exact .inl rfl
          have hj1 : Each (Just timeout) (s.log ++ [.cancelled s.now]) := each_snoc h.each ⟨t0, hw, by omega, ht⟩
          have ha1 : Arrived (s.log ++ [.cancelled s.now]) ↔ Arrived s.log := by rw [arrived_snoc]; simp [isArrived, isGot]
          have core : ∀ (op : Op) (log : List Ev), WaitingSince log t0 → Fired log → Each (Just timeout) log →
              (Arrived log ↔ op = .complete .read .data) →
              (s.phase = .armed ∧ op = .idle ∨ s.phase = .waiting ∧ ∃ r, op = .complete .read r) →
              Inv timeout { s with timers := s.timers.set k t.callback, op := op, log := log } := by
            intro op log h1 h2 h3 h4 h5
            have hlt : k < s.timers.length := (List.getElem?_eq_some_iff.1 hk).1
            refine ⟨?_, ?_, ?_, ?_, h.armed, ?_, ?_, h4, ?_, h3⟩
            · intro x hx
              rcases List.mem_or_eq_of_mem_set hx with hx | rfl
              · exact h.clock x hx
              · rw [e1]; exact h.clock t hm
            · intro x hx
              rcases List.mem_or_eq_of_mem_set hx with hx | rfl
              · exact h.few x hx
              · omega
            · intro j x hj hne
              simp only [] at hj hne
              rw [List.getElem?_set] at hj
              split at hj
              · rename_i hkj
                subst hkj
                exact absurd hc hne
              · exact h.old j x hj hne
            · intro j hj
              simp only [] at hj
              rw [hc] at hj; cases hj
              refine ⟨t.callback, by simp [hlt], by rw [e2.2.2.1]; exact c.live, ⟨t0, h1, by rw [e2.2.2.2]; exact hd⟩, ?_, ?_, c.phase⟩
              · intro _; rw [e2.2.2.2]; exact hdue
              · constructor
                · intro _; omega
                · intro _; exact h2
            · intro h0; omega
            · simp only []
              rcases h5 with ⟨hp, ho⟩ | ⟨hp, ho⟩ <;> simp only [hp]
              · exact ⟨ho, t0, h1⟩
              · exact ⟨.inr ho, t0, h1⟩
            · intro _; exact ⟨t0, h1, by simp only []; omega, ht⟩
          rcases hcp with hp | hp
          · rw [hp] at hops
            have e : s' = { s with timers := s.timers.set k t.callback, op := .idle, log := s.log ++ [.cancelled s.now] } := by
              rw [← hx]; simp [St.cancelConn, hops.1]
            rw [e]
            refine core _ _ hw1 hf1 hj1 ?_ (.inl ⟨hp, rfl⟩)
            rw [ha1, h.arrived, hops.1]
          · rw [hp] at hops
            rcases hops.1 with ho | ⟨r, ho⟩
            · have e : s' = { s with timers := s.timers.set k t.callback, op := .complete .read .aborted
                                     log := s.log ++ [.cancelled s.now] ++ [.aborted s.now .read] } := by
                rw [← hx]; simp [St.cancelConn, ho]
              rw [e]
              refine core _ _ (waiting_snoc hw1 rfl) ?_ (each_snoc hj1 ⟨rfl, t0, hw1, by omega, ht⟩) ?_ (.inr ⟨hp, _, rfl⟩)
              · rw [fired_snoc]; exact .inr ⟨rfl, hf1⟩
              · rw [arrived_snoc, ha1, h.arrived, ho]; simp [isArrived]
            · have e : s' = { s with timers := s.timers.set k t.callback, op := .complete .read r
                                     log := s.log ++ [.cancelled s.now] } := by
                rw [← hx]; simp [St.cancelConn, ho]
              rw [e]
              refine core _ _ hw1 hf1 hj1 ?_ (.inr ⟨hp, r, rfl⟩)
              rw [ha1, h.arrived, ho]
      · cases hx

theorem inv {l : List Act} {s : St} (h : run timeout l = some s) : Inv timeout s :=
  run_induct (P := fun _ s => Inv timeout s) inv_new (fun _ _ _ _ _ hi hx => inv_step hi hx) h

/-! ### Prompt schedules -/

structure PInv (timeout : Nat) (s : St) : Prop where
  armed : s.phase = .armed → WaitingSince s.log s.now ∧ ¬Fired s.log
  waiting : s.phase = .waiting → ∃ t0, WaitingSince s.log t0 ∧ s.now ≤ t0 + timeout
  unfired : s.op = .pending .read → ¬Fired s.log
  each : Each (fun pre e => ∀ t r, e = .got t r → ∃ t0, WaitingSince pre t0 ∧ t ≤ t0 + timeout) s.log

theorem ask_facts (s : St) : (s.ask timeout).phase = .armed ∧ (s.ask timeout).log = s.log ++ [.asked s.now] ∧
    (s.ask timeout).now = s.now ∧ (s.ask timeout).op = s.op := by
  simp only [St.ask]; split <;> exact ⟨rfl, rfl, rfl, rfl⟩

theorem pinv_ask {s : St} (h : PInv timeout s) (ho : s.op = .idle) : PInv timeout (s.ask timeout) := by
  obtain ⟨a1, a2, a3, a4⟩ := ask_facts (timeout := timeout) s
  refine ⟨fun _ => ?_, fun hp => ?_, fun h0 => ?_, ?_⟩
  · rw [a2, a3]
    refine ⟨waiting_asked .., ?_⟩
    rw [fired_snoc]; simp [isCancelled, turns]
  · rw [a1] at hp; cases hp
  · rw [a4, ho] at h0; cases h0
  · rw [a2]; exact each_snoc h.each nofun

theorem not_fired_snoc {log : List Ev} {e : Ev} (h : ¬Fired log) (he : isCancelled e = false) : ¬Fired (log ++ [e]) := by
  rw [fired_snoc, he]; simp [h]

theorem pinv_step (ht : 0 < timeout) {s s' : St} {x : Act} (hi : Inv timeout s) (h : PInv timeout s)
    (hr : ∀ n, x = .tick n → Rests s n) (hx : s.step timeout x = some s') : PInv timeout s' := by
  have hops := hi.ops
  cases x with
  | receive pipelined =>
    simp only [St.step] at hx
    split at hx
    · rename_i hc
      simp only [Option.some.injEq] at hx
      subst hx
      cases pipelined with
      | false => exact pinv_ask h hc.2
      | true => exact ⟨nofun, nofun, h.unfired, h.each⟩
    · cases hx
  | begin =>
    simp only [St.step] at hx
    split at hx
    · rename_i hp
      simp only [Option.some.injEq] at hx
      subst hx
      obtain ⟨h1, h2⟩ := h.armed hp
      exact ⟨nofun, fun _ => ⟨_, h1, by simp only []; omega⟩, fun _ => h2, h.each⟩
    · cases hx
  | arrive =>
    simp only [St.step] at hx
    split at hx
    · rename_i ho
      simp only [Option.some.injEq] at hx
      subst hx
      have hp := phase_read hi ho
      obtain ⟨t0, hw, hn⟩ := h.waiting hp
      exact ⟨(fun h0 => by simp only [hp] at h0; cases h0), fun _ => ⟨t0, waiting_snoc hw rfl, hn⟩, nofun, each_snoc h.each nofun⟩
    · cases hx
  | fail =>
    simp only [St.step] at hx
    split at hx
    · simp only [Option.some.injEq] at hx
      subst hx
      exact ⟨h.armed, h.waiting, nofun, h.each⟩
    · cases hx
  | handle =>
    simp only [St.step] at hx
    split at hx
    · rename_i r ho
      simp only [Option.some.injEq] at hx
      have hp := phase_read hi ho
      obtain ⟨t0, hw, hn⟩ := h.waiting hp
      have hj := each_snoc (e := .got s.now r) h.each (fun t r' e => by cases e; exact ⟨t0, hw, hn⟩)
      by_cases hr : r = .data
      · simp only [hr, if_true] at hx
        subst hx
        exact ⟨nofun, nofun, nofun, hr ▸ hj⟩
      · simp only [hr, if_false] at hx
        subst hx
        exact ⟨nofun, nofun, nofun, each_snoc hj nofun⟩
    · cases hx
  | more =>
    simp only [St.step] at hx
    split at hx
    · rename_i hp
      rw [hp] at hops
      simp only [Option.some.injEq] at hx
      subst hx
      exact pinv_ask h hops.2
    · cases hx
  | finish =>
    simp only [St.step] at hx
    split at hx
    · rename_i hp
      rw [hp] at hops
      simp only [Option.some.injEq] at hx
      subst hx
      exact ⟨nofun, nofun, (fun h0 => by simp only [hops.2] at h0; cases h0), each_snoc h.each nofun⟩
    · cases hx
  | write =>
    simp only [St.step] at hx
    split at hx
    · simp only [Option.some.injEq] at hx
      subst hx
      exact ⟨h.armed, h.waiting, nofun, h.each⟩
    · cases hx
  | sent =>
    simp only [St.step] at hx
    split at hx
    · simp only [Option.some.injEq] at hx
      subst hx
      exact ⟨h.armed, h.waiting, nofun, h.each⟩
    · cases hx
  | handleWrite =>
    simp only [St.step] at hx
    split at hx
    · rename_i r ho
      simp only [Option.some.injEq] at hx
      subst hx
      have hp := phase_write hi ho
      exact ⟨(fun h0 => by simp only [hp] at h0; cases h0), (fun h0 => by simp only [hp] at h0; cases h0), nofun, each_snoc h.each nofun⟩
    · cases hx
  | tick n =>
    simp only [St.step, Option.some.injEq] at hx
    subst hx
    obtain ⟨r1, r2, r3, r4⟩ := hr n rfl
    refine ⟨fun h0 => absurd h0 r1, fun hp => ?_, h.unfired, h.each⟩
    simp only [] at hp
    obtain ⟨t0, hw, hn⟩ := h.waiting hp
    refine ⟨t0, hw, ?_⟩
    rw [hp] at hops
    rcases hops.1 with ho | ⟨r, ho⟩
    · cases hc : s.cur with
      | none => exact absurd hc (hi.armed ht (.inr hp))
      | some k =>
        obtain ⟨t, hk, c⟩ := hi.cur k hc
        have hm := List.mem_of_getElem? hk
        obtain ⟨t1, hw1, hd⟩ := c.deadline
        have := waiting_unique hw1 hw
        subst this
        have hpq : t.pending + t.queued ≠ 0 := fun h0 => h.unfired ho (c.fired.2 h0)
        have := (r4 t hm).2 (by have := (r4 t hm).1; omega)
        simp only []; omega
    · exact absurd ho (r3 _ _)
  | expire k =>
    simp only [St.step] at hx
    split at hx
    · cases hx
    · split at hx
      · simp only [Option.some.injEq] at hx
        subst hx
        exact ⟨h.armed, h.waiting, h.unfired, h.each⟩
      · cases hx
  | callback k =>
    simp only [St.step] at hx
    split at hx
    · cases hx
    · rename_i t hk
      split at hx
      · rename_i hq
        simp only [Option.some.injEq] at hx
        by_cases hcan : t.cancelled = true
        · simp only [hcan, if_true] at hx
          subst hx
          exact ⟨h.armed, h.waiting, h.unfired, h.each⟩
        · simp only [hcan] at hx
          have hc : s.cur = some k := by
            by_contra hne
            exact hcan (hi.old k t hk hne)
          obtain ⟨t', ht', c⟩ := hi.cur k hc
          rw [hk] at ht'; cases ht'
          have hfew := hi.few t (List.mem_of_getElem? hk)
          obtain ⟨t0, hw, hd⟩ := c.deadline
          have hdue := c.due (by omega)
          rcases c.phase with hp | hp
          · have := waiting_unique (h.armed hp).1 hw
            omega
          · obtain ⟨t1, hw1, hn1⟩ := h.waiting hp
            have hj := each_snoc (e := .cancelled s.now) h.each nofun
            have hw2 := waiting_snoc (e := .cancelled s.now) hw1 rfl
            rw [hp] at hops
            rcases hops.1 with ho | ⟨r, ho⟩
            · have e : s' = { s with timers := s.timers.set k t.callback, op := .complete .read .aborted
                                     log := s.log ++ [.cancelled s.now] ++ [.aborted s.now .read] } := by
                rw [← hx]; simp [St.cancelConn, ho]
              rw [e]
              exact ⟨(fun h0 => by simp only [hp] at h0; cases h0), fun _ => ⟨t1, waiting_snoc hw2 rfl, hn1⟩, nofun, each_snoc hj nofun⟩
            · have e : s' = { s with timers := s.timers.set k t.callback, log := s.log ++ [.cancelled s.now] } := by
                rw [← hx]; simp [St.cancelConn, ho]
              rw [e]
              exact ⟨(fun h0 => by simp only [hp] at h0; cases h0), fun _ => ⟨t1, hw2, hn1⟩, (fun h0 => by simp only [ho] at h0; cases h0), hj⟩
      · cases hx

theorem prompt_inv (ht : 0 < timeout) {l : List Act} {s : St} (h : run timeout l = some s) (hp : Prompt timeout l) : PInv timeout s := by
  refine run_induct (P := fun l s => Prompt timeout l → PInv timeout s) ?_ ?_ h hp
  · intro _
    exact ⟨nofun, nofun, nofun, fun pre e post h0 => by simp at h0⟩
  · intro l s x s' hl ih hx hpr
    have hpr' : Prompt timeout l := fun a n b s0 e h0 => hpr a n (b ++ [x]) s0 (by rw [e]; simp) h0
    exact pinv_step ht (inv hl) (ih hpr') (fun n e => hpr l n [] s (by rw [e]) hl) hx

end Verif.ReadTimer
