import Verif.Spec.Scheduler
import Mathlib.Tactic.Common
import Mathlib.Data.List.Nodup
import Mathlib.Data.List.Range
/-
Invariants of the scheduler.
-/
namespace Verif.Sched
open Verif.Spec.Sched

theorem setPc_same (pc : Nat → Pc) (t : Nat) (p : Pc) : setPc pc t p t = p := by simp [setPc]

theorem setPc_other (pc : Nat → Pc) {t i : Nat} (p : Pc) (h : i ≠ t) : setPc pc t p i = pc i := by simp [setPc, h]

theorem notifyUsers_eq (pc : Nat → Pc) (i : Nat) : notifyUsers pc i ≠ .shutWait false ∧
    ((notifyUsers pc i = .addCount) ↔ pc i = .addCount) ∧
    ((notifyUsers pc i = .joinWait false) ↔ pc i = .joinWait false) := by
  unfold notifyUsers
  cases pc i <;> simp

theorem notifyStopped_eq (pc : Nat → Pc) (i : Nat) : notifyStopped pc i ≠ .joinWait false ∧
    ((notifyStopped pc i = .addCount) ↔ pc i = .addCount) ∧
    ((notifyStopped pc i = .shutWait false) ↔ pc i = .shutWait false) := by
  unfold notifyStopped
  cases pc i <;> simp

theorem Reach.mono {ok ok' : St → Nat → Act → Prop} (h : ∀ s t a, ok s t a → ok' s t a) {s : St}
    (hr : Reach ok s) : Reach ok' s := by
  induction hr with
  | init => exact .init
  | step _ ho hs ih => exact .step ih (h _ _ _ ho) hs

/-- The counter is the number of users, modulo 2^32. -/
theorem users_eq {ok : St → Nat → Act → Prop} {s : St} (hr : Reach ok s) :
    s.users = UInt32.ofNat (adds s) - UInt32.ofNat (removes s) := by
  induction hr with
  | init => decide
  | @step s s' t a _ _ hs ih =>
    unfold St.step at hs
    split at hs <;> (try cases hs) <;> simp only [adds, removes] at ih ⊢
    · exact ih
    · exact ih
    · exact ih
    · simp only [List.count_append, List.count_singleton_self, ih]
      simp
      grind
    · simp only [List.count_append, List.count_singleton_self, ih]
      simp
      grind
    · split
      · unfold St.shutLoop
        split
        · exact ih
        · simpa [St.finish] using ih
      · simpa [St.finish] using ih
    · unfold St.shutLoop
      split
      · exact ih
      · simpa [St.finish] using ih
    · unfold St.joinLoop
      split
      · exact ih
      · simpa using ih
    · unfold St.joinLoop
      split
      · exact ih
      · simpa using ih

/-- A call of `shutdown` that found the scheduler running returns only when the counter is zero. -/
theorem completes_users {s : St} {t : Nat} {a : Act} (h : Completes s t a true) : s.users = 0 := by
  obtain ⟨s', hs, hl⟩ := h
  unfold St.step at hs
  split at hs <;> (try cases hs) <;> (try simp at hl)
  · split at hl
    · unfold St.shutLoop at hl
      split at hl
      · simp at hl
      · rename_i h; simpa using h
    · simp [St.finish] at hl
  · unfold St.shutLoop at hl
    split at hl
    · simp at hl
    · rename_i h; simpa using h
  · unfold St.joinLoop at hl
    split at hl <;> simp at hl
  · unfold St.joinLoop at hl
    split at hl <;> simp at hl

/-- A call of `shutdown` that returns without having found the scheduler running. -/
theorem completes_stopped {s : St} {t : Nat} {a : Act} (h : Completes s t a false) : s.running = false := by
  obtain ⟨s', hs, hl⟩ := h
  unfold St.step at hs
  split at hs <;> (try cases hs) <;> (try simp at hl)
  · split at hl
    · unfold St.shutLoop at hl
      split at hl <;> simp [St.finish] at hl
    · rename_i h; simpa using h
  · unfold St.shutLoop at hl
    split at hl <;> simp [St.finish] at hl
  · unfold St.joinLoop at hl
    split at hl <;> simp at hl
  · unfold St.joinLoop at hl
    split at hl <;> simp at hl

/-- Steps and the numbers of calls that have returned. -/
theorem counts_step {s s' : St} {t : Nat} {a : Act} (h : s.step t a = some s') :
    (adds s' = adds s + (if s.pc t = .addCount then 1 else 0)) ∧
    (removes s' = removes s + (if a = .remove then 1 else 0)) := by
  unfold St.step at h
  split at h <;> (try cases h) <;> rename_i hp <;> simp only [adds, removes, hp]
  · simp
  · simp
  · simp
  · simp
  · simp
  · split
    · unfold St.shutLoop
      split <;> simp [St.finish]
    · simp [St.finish]
  · unfold St.shutLoop
    split <;> simp [St.finish]
  · unfold St.joinLoop
    split <;> simp
  · unfold St.joinLoop
    split <;> simp

theorem paired_bounds {s : St} (hr : Reach Paired s) : removes s ≤ adds s ∧ adds s < removes s + 2 ^ 32 := by
  induction hr with
  | init => decide
  | @step s s' t a _ ho hs ih =>
    obtain ⟨h1, h2⟩ := counts_step hs
    rw [h1, h2]
    obtain ⟨o1, o2⟩ := ho
    by_cases ha : a = .remove
    · have hpc : s.pc t = .idle := by
        subst ha
        unfold St.step at hs
        split at hs <;> simp_all
      have := o1 ha
      simp [ha, hpc]
      omega
    · by_cases hp : s.pc t = .addCount
      · have := o2 hp
        simp [ha, hp]
        omega
      · simp [ha, hp]
        omega

theorem paired_users {s : St} (hr : Reach Paired s) : s.users.toNat = adds s - removes s := by
  obtain ⟨h1, h2⟩ := paired_bounds hr
  have : s.users = UInt32.ofNat (adds s - removes s) := by
    have h3 : adds s = (adds s - removes s) + removes s := by omega
    rw [users_eq hr, h3, UInt32.ofNat_add]
    simp
  rw [this]
  simp
  omega

/-- A thread waiting in `shutdown` without having been notified: there still are users. -/
theorem waiting_users {s : St} (hr : Reach Paired s) : ∀ i, s.pc i = .shutWait false → s.users ≠ 0 := by
  induction hr with
  | init => intro i h; cases h
  | @step s s' t a hr ho hs ih =>
    have hr' := Reach.step hr ho hs
    have hu' := paired_users hr'
    intro i
    unfold St.step at hs
    split at hs <;> (try cases hs) <;> rename_i hp
    · exact ih i
    · by_cases hi : i = t
      · subst hi; simp only [setPc_same]; split <;> simp
      · simp only [setPc_other _ _ hi]; exact ih i
    · by_cases hi : i = t
      · subst hi; simp only [setPc_same]; simp
      · simp only [setPc_other _ _ hi]; exact ih i
    · intro _ h0
      have h1 := paired_bounds hr
      have h2 := ho.2 hp
      have h0' : s.users + 1 = 0 := h0
      simp only [h0'] at hu'
      simp [adds, removes] at hu' h1 h2
      omega
    · simp only []
      split
      · intro h; exact absurd h (notifyUsers_eq s.pc i).1
      · intro _ h; contradiction
    · split
      · unfold St.shutLoop
        split
        · rename_i h0
          intro _ h
          have h' : s.users = 0 := h
          rw [h'] at h0
          exact absurd h0 (by decide)
        · by_cases hi : i = t
          · subst hi; simp [St.finish, setPc_same]
          · simp only [St.finish, setPc_other _ _ hi, (notifyStopped_eq s.pc i).2.2]; exact ih i
      · by_cases hi : i = t
        · subst hi; simp [St.finish, setPc_same]
        · simp only [St.finish, setPc_other _ _ hi, (notifyStopped_eq s.pc i).2.2]; exact ih i
    · unfold St.shutLoop
      split
      · rename_i h0
        intro _ h
        have h' : s.users = 0 := h
        rw [h'] at h0
        exact absurd h0 (by decide)
      · by_cases hi : i = t
        · subst hi; simp [St.finish, setPc_same]
        · simp only [St.finish, setPc_other _ _ hi, (notifyStopped_eq s.pc i).2.2]; exact ih i
    · unfold St.joinLoop
      by_cases hi : i = t
      · subst hi; split <;> simp [setPc_same]
      · split <;> simp only [setPc_other _ _ hi] <;> exact ih i
    · unfold St.joinLoop
      by_cases hi : i = t
      · subst hi; split <;> simp [setPc_same]
      · split <;> simp only [setPc_other _ _ hi] <;> exact ih i

/-- A thread waiting in `join` without having been notified: the scheduler still runs. -/
theorem waiting_running {ok : St → Nat → Act → Prop} {s : St} (hr : Reach ok s) :
    ∀ i, s.pc i = .joinWait false → s.running = true := by
  induction hr with
  | init => intro i h; cases h
  | @step s s' t a hr ho hs ih =>
    intro i
    unfold St.step at hs
    split at hs <;> (try cases hs) <;> rename_i hp
    · intro _; rfl
    · by_cases hi : i = t
      · subst hi; simp only [setPc_same]; split <;> simp
      · simp only [setPc_other _ _ hi]; exact ih i
    · intro _; rfl
    · by_cases hi : i = t
      · subst hi; simp only [setPc_same]; simp
      · simp only [setPc_other _ _ hi]; exact ih i
    · simp only []
      split
      · rw [(notifyUsers_eq s.pc i).2.2]; exact ih i
      · exact ih i
    · split
      · unfold St.shutLoop
        split
        · intro _; assumption
        · by_cases hi : i = t
          · subst hi; simp [St.finish, setPc_same]
          · simp only [St.finish, setPc_other _ _ hi]
            intro h; exact absurd h (notifyStopped_eq s.pc i).1
      · by_cases hi : i = t
        · subst hi; simp [St.finish, setPc_same]
        · simp only [St.finish, setPc_other _ _ hi]
          intro h; exact absurd h (notifyStopped_eq s.pc i).1
    · unfold St.shutLoop
      by_cases hi : i = t
      · subst hi; split <;> simp [St.finish, setPc_same]
      · split
        · simp only [setPc_other _ _ hi]; exact ih i
        · simp only [St.finish, setPc_other _ _ hi]
          intro h; exact absurd h (notifyStopped_eq s.pc i).1
    · unfold St.joinLoop
      by_cases hi : i = t
      · subst hi; split <;> simp_all [setPc_same]
      · split <;> simp only [setPc_other _ _ hi] <;> exact ih i
    · unfold St.joinLoop
      by_cases hi : i = t
      · subst hi; split <;> simp_all [setPc_same]
      · split <;> simp only [setPc_other _ _ hi] <;> exact ih i

theorem calm_paired {s : St} (hr : Reach Calm s) : Reach Paired s := Reach.mono (fun _ _ _ h => h.1) hr

theorem calm_inv {s : St} (hr : Reach Calm s) :
    s.running = true ∨ (adds s = removes s ∧ ∀ i, s.pc i ≠ .addCount) := by
  induction hr with
  | init => exact .inr ⟨rfl, fun _ h => by cases h⟩
  | @step s s' t a hr ho hs ih =>
    have hb := paired_bounds (calm_paired hr)
    have hc := counts_step hs
    have hs0 := hs
    have hfin : ∀ b, s' = s.finish t b → adds s = removes s →
        s'.running = true ∨ (adds s' = removes s' ∧ ∀ i, s'.pc i ≠ .addCount) := by
      intro b hb he
      subst hb
      refine .inr ⟨by simpa [adds, removes, St.finish] using he, fun i => ?_⟩
      have := ho.2 ⟨b, _, hs0, rfl⟩
      by_cases hi : i = t
      · subst hi; simp [St.finish, setPc_same]
      · simp only [St.finish, setPc_other _ _ hi, ne_eq, (notifyStopped_eq s.pc i).2.1]
        exact this i
    have hzero : s.users = 0 → adds s = removes s := by
      intro h0
      have := paired_users (calm_paired hr)
      rw [h0] at this
      simp at this
      omega
    have hsame : ∀ p, p ≠ .addCount → (∀ i, s.pc i ≠ .addCount) → ∀ i, setPc s.pc t p i ≠ .addCount := by
      intro p hp h i
      by_cases hi : i = t
      · subst hi; simpa [setPc_same] using hp
      · simp only [setPc_other _ _ hi]; exact h i
    unfold St.step at hs
    split at hs <;> (try cases hs) <;> rename_i hp
    · exact .inl rfl
    · rcases ih with ih | ih
      · exact .inl ih
      · cases hrun : s.running with
        | true => exact .inl rfl
        | false =>
          refine .inr ⟨ih.1, ?_⟩
          exact hsame _ (by simp) ih.2
    · exact .inl rfl
    · rcases ih with ih | ih
      · exact .inl ih
      · exact absurd hp (ih.2 t)
    · rcases ih with ih | ih
      · exact .inl ih
      · have := ho.1.1 rfl
        omega
    · by_cases hrun : s.running = true
      · rw [if_pos hrun] at hfin ⊢
        unfold St.shutLoop at hfin ⊢
        by_cases h0 : s.users > 0
        · rw [if_pos h0]; exact .inl hrun
        · rw [if_neg h0] at hfin ⊢
          exact hfin true rfl (hzero (by simpa using h0))
      · rw [if_neg hrun] at hfin ⊢
        rcases ih with ih | ih
        · contradiction
        · exact hfin false rfl ih.1
    · unfold St.shutLoop at hfin ⊢
      by_cases h0 : s.users > 0
      · rw [if_pos h0]
        rcases ih with ih | ih
        · exact .inl ih
        · exact .inr ⟨ih.1, hsame _ (by simp) ih.2⟩
      · rw [if_neg h0] at hfin ⊢
        exact hfin true rfl (hzero (by simpa using h0))
    all_goals
      unfold St.joinLoop
      split
      · left; assumption
      · rcases ih with ih | ih
        · contradiction
        · exact .inr ⟨by simpa [adds, removes] using ih.1, hsame _ (by simp) ih.2⟩

/- The pool of services. -/

theorem grow_length (p : Pool) : p.threads.toNat ≤ p.grow.services.length := by
  simp [Pool.grow]
  omega

theorem grow_full (p : Pool) (h : p.threads.toNat ≤ p.services.length) : p.grow = p := by
  obtain ⟨a, b, c, d⟩ := p
  simp only [] at h
  simp [Pool.grow, Nat.sub_eq_zero_of_le h]

/-- The index used by the next call. -/
def Pool.index (p : Pool) : Nat := if p.next.toNat + 1 ≥ p.threads.toNat then 0 else p.next.toNat + 1

/-- `m_next_service` cannot wrap around. -/
theorem next_index (p : Pool) (h : p.next.toNat < 2 ^ 32 - 1) :
    (if p.next + 1 ≥ p.threads then (0 : UInt32) else p.next + 1).toNat = p.index := by
  have h1 : (p.next + 1).toNat = p.next.toNat + 1 := by
    rw [UInt32.toNat_add]; simp; omega
  unfold Pool.index
  by_cases h2 : p.next.toNat + 1 ≥ p.threads.toNat
  · rw [if_pos h2, if_pos]
    · rfl
    · rw [ge_iff_le, UInt32.le_iff_toNat_le, h1]; exact h2
  · rw [if_neg h2, if_neg, h1]
    rw [ge_iff_le, UInt32.le_iff_toNat_le, h1]; exact h2

theorem index_lt (p : Pool) (h : 0 < p.threads.toNat) : p.index < p.threads.toNat := by
  unfold Pool.index
  split <;> omega

theorem get_eq (p : Pool) (h : p.next.toNat < 2 ^ 32 - 1) (hn : 0 < p.threads.toNat) :
    p.get.2 = p.grow.services[p.index]? ∧ p.get.1.services = p.grow.services ∧ p.get.1.threads = p.threads ∧
      p.get.1.next.toNat = p.index ∧ p.get.1.fresh = p.grow.fresh := by
  have hi := next_index p h
  have hl := index_lt p hn
  refine ⟨?_, rfl, rfl, hi, rfl⟩
  unfold Pool.get
  simp only []
  rw [if_pos]
  · exact congrArg (fun k => p.grow.services[k]?) hi
  · rw [UInt32.lt_iff_toNat_lt]
    exact hi ▸ hl

theorem next_lt (ops : List POp) : ∀ p : Pool, p.next.toNat < 2 ^ 32 - 1 → (p.run ops).next.toNat < 2 ^ 32 - 1 := by
  induction ops with
  | nil => intro p h; exact h
  | cons o os ih =>
    intro p h
    refine ih _ ?_
    cases o with
    | get =>
      have hi := next_index p h
      change (if p.next + 1 ≥ p.threads then (0 : UInt32) else p.next + 1).toNat < _
      rw [hi]
      have := p.threads.toNat_lt
      unfold Pool.index
      split <;> omega
    | startup => exact h
    | shutdown => exact h
    | setThreads n => exact h

/-- The services of a pool are different objects. -/
def Pool.Ok (p : Pool) : Prop := p.services.Nodup ∧ ∀ x ∈ p.services, x < p.fresh

theorem grow_ok {p : Pool} (h : p.Ok) : p.grow.Ok := by
  obtain ⟨h1, h2⟩ := h
  constructor
  · simp only [Pool.grow]
    rw [List.nodup_append]
    refine ⟨h1, ?_, ?_⟩
    · exact List.Nodup.map (fun a b h => by omega) List.nodup_range
    · intro x hx y hy
      obtain ⟨k, _, rfl⟩ := List.mem_map.mp hy
      have := h2 x hx
      omega
  · intro x hx
    simp only [Pool.grow, List.mem_append, List.mem_map, List.mem_range] at hx ⊢
    rcases hx with hx | ⟨k, hk, rfl⟩
    · have := h2 x hx
      omega
    · omega

theorem run_ok (ops : List POp) : ∀ p : Pool, p.Ok → (p.run ops).Ok := by
  induction ops with
  | nil => intro p h; exact h
  | cons o os ih =>
    intro p h
    refine ih _ ?_
    cases o with
    | get => exact grow_ok (p := p) h
    | startup => exact grow_ok h
    | shutdown => exact ⟨List.nodup_nil, by simp [Pool.op]⟩
    | setThreads n => exact h

/-- Calls in a row go round. -/
theorem gets_eq (k : Nat) : ∀ p : Pool, p.next.toNat < 2 ^ 32 - 1 → 0 < p.threads.toNat →
    (p.gets k).2 = (List.range k).map fun j => p.grow.services[(p.index + j) % p.threads.toNat]? := by
  induction k with
  | zero => intro p _ _; rfl
  | succ k ih =>
    intro p h hn
    obtain ⟨h1, h2, h3, h4, h5⟩ := get_eq p h hn
    have hl := index_lt p hn
    have hlt := p.threads.toNat_lt
    have := ih p.get.1 (by rw [h4]; omega) (by rw [h3]; exact hn)
    have hg : p.get.1.grow.services = p.grow.services := by
      rw [grow_full _ (by rw [h2, h3]; exact grow_length p), h2]
    simp only [Pool.gets]
    rw [this, h1, h3, hg, List.range_succ_eq_map, List.map_cons, List.map_map]
    congr 1
    · rw [Nat.add_zero, Nat.mod_eq_of_lt hl]
    · apply List.map_congr_left
      intro j _
      simp only [Function.comp]
      congr 1
      have hi : p.get.1.index % p.threads.toNat = (p.index + 1) % p.threads.toNat := by
        unfold Pool.index
        rw [h3, h4]
        split
        · have : p.index + 1 = p.threads.toNat := by omega
          change 0 % _ = (p.index + 1) % _
          rw [this, Nat.mod_self, Nat.zero_mod]
        · rfl
      rw [Nat.add_mod, hi, ← Nat.add_mod]
      congr 1
      omega

end Verif.Sched
