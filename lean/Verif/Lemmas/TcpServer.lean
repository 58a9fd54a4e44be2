import Verif.Spec.TcpServer
import Mathlib.Tactic.Common
import Mathlib.Data.List.Nodup
import Mathlib.Data.List.Perm.Subperm
/-
Invariants of the TCP server.
-/
namespace Verif.TcpServer
open Verif.Spec.TcpServer

theorem upd_same (f : Nat → Status) (c : Nat) (v : Status) : upd f c v c = v := by simp [upd]

theorem upd_other (f : Nat → Status) {c i : Nat} (v : Status) (h : i ≠ c) : upd f c v i = f i := by simp [upd, h]

theorem Reach.mono {ok ok' : St → Act → Prop} (h : ∀ s a, ok s a → ok' s a) {s : St} (hr : Reach ok s) :
    Reach ok' s := by
  induction hr with
  | init => exact .init
  | step _ ho hs ih => exact .step ih (h _ _ ho) hs

/-- The pool has the connections that are not finished, each once. -/
structure Inv (s : St) : Prop where
  nodup : s.pool.Nodup
  mem : ∀ c, c ∈ s.pool ↔ Alive s c
  fresh : ∀ c, s.next ≤ c → s.status c = .absent

theorem Inv.init : Inv {} := ⟨List.nodup_nil, fun c => by simp [Alive], fun _ _ => rfl⟩

/-- Changing the status of a connection in the pool to another one that is not finished. -/
theorem Inv.change {s : St} (h : Inv s) {c : Nat} {v : Status} (hc : Alive s c) (hv : v ≠ .absent ∧ v ≠ .finished)
    (s' : St) (hp : s'.pool = s.pool) (hs : s'.status = upd s.status c v) (hn : s'.next = s.next) : Inv s' := by
  refine ⟨hp ▸ h.nodup, fun i => ?_, fun i hi => ?_⟩
  · rw [hp, h.mem]
    unfold Alive
    rw [hs]
    by_cases hi : i = c
    · subst hi; simp only [upd_same]; exact ⟨fun _ => hv, fun _ => hc⟩
    · simp only [upd_other _ _ hi]
  · rw [hs]
    rw [hn] at hi
    by_cases hic : i = c
    · subst hic; exact absurd (h.fresh i hi) hc.1
    · rw [upd_other _ _ hic]; exact h.fresh i hi

theorem Inv.same {s : St} (h : Inv s) (s' : St) (hp : s'.pool = s.pool) (hs : s'.status = s.status)
    (hn : s'.next = s.next) : Inv s' :=
  ⟨hp ▸ h.nodup, fun i => by rw [hp, h.mem]; unfold Alive; rw [hs], fun i hi => by rw [hs]; exact h.fresh i (hn ▸ hi)⟩

theorem Inv.prune {s : St} (h : Inv s) : Inv s.prune := by
  refine ⟨h.nodup.filter _, fun c => ?_, fun c hc => ?_⟩
  · simp only [St.prune, List.mem_filter, h.mem, Alive, decide_eq_true_eq]
    by_cases ho : s.status c = .orphan <;> simp [ho]
  · simp only [St.prune]
    rw [h.fresh c hc]
    simp

theorem Inv.listen {s : St} (h : Inv s) : Inv s.listen := by
  unfold St.listen
  split
  · have hp := h.prune
    have hnew : s.prune.next ∉ s.prune.pool := by
      intro hm
      exact ((hp.mem _).mp hm).1 (hp.fresh _ (Nat.le_refl _))
    refine ⟨?_, fun c => ?_, fun c hc => ?_⟩
    · simp only []
      rw [List.nodup_append]
      refine ⟨hp.nodup, by simp, ?_⟩
      intro a ha b hb
      simp only [List.mem_singleton] at hb
      rintro rfl
      exact hnew (hb ▸ ha)
    · simp only [List.mem_append, List.mem_singleton, Alive]
      by_cases hi : c = s.prune.next
      · subst hi; simp [upd_same]
      · rw [upd_other _ _ hi, hp.mem]
        simp [Alive, hi]
    · simp only [] at hc ⊢
      rw [upd_other _ _ (by omega)]
      exact hp.fresh c (by omega)
  · exact h

theorem Inv.remove {s : St} (h : Inv s) (c : Nat) (hc : Alive s c) : Inv (s.remove c) := by
  refine ⟨h.nodup.erase c, fun i => ?_, fun i hi => ?_⟩
  · simp only [St.remove, Alive]
    rw [h.nodup.mem_erase_iff, h.mem]
    by_cases hi : i = c
    · subst hi; simp [upd_same]
    · simp [upd_other _ _ hi, hi, Alive]
  · simp only [St.remove]
    by_cases hic : i = c
    · subst hic; exact absurd (h.fresh i hi) hc.1
    · rw [upd_other _ _ hic]; exact h.fresh i hi

theorem Inv.step {s s' : St} {a : Act} (h : Inv s) (hs : s.step a = some s') : Inv s' := by
  unfold St.step at hs
  cases a with
  | start =>
    simp only [] at hs
    split at hs
    · cases hs
    · split at hs <;> cases hs
      · exact h
      · exact h.same _ rfl rfl rfl
  | startListen =>
    simp only [] at hs
    split at hs
    · cases hs
    · cases hs; exact h.listen.same _ rfl rfl rfl
  | accept c ok =>
    simp only [] at hs
    split at hs
    · rename_i hc; cases hs
      exact h.change (c := c) (by simp [Alive, hc]) (by simp) _ rfl rfl rfl
    · cases hs
  | listen c =>
    simp only [] at hs
    split at hs
    · rename_i ok hc
      split at hs
      · cases hs
      · cases hs
        have h1 : Inv ({ s with status := upd s.status c (.accepted ok false) } : St) :=
          h.change (c := c) (by simp [Alive, hc]) (v := .accepted ok false) (by simp) _ rfl rfl rfl
        exact h1.listen
    · cases hs
  | serve c =>
    simp only [] at hs
    split at hs
    · rename_i hc; cases hs
      exact h.change (c := c) (by simp [Alive, hc]) (by simp) _ rfl rfl rfl
    · cases hs
  | fail c =>
    simp only [] at hs
    split at hs
    · rename_i hc; cases hs
      simp only [St.finish, Bool.and_false]
      exact h.remove c (by simp [Alive, hc.1])
    · cases hs
  | finish c keep nested =>
    simp only [] at hs
    split at hs
    · rename_i hc; cases hs
      unfold St.finish
      split
      · exact h.same _ rfl rfl rfl
      · exact h.remove c (by simp [Alive, hc.1])
    · cases hs
  | drop c =>
    simp only [] at hs
    split at hs
    · rename_i hc; cases hs
      exact h.change (c := c) (by simp [Alive, hc]) (by simp) _ rfl rfl rfl
    · cases hs
  | stop =>
    simp only [] at hs
    split at hs
    · cases hs
    · split at hs <;> cases hs <;> exact h.same _ rfl rfl rfl
  | stopLoop =>
    simp only [] at hs
    split at hs
    · cases hs
    · split at hs <;> cases hs
      · exact h.prune.same _ rfl rfl rfl
      · exact h.prune

theorem reach_inv {ok : St → Act → Prop} {s : St} (hr : Reach ok s) : Inv s := by
  induction hr with
  | init => exact .init
  | step _ _ hs ih => exact ih.step hs

/- Counting -/

/-- Connections that wait for a client, or whose handler is about to make another one that does. -/
def waits : Status → Bool
  | .accepting => true
  | .accepted _ true => true
  | _ => false

def St.waiting (s : St) : Nat := s.pool.countP fun c => waits (s.status c)

theorem count_upd (p : Status → Bool) (f : Nat → Status) (c : Nat) (v : Status) (l : List Nat) : l.Nodup → c ∈ l →
    (l.countP fun i => p (upd f c v i)) + (p (f c)).toNat = (l.countP fun i => p (f i)) + (p v).toNat := by
  induction l with
  | nil => intro _ h; cases h
  | cons x l ih =>
    intro hn hm
    rw [List.countP_cons, List.countP_cons]
    obtain ⟨hx, hn'⟩ := List.nodup_cons.mp hn
    by_cases hxc : x = c
    · subst hxc
      rw [upd_same]
      have : (l.countP fun i => p (upd f x v i)) = l.countP fun i => p (f i) := by
        apply List.countP_congr
        intro i hi
        rw [upd_other f v (c := x) (i := i) (fun h => hx (h ▸ hi))]
      rw [this]
      cases p v <;> cases p (f x) <;> simp
    · rw [upd_other _ _ hxc]
      have hm' : c ∈ l := by
        rcases List.mem_cons.mp hm with h | h
        · exact absurd h.symm hxc
        · exact h
      have := ih hn' hm'
      omega

theorem prune_waiting (s : St) : s.prune.waiting = s.waiting := by
  simp only [St.waiting, St.prune, List.countP_filter]
  apply List.countP_congr
  intro c _
  by_cases h : s.status c = .orphan
  · simp [h, waits]
  · simp [h]

theorem listen_waiting {s : St} (h : Inv s) (hl : s.listening = true) : s.listen.waiting = s.waiting + 1 := by
  have hp := h.prune
  unfold St.listen
  rw [if_pos hl]
  simp only [St.waiting, List.countP_append, List.countP_singleton, upd_same]
  have hnew : s.prune.next ∉ s.prune.pool := fun hm => ((hp.mem _).mp hm).1 (hp.fresh _ (Nat.le_refl _))
  have h1 : (s.prune.pool.countP fun c => waits (upd s.prune.status s.prune.next .accepting c)) = s.prune.waiting := by
    apply List.countP_congr
    intro c hc
    rw [upd_other _ _ (c := s.prune.next) (i := c) (fun h => hnew (h ▸ hc))]
  rw [h1, prune_waiting]
  simp [St.waiting, waits]

theorem change_waiting {s : St} (h : Inv s) {c : Nat} (v : Status) (hc : Alive s c) (s' : St) (hp : s'.pool = s.pool)
    (hs : s'.status = upd s.status c v) : s'.waiting + (waits (s.status c)).toNat = s.waiting + (waits v).toNat := by
  unfold St.waiting
  rw [hp, hs]
  exact count_upd waits s.status c v s.pool h.nodup ((h.mem c).mpr hc)

theorem remove_waiting {s : St} (h : Inv s) {c : Nat} (hc : Alive s c) :
    (s.remove c).waiting + (waits (s.status c)).toNat = s.waiting := by
  have hm := (h.mem c).mpr hc
  have hnot : c ∉ s.pool.erase c := h.nodup.not_mem_erase
  have h1 : (s.remove c).waiting = (s.pool.erase c).countP fun i => waits (s.status i) := by
    unfold St.waiting St.remove
    apply List.countP_congr
    intro i hi
    simp only []
    rw [upd_other _ _ (c := c) (i := i) (fun h => hnot (h ▸ hi))]
  have h2 : s.waiting = (c :: s.pool.erase c).countP fun i => waits (s.status i) :=
    (List.perm_cons_erase hm).countP_eq _
  rw [h1, h2, List.countP_cons]
  cases waits (s.status c) <;> simp

/-- What holds when calls of `start` and `stop` do not overlap. -/
structure Calm (s : St) : Prop where
  idle : s.listening = false → s.stopping = 0 → s.pool = []
  start : s.starting > 0 → s.starting = 1 ∧ s.listening = true ∧ s.pool = [] ∧ s.stopping = 0
  one : s.listening = true → s.starting = 0 → s.waiting = 1
  stop : s.stopping > 0 → s.listening = false
  single : s.stopping ≤ 1

theorem prune_nil {s : St} (h : s.pool = []) : s.prune.pool = [] := by simp [St.prune, h]

theorem Calm.step {s s' : St} {a : Act} (hi : Inv s) (h : Calm s) (ho : Serial s a) (hs : s.step a = some s') :
    Calm s' := by
  have hpm : ∀ c, s.pool = [] → ¬ Alive s c := by
    intro c hp ha
    have := (hi.mem c).mpr ha
    rw [hp] at this
    cases this
  unfold St.step at hs
  cases a with
  | start =>
    obtain ⟨o1, o2⟩ := ho (.inl rfl)
    simp only [] at hs
    split at hs
    · cases hs
    · split at hs <;> cases hs
      · exact h
      · rename_i hl
        have hl' : s.listening = false := by simpa using hl
        have := h.idle hl' o2
        refine ⟨by simp, fun _ => ⟨by simp [o1], rfl, this, o2⟩, by simp, ?_, by simpa using h.single⟩
        intro hst; simp only [] at hst; omega
  | startListen =>
    simp only [] at hs
    split at hs
    · cases hs
    · rename_i hc
      cases hs
      have h0 : s.starting > 0 := by omega
      obtain ⟨s1, s2, s3, s4⟩ := h.start h0
      have hw := listen_waiting hi s2
      have hw0 : s.waiting = 0 := by simp [St.waiting, s3]
      have hstop : s.listen.stopping = s.stopping := by unfold St.listen; split <;> rfl
      have hlis : s.listen.listening = s.listening := by unfold St.listen; split <;> rfl
      refine ⟨?_, ?_, ?_, ?_, ?_⟩
      · intro hf; simp only [hlis, s2] at hf; cases hf
      · intro hf; simp only [] at hf; omega
      · intro _ _
        have : ({ s.listen with starting := s.starting - 1 } : St).waiting = s.listen.waiting := rfl
        rw [this]; omega
      · intro hf; simp only [hstop] at hf; omega
      · simp only [hstop]; exact h.single
  | accept c ok =>
    simp only [] at hs
    split at hs
    · rename_i hc; cases hs
      have hal : Alive s c := by simp [Alive, hc]
      refine ⟨fun h1 h2 => h.idle h1 h2, fun h1 => h.start h1, fun h1 h2 => ?_, h.stop, h.single⟩
      have := change_waiting hi (.accepted ok s.listening) hal
        { s with status := upd s.status c (.accepted ok s.listening) } rfl rfl
      have h3 := h.one h1 h2
      rw [hc] at this
      have hl : s.listening = true := h1
      rw [hl] at this ⊢
      simp [waits] at this
      omega
    · cases hs
  | listen c =>
    simp only [] at hs
    split at hs
    · rename_i ok hc
      split at hs
      · cases hs
      · cases hs
        have hal : Alive s c := by simp [Alive, hc]
        have h1 : Inv ({ s with status := upd s.status c (.accepted ok false) } : St) :=
          hi.change (c := c) hal (v := .accepted ok false) (by simp) _ rfl rfl rfl
        have hw := change_waiting hi (.accepted ok false) hal
          { s with status := upd s.status c (.accepted ok false) } rfl rfl
        have hno : s.starting = 0 := by
          by_contra hne
          obtain ⟨_, _, s3, _⟩ := h.start (by omega)
          exact hpm c s3 hal
        by_cases hl : s.listening = true
        · have hw2 := listen_waiting h1 hl
          have h3 := h.one hl hno
          rw [hc] at hw
          simp [waits] at hw
          have hli : (({ s with status := upd s.status c (.accepted ok false) } : St).listen).listening = true := by
            unfold St.listen; rw [if_pos hl]; exact hl
          have hst : (({ s with status := upd s.status c (.accepted ok false) } : St).listen).stopping = s.stopping := by
            unfold St.listen; rw [if_pos hl]; rfl
          have hsa : (({ s with status := upd s.status c (.accepted ok false) } : St).listen).starting = s.starting := by
            unfold St.listen; rw [if_pos hl]; rfl
          refine ⟨fun hf => ?_, fun hf => ?_, fun _ _ => ?_, fun hf => ?_, ?_⟩
          · rw [hli] at hf; cases hf
          · rw [hsa] at hf; omega
          · rw [hw2]; omega
          · rw [hst] at hf; have := h.stop hf; rw [hl] at this; cases this
          · rw [hst]; exact h.single
        · have heq : ({ s with status := upd s.status c (.accepted ok false) } : St).listen =
              { s with status := upd s.status c (.accepted ok false) } := by
            unfold St.listen; rw [if_neg hl]
          rw [heq]
          exact ⟨fun h1 h2 => h.idle h1 h2, fun h1 => h.start h1, fun h1 => absurd h1 hl, h.stop, h.single⟩
    · cases hs
  | serve c =>
    simp only [] at hs
    split at hs
    · rename_i hc; cases hs
      have hal : Alive s c := by simp [Alive, hc]
      refine ⟨fun h1 h2 => h.idle h1 h2, fun h1 => h.start h1, fun h1 h2 => ?_, h.stop, h.single⟩
      have := change_waiting hi .serving hal { s with status := upd s.status c .serving } rfl rfl
      have h3 := h.one h1 h2
      rw [hc] at this
      simp [waits] at this
      omega
    · cases hs
  | fail c =>
    simp only [] at hs
    split at hs
    · rename_i hc; cases hs
      simp only [St.finish, Bool.and_false]
      have hal : Alive s c := by simp [Alive, hc.1]
      have := remove_waiting hi hal
      refine ⟨fun h1 h2 => ?_, fun h1 => ?_, fun h1 h2 => ?_, h.stop, h.single⟩
      · exact absurd hal (hpm c (h.idle h1 h2))
      · exact absurd hal (hpm c (h.start h1).2.2.1)
      · have h3 := h.one h1 h2
        rw [hc.1] at this
        simp [waits] at this
        change (s.remove c).waiting = 1
        omega
    · cases hs
  | finish c keep nested =>
    simp only [] at hs
    split at hs
    · rename_i hc; cases hs
      have hal : Alive s c := by simp [Alive, hc.1]
      unfold St.finish
      split
      · exact ⟨fun h1 h2 => h.idle h1 h2, fun h1 => h.start h1, fun h1 h2 => h.one h1 h2, h.stop, h.single⟩
      · have := remove_waiting hi hal
        refine ⟨fun h1 h2 => ?_, fun h1 => ?_, fun h1 h2 => ?_, h.stop, h.single⟩
        · exact absurd hal (hpm c (h.idle h1 h2))
        · exact absurd hal (hpm c (h.start h1).2.2.1)
        · have h3 := h.one h1 h2
          rw [hc.1] at this
          simp [waits] at this
          omega
    · cases hs
  | drop c =>
    simp only [] at hs
    split at hs
    · rename_i hc; cases hs
      have hal : Alive s c := by simp [Alive, hc]
      refine ⟨fun h1 h2 => h.idle h1 h2, fun h1 => h.start h1, fun h1 h2 => ?_, h.stop, h.single⟩
      have := change_waiting hi .orphan hal { s with status := upd s.status c .orphan } rfl rfl
      have h3 := h.one h1 h2
      rw [hc] at this
      simp [waits] at this
      omega
    · cases hs
  | stop =>
    obtain ⟨o1, o2⟩ := ho (.inr rfl)
    simp only [] at hs
    split at hs
    · cases hs
    · split at hs <;> cases hs
      · refine ⟨fun _ h2 => ?_, fun h1 => ?_, fun h1 => ?_, fun _ => rfl, by simp [o2]⟩
        · simp at h2
        · simp only [] at h1; omega
        · cases h1
      · exact ⟨fun h1 h2 => h.idle h1 h2, fun h1 => h.start h1, fun h1 h2 => h.one h1 h2, h.stop, h.single⟩
  | stopLoop =>
    simp only [] at hs
    split at hs
    · cases hs
    · rename_i hc
      have h0 : s.stopping > 0 := by omega
      have hl := h.stop h0
      have hsg := h.single
      have hst : s.starting = 0 := by
        by_contra hne
        have := (h.start (by omega)).2.1
        rw [hl] at this; cases this
      split at hs <;> rename_i hp <;> cases hs
      · refine ⟨fun _ _ => hp, fun h1 => ?_, fun h1 => ?_, fun _ => hl, by simp only []; omega⟩
        · have : s.starting > 0 := h1; omega
        · have : s.listening = true := h1; rw [hl] at this; cases this
      · refine ⟨fun _ h2 => ?_, fun h1 => ?_, fun h1 => ?_, fun _ => hl, h.single⟩
        · have : s.stopping = 0 := h2; omega
        · have : s.starting > 0 := h1; omega
        · have : s.listening = true := h1; rw [hl] at this; cases this

theorem reach_calm {s : St} (hr : Reach Serial s) : Calm s := by
  induction hr with
  | init => exact ⟨fun _ _ => rfl, by simp, by simp, by simp, by simp⟩
  | step hr ho hs ih => exact ih.step (reach_inv hr) ho hs

/-- The pool holds the connections not finished: those of clients and those still waiting for one. -/
theorem pool_count {s : St} (h : Inv s) :
    s.pool.length = openCount s + s.pool.countP fun c => s.status c = .accepting := by
  have hperm : s.pool.Perm ((List.range s.next).filter fun c => decide (Alive s c)) := by
    rw [List.perm_ext_iff_of_nodup h.nodup (List.nodup_range.filter _)]
    intro c
    simp only [List.mem_filter, List.mem_range, decide_eq_true_eq, h.mem]
    refine ⟨fun ha => ⟨?_, ha⟩, fun ha => ha.2⟩
    by_contra hn
    exact ha.1 (h.fresh c (by omega))
  have h1 : openCount s = s.pool.countP fun c => open' (s.status c) := by
    rw [hperm.countP_eq, List.countP_filter]
    apply List.countP_congr
    intro c _
    rw [Bool.and_eq_true]
    refine ⟨fun ho => ⟨ho, decide_eq_true ?_⟩, fun ho => ho.1⟩
    constructor <;> intro hst <;> rw [hst] at ho <;> cases ho
  rw [h1]
  have : ∀ l : List Nat, (∀ c ∈ l, Alive s c) →
      l.length = (l.countP fun c => open' (s.status c)) + l.countP fun c => s.status c = .accepting := by
    intro l
    induction l with
    | nil => intro _; rfl
    | cons x l ih =>
      intro hl
      rw [List.length_cons, List.countP_cons, List.countP_cons, ih (fun c hc => hl c (by simp [hc]))]
      have := hl x (by simp)
      unfold Alive at this
      cases hst : s.status x <;> simp [hst, open'] at this ⊢ <;> omega
  exact this s.pool fun c hc => (h.mem c).mp hc

end Verif.TcpServer
