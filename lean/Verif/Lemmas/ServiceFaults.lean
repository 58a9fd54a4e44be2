import Verif.Spec.ServiceFaults
import Mathlib.Data.List.Induction
/-
Lemmas for C98.
-/
namespace Verif.ServiceFaults
open Verif.Spec.ServiceFaults

/-- The loop goes through all services, or ends with the first one that throws. -/
theorem runAll_spec (throws : Nat → Bool) (ok bad : Nat → Ev) : ∀ (os : List Nat) (s : St),
    (runAll throws ok bad os s = ({ s with calls := s.calls + os.length, log := s.log ++ os.map ok }, true) ∧
      ∀ i < os.length, throws (s.calls + i) = false) ∨
    ∃ pre o post, os = pre ++ o :: post ∧
      runAll throws ok bad os s = ({ s with calls := s.calls + pre.length + 1, log := s.log ++ pre.map ok ++ [bad o] }, false) ∧
      throws (s.calls + pre.length) = true := by
  intro os
  induction os with
  | nil => intro s; left; simp [runAll]
  | cons o os ih =>
    intro s
    by_cases h : throws s.calls = true
    · right
      refine ⟨[], o, os, rfl, ?_, h⟩
      simp [runAll, h]
    · rcases ih { s with calls := s.calls + 1, log := s.log ++ [ok o] } with ⟨e, hn⟩ | ⟨pre, p, post, e, e1, e2⟩
      · left
        rw [runAll, if_neg h, e]
        refine ⟨by simp; omega, fun i hi => ?_⟩
        cases i with
        | zero => simpa using h
        | succ i =>
          have := hn i (by simpa using hi)
          rw [← this]
          congr 1
          show _ = s.calls + 1 + i
          omega
      · right
        refine ⟨o :: pre, p, post, by rw [e]; rfl, ?_, ?_⟩
        · rw [runAll, if_neg h, e1]
          simp; omega
        · rw [← e2]
          congr 1
          show _ = s.calls + 1 + pre.length
          simp; omega

theorem latest_append_none {o : Nat} (l m : List Ev) (h : ∀ e ∈ m, about o e = false) : latest o (l ++ m) = latest o l := by
  unfold latest
  have : m.filter (about o) = [] := List.filter_eq_nil_iff.2 (fun e he => by simp [h e he])
  rw [List.filter_append, this, List.append_nil]

theorem latest_snoc {o : Nat} (l : List Ev) (e : Ev) (h : about o e = true) : latest o (l ++ [e]) = some e := by
  unfold latest
  simp [List.filter_append, h]

theorem latest_started {o : Nat} (l : List Ev) (os : List Nat) (h : o ∈ os) :
    latest o (l ++ os.map .started) = some (.started o) := by
  induction os using List.reverseRecOn with
  | nil => simp at h
  | append_singleton os p ih =>
    rw [List.map_append, ← List.append_assoc]
    by_cases hp : p = o
    · subst hp; exact latest_snoc _ _ (by simp [about])
    · have h1 : o ∈ os := by
        rcases List.mem_append.1 h with h | h
        · exact h
        · simp at h; exact absurd h.symm hp
      rw [latest_append_none _ _ (by simp [about, hp])]
      exact ih h1

/-- A stop, or an attempt of one, comes right after a start. -/
def StopsStarted (log : List Ev) : Prop :=
  ∀ pre post o, (log = pre ++ .stopped o :: post ∨ log = pre ++ .stopThrew o :: post) → latest o pre = some (.started o)

theorem StopsStarted.append {l m : List Ev} (h : StopsStarted l) (hm : ∀ o, .stopped o ∉ m ∧ .stopThrew o ∉ m) :
    StopsStarted (l ++ m) := by
  intro pre post o he
  have key : ∀ e, (e = .stopped o ∨ e = .stopThrew o) → l ++ m = pre ++ e :: post → latest o pre = some (.started o) := by
    intro e hev he
    rcases List.append_eq_append_iff.1 he with ⟨a, rfl, h2⟩ | ⟨a, rfl, h2⟩
    · have hmem : e ∈ m := by rw [h2]; simp
      rcases hev with rfl | rfl
      · exact absurd hmem (hm o).1
      · exact absurd hmem (hm o).2
    · cases a with
      | nil =>
        have hmem : e ∈ m := by simp at h2; rw [← h2]; simp
        rcases hev with rfl | rfl
        · exact absurd hmem (hm o).1
        · exact absurd hmem (hm o).2
      | cons x a =>
        simp only [List.cons_append, List.cons.injEq] at h2
        obtain ⟨rfl, h2⟩ := h2
        rcases hev with rfl | rfl
        · exact h pre a o (.inl rfl)
        · exact h pre a o (.inr rfl)
  rcases he with he | he
  · exact key _ (.inl rfl) he
  · exact key _ (.inr rfl) he

theorem StopsStarted.snoc {l : List Ev} (h : StopsStarted l) {e : Ev} {o : Nat} (he : e = .stopped o ∨ e = .stopThrew o)
    (ho : latest o l = some (.started o)) : StopsStarted (l ++ [e]) := by
  intro pre post p hp
  have key : ∀ f, (f = .stopped p ∨ f = .stopThrew p) → l ++ [e] = pre ++ f :: post → latest p pre = some (.started p) := by
    intro f hf hp
    cases post using List.reverseRecOn with
    | nil =>
      have := List.append_inj' hp rfl
      obtain ⟨rfl, h2⟩ := this
      simp only [List.cons.injEq, and_true] at h2
      subst h2
      have : p = o := by
        rcases he with rfl | rfl <;> rcases hf with hf | hf <;> simp at hf <;> exact hf.symm
      rw [this]; exact ho
    | append_singleton q x _ =>
      rw [← List.cons_append, ← List.append_assoc] at hp
      obtain ⟨h1, _⟩ := List.append_inj' hp rfl
      rcases hf with rfl | rfl
      · exact h pre q p (.inl h1)
      · exact h pre q p (.inr h1)
  rcases hp with hp | hp
  · exact key _ (.inl rfl) hp
  · exact key _ (.inr rfl) hp

theorem StopsStarted.stops {l : List Ev} (h : StopsStarted l) (os : List Nat) (hn : os.Nodup)
    (hl : ∀ o ∈ os, latest o l = some (.started o)) : StopsStarted (l ++ os.map .stopped) := by
  induction os generalizing l with
  | nil => simpa using h
  | cons o os ih =>
    rw [List.map_cons, ← List.singleton_append, ← List.append_assoc]
    refine ih (h.snoc (.inl rfl) (hl o (by simp))) hn.of_cons ?_
    intro p hp
    have : p ≠ o := by rintro rfl; exact (List.nodup_cons.1 hn).1 hp
    rw [latest_append_none _ _ (by simp [about, Ne.symm this])]
    exact hl p (by simp [hp])

/-- What holds as long as services are added early. -/
structure Good (s : St) : Prop where
  nodup : s.services.Nodup
  users : s.users = if s.listening then 1 else 0
  started : s.listening = true → ∀ o ∈ s.services, latest o s.log = some (.started o)
  stops : StopsStarted s.log

theorem good_init : Good {} where
  nodup := List.nodup_nil
  users := rfl
  started h := by cases h
  stops := by
    intro pre post o h
    rcases h with h | h <;> exact absurd h (by simp)

theorem good_start {throws : Nat → Bool} {s : St} (h : Good s) (b : Bool) : Good (s.start throws b).1 := by
  unfold St.start
  cases hl : s.listening with
  | true => simpa using h
  | false =>
    have hu := h.users
    rw [hl] at hu
    simp only [Bool.false_eq_true, if_false] at hu ⊢
    rcases runAll_spec throws .started .startThrew s.services s with ⟨e, _⟩ | ⟨pre, o, post, e, e1, _⟩
    · rw [e]
      dsimp only
      split
      · refine ⟨h.nodup, by simp [hu], ?_, ?_⟩
        · intro _ o ho
          exact latest_started _ _ ho
        · exact h.stops.append (by simp)
      · refine ⟨h.nodup, by simp [hu, hl], ?_, h.stops.append (by simp)⟩
        intro hx; simp [hl] at hx
    · rw [e1]
      dsimp only
      refine ⟨h.nodup, by simp [hu, hl], ?_, (h.stops.append (by simp)).append (by simp)⟩
      intro hx; simp [hl] at hx

theorem good_stop {throws : Nat → Bool} {s : St} (h : Good s) : Good (s.stop throws).1 ∧ (s.stop throws).1.listening = false := by
  unfold St.stop
  cases hl : s.listening with
  | false => simpa using ⟨h, hl⟩
  | true =>
    have hu := h.users
    rw [hl] at hu
    simp only [if_true] at hu ⊢
    rcases runAll_spec throws .stopped .stopThrew s.services { s with listening := false, users := s.users - 1 } with
      ⟨e, _⟩ | ⟨pre, o, post, e, e1, _⟩
    · rw [e]
      exact ⟨⟨h.nodup, by simp [hu], by intro hx; simp at hx, h.stops.stops _ h.nodup (h.started hl)⟩, rfl⟩
    · rw [e1]
      dsimp only
      refine ⟨⟨h.nodup, by simp [hu], by intro hx; simp at hx, ?_⟩, rfl⟩
      have hn : (pre ++ o :: post).Nodup := by rw [← e]; exact h.nodup
      have hpre : pre.Nodup := (List.nodup_append.1 hn).1
      have hst := h.started hl
      rw [e] at hst
      refine StopsStarted.snoc (h.stops.stops pre hpre (fun p hp => hst p (by simp [hp]))) (.inr rfl) ?_
      rw [latest_append_none]
      · exact hst o (by simp)
      · intro x hx
        obtain ⟨p, hp, rfl⟩ := List.mem_map.1 hx
        have : p ≠ o := by
          rintro rfl
          exact (List.nodup_append.1 hn).2.2 p hp p (by simp) rfl
        simpa [about] using this

theorem good_clear {throws : Nat → Bool} {s : St} (h : Good s) : Good (s.clear throws).1 := by
  obtain ⟨h1, h2⟩ := good_stop (throws := throws) h
  unfold St.clear
  generalize s.stop throws = r at *
  obtain ⟨t, r⟩ := r
  cases r with
  | returned =>
    dsimp only at h1 h2 ⊢
    refine ⟨List.nodup_nil, by have := h1.users; rw [h2] at this; simpa [h2] using this, ?_, h1.stops.append (by simp)⟩
    intro hx; rw [h2] at hx; exact nomatch hx
  | threw => exact h1
  | terminates => exact h1

theorem good_step {throws : Nat → Bool} {s : St} (h : Good s) (a : Op)
    (ha : ∀ o k, a = .add o k → s.listening = false ∧ o ∉ s.services) : Good (s.step throws a).1 := by
  cases a with
  | add o k =>
    obtain ⟨h1, h2⟩ := ha o k rfl
    refine ⟨?_, h.users, ?_, h.stops⟩
    · have hp : (s.services.take k ++ o :: s.services.drop k).Perm (o :: s.services) := by
        have := List.perm_middle (a := o) (l₁ := s.services.take k) (l₂ := s.services.drop k)
        rwa [List.take_append_drop] at this
      exact hp.nodup_iff.2 (List.nodup_cons.2 ⟨h2, h.nodup⟩)
    · intro hx
      have : s.listening = true := hx
      rw [h1] at this; exact nomatch this
  | start b => exact good_start h b
  | stop => exact (good_stop h).1
  | clear => exact good_clear h
  | destroy =>
    have := good_clear (throws := throws) h
    show Good (match s.clear throws with | (s, .threw) => (s, Res.terminates) | r => r).1
    generalize s.clear throws = r at *
    obtain ⟨t, r⟩ := r
    cases r <;> exact this
  | join =>
    simp only [St.step]
    split
    · exact ⟨h.nodup, h.users, h.started, h.stops⟩
    · rename_i hl
      refine ⟨h.nodup, h.users, fun hx => absurd hx hl, h.stops.append (by simp)⟩
  | wake =>
    simp only [St.step]
    split
    · exact h
    split
    · exact ⟨h.nodup, h.users, h.started, h.stops⟩
    · rename_i hl
      refine ⟨h.nodup, h.users, fun hx => absurd hx hl, h.stops.append (by simp)⟩

theorem early_cons {throws : Nat → Bool} {s : St} {a : Op} {as : List Op} (h : Early throws s (a :: as)) :
    (∀ o k, a = .add o k → s.listening = false ∧ o ∉ s.services) ∧ Early throws (s.step throws a).1 as := by
  cases a with
  | add o k => exact ⟨fun o' k' e => by cases e; exact ⟨h.1, h.2.1⟩, h.2.2.2⟩
  | start b => exact ⟨nofun, h⟩
  | stop => exact ⟨nofun, h⟩
  | clear => exact ⟨nofun, h⟩
  | destroy => exact ⟨nofun, h⟩
  | join => exact ⟨nofun, h⟩
  | wake => exact ⟨nofun, h⟩

theorem good_run {throws : Nat → Bool} : ∀ (as : List Op) {s : St}, Good s → Early throws s as → Good (s.run throws as) := by
  intro as
  induction as with
  | nil => intro s h _; exact h
  | cons a as ih =>
    intro s h he
    obtain ⟨h1, h2⟩ := early_cons he
    exact ih (good_step h a h1) h2

/-- What is left of a server that does not listen and is not started. -/
structure Rests (s t : St) : Prop where
  listening : t.listening = false
  calls : t.calls = s.calls
  waiting : t.waiting = s.waiting
  log : ∃ m, t.log = s.log ++ m ∧ ∀ e ∈ m, e = .joined ∨ ∃ o, e = .destroyed o

theorem rests_refl {s : St} (h : s.listening = false) : Rests s s := ⟨h, rfl, rfl, [], by simp⟩

theorem rests_step {throws : Nat → Bool} {s t : St} (h : Rests s t) (a : Op) (ha : ∀ b, a ≠ .start b) :
    Rests s (t.step throws a).1 := by
  obtain ⟨h1, h2, h3, m, h4, h5⟩ := h
  have hstop : t.stop throws = (t, .returned) := by simp [St.stop, h1]
  have hclear : t.clear throws = ({ t with services := [], log := t.log ++ t.services.map .destroyed }, .returned) := by
    simp [St.clear, hstop]
  have hc : Rests s { t with services := [], log := t.log ++ t.services.map .destroyed } := by
    refine ⟨h1, h2, h3, m ++ t.services.map .destroyed, by rw [h4, List.append_assoc], ?_⟩
    intro e he
    rcases List.mem_append.1 he with he | he
    · exact h5 e he
    · obtain ⟨o, _, rfl⟩ := List.mem_map.1 he; exact .inr ⟨o, rfl⟩
  cases a with
  | add o k => exact ⟨h1, h2, h3, m, h4, h5⟩
  | start b => exact absurd rfl (ha b)
  | stop => simp only [St.step, hstop]; exact ⟨h1, h2, h3, m, h4, h5⟩
  | clear => simp only [St.step, hclear]; exact hc
  | destroy => simp only [St.step, hclear]; exact hc
  | join =>
    simp only [St.step, h1, Bool.false_eq_true, if_false]
    refine ⟨rfl, h2, h3, m ++ [.joined], by rw [h4, List.append_assoc], ?_⟩
    intro e he
    rcases List.mem_append.1 he with he | he
    · exact h5 e he
    · simp at he; exact .inl he
  | wake =>
    simp only [St.step, h1, Bool.false_eq_true, if_false]
    split
    · exact ⟨h1, h2, h3, m, h4, h5⟩
    · refine ⟨rfl, h2, h3, m ++ [.joined], by rw [h4, List.append_assoc], ?_⟩
      intro e he
      rcases List.mem_append.1 he with he | he
      · exact h5 e he
      · simp at he; exact .inl he

theorem rests_run {throws : Nat → Bool} {s : St} : ∀ (as : List Op) {t : St}, Rests s t → (∀ b, .start b ∉ as) →
    Rests s (t.run throws as) := by
  intro as
  induction as with
  | nil => intro t h _; exact h
  | cons a as ih =>
    intro t h ha
    refine ih (rests_step h a (fun b e => ha b (by simp [e]))) (fun b hb => ha b (by simp [hb]))

end Verif.ServiceFaults
