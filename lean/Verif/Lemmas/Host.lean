import Verif.Spec.Host
import Verif.Lemmas.Exchange
/-
The steps of a server, projected to one of its connections, are steps of that connection.
-/
namespace Verif.Host
open Verif.Exchange (St World)
open Verif.Spec.Host

/-- The calls of a connection that hold the mutex of the server. -/
def nested (s : St) : Nat := (s.calls.filter (·.outer.isSome)).length

theorem nested_snoc (l : List Exchange.Call) (d : Exchange.Call) (hd : d.outer = none) :
    ((l ++ [d]).filter (·.outer.isSome)).length = (l.filter (·.outer.isSome)).length := by
  rw [List.filter_append]; simp [hd]

theorem none_of_zero {l : List Exchange.Call} (h : (l.filter (·.outer.isSome)).length = 0) : ∀ d ∈ l, d.outer = none := by
  intro d hd
  cases ho : d.outer with
  | none => rfl
  | some o =>
    have := List.length_pos_of_mem (List.mem_filter.2 ⟨hd, by simp [ho]⟩ : d ∈ l.filter (·.outer.isSome))
    omega

/-- One call at most holds the mutex, and if it is held by the connection, one does. -/
theorem count_step {w : World} {s s' : St} {a : Exchange.Act} (hc : nested s = s.held.toNat) (h : s.step w a = some s') :
    nested s' = s'.held.toNat := by
  unfold nested at hc ⊢
  cases a with
  | arrive =>
    simp only [Exchange.St.step] at h
    split at h
    · simp only [Option.some.injEq] at h; subst h; exact (nested_snoc _ _ rfl).trans hc
    · cases h
  | readFails =>
    simp only [Exchange.St.step] at h
    split at h
    · simp only [Option.some.injEq] at h; subst h; exact (nested_snoc _ _ rfl).trans hc
    · cases h
  | write i k =>
    simp only [Exchange.St.step] at h
    split at h
    · cases h
    · split at h
      · simp only [Option.some.injEq] at h; subst h; exact hc
      · cases h
  | writeEnds i =>
    simp only [Exchange.St.step] at h
    split at h
    · cases h
    · split at h
      · simp only [Option.some.injEq] at h; subst h; exact (nested_snoc _ _ rfl).trans hc
      · cases h
  | writeFails i =>
    simp only [Exchange.St.step] at h
    split at h
    · cases h
    · simp only [Option.some.injEq] at h; subst h; exact (nested_snoc _ _ rfl).trans hc
  | stop now =>
    simp only [Exchange.St.step] at h
    split at h
    · cases h
    · simp only [Option.some.injEq] at h; subst h; exact hc
  | start =>
    simp only [Exchange.St.step] at h
    split at h
    · cases h
    · simp only [Option.some.injEq] at h; subst h; exact hc
  | close => simp only [Exchange.St.step, Option.some.injEq] at h; subst h; exact hc
  | prune =>
    simp only [Exchange.St.step] at h
    split at h
    · cases h
    · split at h <;> simp only [Option.some.injEq] at h <;> subst h <;> exact hc
  | other =>
    simp only [Exchange.St.step] at h
    split at h
    · cases h
    · simp only [Option.some.injEq] at h; subst h; exact hc
  | call i whole =>
    simp only [Exchange.St.step] at h
    cases hci : s.calls[i]? with
    | none => rw [hci] at h; cases h
    | some c =>
      rw [hci] at h
      simp only at h
      obtain ⟨a, b, hs, hset, herase⟩ := Exchange.split hci
      have same : ∀ d : Exchange.Call, d.outer = c.outer →
          ((a ++ d :: b).filter (·.outer.isSome)).length = s.held.toNat := by
        intro d hd
        have := @Exchange.count_set a b c d
        rw [hd] at this
        rw [← hc, hs]
        omega
      have leaves : ∀ d : Exchange.Call, c.outer.isSome = true → d.outer = none →
          ((a ++ d :: b).filter (·.outer.isSome)).length = 0 := by
        intro d h1 h2
        have := @Exchange.count_set a b c d
        rw [h1, h2, ← hs, hc] at this
        have h3 : s.held.toNat ≤ 1 := by cases s.held <;> simp
        simp only [Option.isSome_none, Bool.toNat_true, Bool.toNat_false] at this
        omega
      cases hp : c.prog with
      | done =>
        simp only [Exchange.St.go, hp] at h
        cases hout : c.outer with
        | none =>
          simp only [hout, Option.some.injEq] at h
          subst h
          rw [herase, ← hc, hs]
          simp [List.filter_append, hout]
        | some o =>
          obtain ⟨req, prog, guarded⟩ := o
          simp only [hout, Option.some.injEq] at h
          subst h
          rw [hset]
          exact leaves _ (by simp [hout]) rfl
      | throw r =>
        by_cases hgd : (c.guarded && r) = true
        · simp only [Exchange.St.go, hp, hgd, if_true, Option.some.injEq] at h
          subst h
          rw [hset]
          exact same _ rfl
        · cases hout : c.outer with
          | none =>
            simp only [Exchange.St.go, hp, hgd, hout, Bool.false_eq_true, if_false, Option.some.injEq] at h
            subst h
            rw [herase, ← hc, hs]
            simp [List.filter_append, hout]
          | some o =>
            obtain ⟨req, prog, guarded⟩ := o
            simp only [Exchange.St.go, hp, hgd, hout, Bool.false_eq_true, if_false, Option.some.injEq] at h
            subst h
            rw [hset]
            exact leaves _ (by simp [hout]) rfl
      | send by' ok failed next =>
        by_cases hopen : s.isOpen = true <;>
          (simp only [Exchange.St.go, hp, hopen, Bool.false_eq_true, if_true, if_false, Option.some.injEq] at h
           subst h
           rw [hset]
           exact same _ rfl)
      | finish next =>
        simp only [Exchange.St.go, hp] at h
        by_cases hheld : s.held = true
        · simp [hheld] at h
        · have hheld' : s.held = false := by simpa using hheld
          have hnone : c.outer = none := by
            rw [hheld'] at hc
            exact none_of_zero hc c (by rw [hs]; simp)
          simp only [hheld, Bool.false_eq_true, if_false, Exchange.St.finish] at h
          split at h
          · split at h
            · simp only [Option.some.injEq] at h
              subst h
              rw [hset]
              have h1 := @Exchange.count_set a b c
                { req := s.next, prog := w.prog s.next, guarded := true, outer := some (c.req, next, c.guarded) }
              rw [← hs, hc, hheld', hnone] at h1
              simpa using h1
            · simp only [Option.some.injEq] at h
              subst h
              rw [hset]
              simp only
              rw [same { c with prog := next } rfl, hheld']
          · simp only [Option.some.injEq] at h
            subst h
            rw [hset]
            simp only
            rw [same { c with prog := next } rfl, hheld']

/-- While the mutex is held for another connection, the steps of this one are those it could do if it were free. -/
theorem unheld_step {w : World} {s s' : St} {a : Exchange.Act} (ha : single a = true) (hh : s.held = true)
    (hn : ∀ d ∈ s.calls, d.outer = none) (h : s.step w a = some s') :
    s'.held = true ∧ ({ s with held := false } : St).step w a = some { s' with held := false } := by
  cases a with
  | stop now => cases ha
  | start => cases ha
  | prune => cases ha
  | other => cases ha
  | arrive =>
    simp only [Exchange.St.step] at h ⊢
    split at h
    · rename_i hc
      simp only [Option.some.injEq] at h; subst h
      rw [if_pos hc]
      exact ⟨hh, rfl⟩
    · cases h
  | readFails =>
    simp only [Exchange.St.step] at h ⊢
    split at h
    · rename_i hc
      simp only [Option.some.injEq] at h; subst h
      rw [if_pos hc]
      exact ⟨hh, rfl⟩
    · cases h
  | write i k =>
    simp only [Exchange.St.step] at h ⊢
    cases hx : s.writes[i]? with
    | none => rw [hx] at h; cases h
    | some x =>
      rw [hx] at h
      simp only at h ⊢
      split at h
      · rename_i hc
        simp only [Option.some.injEq] at h; subst h
        rw [if_pos hc]
        exact ⟨hh, rfl⟩
      · cases h
  | writeEnds i =>
    simp only [Exchange.St.step] at h ⊢
    cases hx : s.writes[i]? with
    | none => rw [hx] at h; cases h
    | some x =>
      rw [hx] at h
      simp only at h ⊢
      split at h
      · rename_i hc
        simp only [Option.some.injEq] at h; subst h
        rw [if_pos hc]
        exact ⟨hh, rfl⟩
      · cases h
  | writeFails i =>
    simp only [Exchange.St.step] at h ⊢
    cases hx : s.writes[i]? with
    | none => rw [hx] at h; cases h
    | some x =>
      rw [hx] at h
      simp only [Option.some.injEq] at h ⊢
      subst h
      exact ⟨hh, rfl⟩
  | close =>
    simp only [Exchange.St.step, Option.some.injEq] at h ⊢
    subst h
    exact ⟨hh, rfl⟩
  | call i whole =>
    simp only [Exchange.St.step] at h ⊢
    cases hci : s.calls[i]? with
    | none => rw [hci] at h; cases h
    | some c =>
      have hnone : c.outer = none := hn c (List.mem_of_getElem? hci)
      rw [hci] at h
      simp only at h ⊢
      cases hp : c.prog with
      | done =>
        simp only [Exchange.St.go, hp, hnone, Option.some.injEq] at h ⊢
        subst h
        exact ⟨hh, rfl⟩
      | throw r =>
        by_cases hgd : (c.guarded && r) = true <;>
          (simp only [Exchange.St.go, hp, hnone, hgd, Bool.false_eq_true, if_true, if_false, Option.some.injEq] at h ⊢
           subst h
           exact ⟨hh, rfl⟩)
      | send by' ok failed next =>
        by_cases hopen : s.isOpen = true <;>
          (simp only [Exchange.St.go, hp, hopen, Bool.false_eq_true, if_true, if_false, Option.some.injEq] at h ⊢
           subst h
           exact ⟨hh, rfl⟩)
      | finish next => simp [Exchange.St.go, hp, hh] at h

/-- The steps of one connection do not start or stop the server. -/
theorem listening_step {w : World} {s s' : St} {a : Exchange.Act} (ha : single a = true) (h : s.step w a = some s') :
    s'.listening = s.listening := by
  cases a with
  | stop now => cases ha
  | start => cases ha
  | prune => cases ha
  | other => cases ha
  | arrive =>
    simp only [Exchange.St.step] at h
    split at h
    · simp only [Option.some.injEq] at h; subst h; rfl
    · cases h
  | readFails =>
    simp only [Exchange.St.step] at h
    split at h
    · simp only [Option.some.injEq] at h; subst h; rfl
    · cases h
  | write i k =>
    simp only [Exchange.St.step] at h
    split at h
    · cases h
    · split at h
      · simp only [Option.some.injEq] at h; subst h; rfl
      · cases h
  | writeEnds i =>
    simp only [Exchange.St.step] at h
    split at h
    · cases h
    · split at h
      · simp only [Option.some.injEq] at h; subst h; rfl
      · cases h
  | writeFails i =>
    simp only [Exchange.St.step] at h
    split at h
    · cases h
    · simp only [Option.some.injEq] at h; subst h; rfl
  | close => simp only [Exchange.St.step, Option.some.injEq] at h; subst h; rfl
  | call i whole =>
    simp only [Exchange.St.step] at h
    cases hci : s.calls[i]? with
    | none => rw [hci] at h; cases h
    | some c =>
      rw [hci] at h
      simp only at h
      cases hgo : s.go w c whole with
      | none => rw [hgo] at h; cases h
      | some r =>
        obtain ⟨s2, c2⟩ := r
        have : s2.listening = s.listening := by
          simp only [Exchange.St.go, Exchange.St.finish] at hgo
          repeat' split at hgo
          all_goals first
            | (cases hgo; done)
            | (simp only [Option.some.injEq, Prod.mk.injEq] at hgo; obtain ⟨rfl, -⟩ := hgo; rfl)
        rw [hgo] at h
        cases c2 <;> simp only [Option.some.injEq] at h <;> subst h <;> exact this

/-- The connections that hold the mutex are those the server says. -/
def Locks (h : Host) : Prop := ∀ i c, h.conns[i]? = some c → nested c = (h.held == some i).toNat

/-- A step of a connection. -/
theorem conn_step {w : Nat → World} {h h' : Host} {i : Nat} {a : Exchange.Act} (hl : Locks h)
    (hs : h.step w (.conn i a) = some h') :
    ∃ c c', h.conns[i]? = some c ∧ h'.conns = h.conns.set i c' ∧ h'.listening = h.listening ∧
      (seen h i c).step (w i) a = some (seen h' i c') ∧ (∀ j, j ≠ i → (h'.held == some j) = (h.held == some j)) ∧
      single a = true := by
  simp only [Host.step] at hs
  split at hs
  · rename_i ha
    cases hc : h.conns[i]? with
    | none => rw [hc] at hs; cases hs
    | some c =>
      rw [hc] at hs
      simp only at hs
      generalize hv : ({ c with listening := h.listening, held := h.held.isSome } : St) = v at hs
      cases hst : v.step (w i) a with
      | none => rw [hst] at hs; cases hs
      | some c' =>
        rw [hst] at hs
        simp only [Option.some.injEq] at hs
        have hcount := hl i c hc
        have hlist : c'.listening = h.listening := by rw [listening_step ha hst, ← hv]
        refine ⟨c, c', rfl, by rw [← hs], by rw [← hs], ?_, ?_, ha⟩
        · cases hheld : h.held with
          | none =>
            have hveq : seen h i c = v := by rw [← hv]; simp [seen, hheld]
            rw [hveq, hst]
            rw [← hs]
            simp only [seen, hheld, Option.isSome_none]
            have hb : ((if c'.held = false then none else if c'.held = true then some i else none) == some i) = c'.held := by
              cases c'.held <;> simp
            rw [hb, ← hlist]
          | some j =>
            by_cases hj : j = i
            · subst hj
              have hveq : seen h j c = v := by rw [← hv]; simp [seen, hheld]
              rw [hveq, hst]
              rw [← hs]
              simp only [seen, hheld, Option.isSome_some]
              have hb : ((if c'.held = true then some j else if c'.held = true then some j else none) == some j) = c'.held := by
                cases c'.held <;> simp
              rw [hb, ← hlist]
            · have hne : (some j == some i) = false := by simp [hj]
              have hz : nested c = 0 := by rw [hcount, hheld, hne]; rfl
              have hvh : v.held = true := by rw [← hv]; simp [hheld]
              have hvn : ∀ d ∈ v.calls, d.outer = none := by rw [← hv]; exact none_of_zero hz
              obtain ⟨h1, h2⟩ := unheld_step ha hvh hvn hst
              have hveq : seen h i c = { v with held := false } := by rw [← hv]; simp [seen, hheld, hne]
              rw [hveq, h2, ← hs]
              simp only [seen, hheld, h1, Option.isSome_some, if_true, hne, ← hlist]
        · intro k hk
          rw [← hs]
          simp only
          cases hheld : h.held with
          | none => cases hc' : c'.held <;> simp [Ne.symm hk]
          | some j =>
            by_cases hj : j = i
            · subst hj
              cases hc' : c'.held <;> simp [Ne.symm hk]
            · have hne : (some j == some i) = false := by simp [hj]
              have hz : nested c = 0 := by rw [hcount, hheld, hne]; rfl
              have hvh : v.held = true := by rw [← hv]; simp [hheld]
              have hvn : ∀ d ∈ v.calls, d.outer = none := by rw [← hv]; exact none_of_zero hz
              obtain ⟨h1, -⟩ := unheld_step ha hvh hvn hst
              simp [h1]
  · cases hs

theorem pruned_calls (c : St) : (pruned c).calls = c.calls := by
  unfold pruned; split <;> rfl

theorem locks_step {w : Nat → World} {h h' : Host} {a : Act} (hl : Locks h) (hs : h.step w a = some h') : Locks h' := by
  cases a with
  | conn i a =>
    obtain ⟨c, c', h1, h2, h3, h4, h5, h6⟩ := conn_step hl hs
    intro j d hd
    rw [h2] at hd
    by_cases hj : j = i
    · subst hj
      have hlt : j < h.conns.length := (List.getElem?_eq_some_iff.1 h1).1
      rw [List.getElem?_set_self hlt] at hd
      cases hd
      exact count_step (s := seen h j c) (hl j c h1) h4
    · rw [List.getElem?_set_ne (Ne.symm hj)] at hd
      rw [h5 j hj]
      exact hl j d hd
  | accept =>
    simp only [Host.step] at hs
    split at hs
    · cases hs
    · rename_i hc
      simp only [not_or, Bool.not_eq_true, Option.isSome_eq_false_iff, Option.isNone_iff_eq_none] at hc
      simp only [Option.some.injEq] at hs
      subst hs
      intro j d hd
      simp only at hd ⊢
      rw [hc.1]
      by_cases hj : j < h.conns.length
      · rw [List.getElem?_append_left (by simpa using hj), List.getElem?_map] at hd
        obtain ⟨d', hd', rfl⟩ := Option.map_eq_some_iff.1 hd
        have := hl j d' hd'
        rw [hc.1] at this
        simpa [nested, pruned_calls] using this
      · rw [List.getElem?_append_right (by simpa using hj)] at hd
        simp only [List.length_map] at hd
        have : d = {} := by
          cases hk : j - h.conns.length with
          | zero => rw [hk] at hd; simpa using hd.symm
          | succ k => rw [hk] at hd; simp at hd
        subst this
        rfl
  | stop now =>
    simp only [Host.step] at hs
    split at hs
    · cases hs
    · simp only [Option.some.injEq] at hs
      subst hs
      intro j d hd
      simp only [List.getElem?_map] at hd ⊢
      obtain ⟨d', hd', rfl⟩ := Option.map_eq_some_iff.1 hd
      exact hl j d' hd'
  | start =>
    simp only [Host.step] at hs
    split at hs
    · cases hs
    · simp only [Option.some.injEq] at hs; subst hs; exact hl
  | prune =>
    simp only [Host.step] at hs
    split at hs
    · cases hs
    · simp only [Option.some.injEq] at hs
      subst hs
      intro j d hd
      simp only [List.getElem?_map] at hd ⊢
      obtain ⟨d', hd', rfl⟩ := Option.map_eq_some_iff.1 hd
      have := hl j d' hd'
      simpa [nested, pruned_calls] using this
  | other =>
    simp only [Host.step] at hs
    split at hs
    · cases hs
    · simp only [Option.some.injEq] at hs; subst hs; exact hl

theorem locks_init : Locks {} := by
  intro i c hc; simp at hc

theorem run_append {w : World} {s : St} (as bs : List Exchange.Act) :
    s.run w (as ++ bs) = (s.run w as).bind (·.run w bs) := by
  induction as generalizing s with
  | nil => rfl
  | cons a as ih =>
    simp only [List.cons_append, Exchange.St.run]
    cases s.step w a with
    | none => rfl
    | some s' => simpa using ih

/-- Connections that are there see a step as a step of theirs. -/
theorem project_step {w : Nat → World} {h h' : Host} {a : Act} (hl : Locks h) (hs : h.step w a = some h') {i : Nat} {c : St}
    (hc : h.conns[i]? = some c) :
    ∃ c', h'.conns[i]? = some c' ∧ (seen h i c).run (w i) (forConn i a) = some (seen h' i c') := by
  have hlt : i < h.conns.length := (List.getElem?_eq_some_iff.1 hc).1
  have hprune : ∀ held : h.held.isSome = false, ∀ h' : Host, h'.listening = h.listening → h'.held = h.held →
      (seen h i c).run (w i) [.prune] = some (seen h' i (pruned c)) := by
    intro held h' h1 h2
    have hn : h.held = none := by simpa using held
    have hb : (h.held == some i) = false := by rw [hn]; rfl
    simp only [Exchange.St.run, Exchange.St.step, seen, hb, Bool.false_eq_true, if_false, pruned, h1, h2]
    by_cases hx : c.pooled = true ∧ c.readers = 0 ∧ c.writes = [] ∧ c.calls = [] <;> simp [hx]
  cases a with
  | conn j a =>
    obtain ⟨d, d', h1, h2, h3, h4, h5, h6⟩ := conn_step hl hs
    by_cases hj : j = i
    · subst hj
      rw [h1] at hc
      cases hc
      refine ⟨d', by rw [h2, List.getElem?_set_self hlt], ?_⟩
      simp only [forConn, if_true, Exchange.St.run, h4]
    · refine ⟨c, by rw [h2, List.getElem?_set_ne hj, hc], ?_⟩
      simp only [forConn, hj, if_false, Exchange.St.run, seen, h3, h5 i (Ne.symm hj)]
  | accept =>
    simp only [Host.step] at hs
    split at hs
    · cases hs
    · rename_i hn
      simp only [not_or, Bool.not_eq_true] at hn
      simp only [Option.some.injEq] at hs
      subst hs
      refine ⟨pruned c, ?_, hprune hn.1 _ rfl rfl⟩
      simp only
      rw [List.getElem?_append_left (by simpa using hlt), List.getElem?_map, hc]
      rfl
  | prune =>
    simp only [Host.step] at hs
    split at hs
    · cases hs
    · rename_i hn
      simp only [Bool.not_eq_true] at hn
      simp only [Option.some.injEq] at hs
      subst hs
      refine ⟨pruned c, ?_, hprune hn _ rfl rfl⟩
      simp only [List.getElem?_map, hc]
      rfl
  | stop now =>
    simp only [Host.step] at hs
    split at hs
    · cases hs
    · rename_i hn
      simp only [Bool.not_eq_true] at hn
      have hn' : h.held = none := by simpa using hn
      have hb : (h.held == some i) = false := by rw [hn']; rfl
      simp only [Option.some.injEq] at hs
      subst hs
      refine ⟨{ c with isOpen := c.isOpen && !(now && c.pooled) }, by simp only [List.getElem?_map, hc]; rfl, ?_⟩
      simp only [forConn, Exchange.St.run, Exchange.St.step, seen, hb, Bool.false_eq_true, if_false]
  | start =>
    simp only [Host.step] at hs
    split at hs
    · cases hs
    · rename_i hn
      simp only [Bool.not_eq_true] at hn
      have hn' : h.held = none := by simpa using hn
      have hb : (h.held == some i) = false := by rw [hn']; rfl
      simp only [Option.some.injEq] at hs
      subst hs
      refine ⟨c, hc, ?_⟩
      simp only [forConn, Exchange.St.run, Exchange.St.step, seen, hb, Bool.false_eq_true, if_false]
  | other =>
    simp only [Host.step] at hs
    split at hs
    · cases hs
    · rename_i hn
      simp only [Bool.not_eq_true] at hn
      have hn' : h.held = none := by simpa using hn
      have hb : (h.held == some i) = false := by rw [hn']; rfl
      simp only [Option.some.injEq] at hs
      subst hs
      refine ⟨c, hc, ?_⟩
      simp only [forConn, Exchange.St.run, Exchange.St.step, seen, hb, Bool.false_eq_true, if_false]

theorem length_step {w : Nat → World} {h h' : Host} {a : Act} (hs : h.step w a = some h') :
    h'.conns.length = if a = .accept then h.conns.length + 1 else h.conns.length := by
  cases a with
  | conn i a =>
    simp only [Host.step] at hs
    split at hs
    · split at hs
      · cases hs
      · split at hs
        · cases hs
        · simp only [Option.some.injEq] at hs; subst hs; simp
    · cases hs
  | accept =>
    simp only [Host.step] at hs
    split at hs
    · cases hs
    · simp only [Option.some.injEq] at hs; subst hs; simp
  | stop now =>
    simp only [Host.step] at hs
    split at hs
    · cases hs
    · simp only [Option.some.injEq] at hs; subst hs; simp
  | start =>
    simp only [Host.step] at hs
    split at hs
    · cases hs
    · simp only [Option.some.injEq] at hs; subst hs; simp
  | prune =>
    simp only [Host.step] at hs
    split at hs
    · cases hs
    · simp only [Option.some.injEq] at hs; subst hs; simp
  | other =>
    simp only [Host.step] at hs
    split at hs
    · cases hs
    · simp only [Option.some.injEq] at hs; subst hs; simp

theorem project_there {w : Nat → World} (as : List Act) {h h' : Host} (hl : Locks h) (hs : h.run w as = some h') {i : Nat} {c : St}
    (hc : h.conns[i]? = some c) :
    ∃ c', h'.conns[i]? = some c' ∧
      (seen h i c).run (w i) (project i h.conns.length as) = some (seen h' i c') := by
  induction as generalizing h c with
  | nil => simp only [Host.run, Option.some.injEq] at hs; subst hs; exact ⟨c, hc, rfl⟩
  | cons a as ih =>
    simp only [Host.run] at hs
    cases hst : h.step w a with
    | none => rw [hst] at hs; cases hs
    | some h1 =>
      rw [hst] at hs
      simp only at hs
      have hlt : i < h.conns.length := (List.getElem?_eq_some_iff.1 hc).1
      obtain ⟨c1, hc1, hr1⟩ := project_step hl hst hc
      obtain ⟨c', hc', hr'⟩ := ih (locks_step hl hst) hs hc1
      refine ⟨c', hc', ?_⟩
      simp only [project, hlt, if_true]
      rw [run_append, hr1, Option.bind_some, ← length_step hst]
      exact hr'

theorem project_new {w : Nat → World} (as : List Act) {h h' : Host} (hl : Locks h) (hs : h.run w as = some h') {i : Nat} {c : St}
    (hi : h.conns.length ≤ i) (hc : h'.conns[i]? = some c) :
    Exchange.run (w i) (project i h.conns.length as) = some (seen h' i c) := by
  induction as generalizing h with
  | nil =>
    simp only [Host.run, Option.some.injEq] at hs
    subst hs
    have := (List.getElem?_eq_some_iff.1 hc).1
    omega
  | cons a as ih =>
    simp only [Host.run] at hs
    cases hst : h.step w a with
    | none => rw [hst] at hs; cases hs
    | some h1 =>
      rw [hst] at hs
      simp only at hs
      simp only [project, Nat.not_lt.2 hi, if_false, List.nil_append]
      rw [← length_step hst]
      by_cases hlt : h1.conns.length ≤ i
      · exact ih (locks_step hl hst) hs hlt
      · -- the connection is new
        have hlen := length_step hst
        have ha : a = .accept := by
          by_contra hne
          rw [if_neg hne] at hlen
          omega
        subst ha
        simp only [Host.step] at hst
        split at hst
        · cases hst
        · rename_i hn
          simp only [not_or, Bool.not_eq_true, Bool.not_eq_false] at hn
          have hn1 : h.held = none := by simpa using hn.1
          simp only [Option.some.injEq] at hst
          have hi' : i = h.conns.length := by simp at hlen; omega
          have hget : h1.conns[i]? = some {} := by
            rw [← hst, hi']
            simp
          obtain ⟨c', hc', hr'⟩ := project_there as (locks_step hl (a := .accept) (h' := h1) (w := w) (by
            simp only [Host.step]
            rw [if_neg (by simp [hn.1, hn.2]), hst])) hs hget
          rw [hc] at hc'
          cases hc'
          have : seen h1 i {} = {} := by
            rw [← hst]; simp [seen, hn.2, hn1]
          rw [this] at hr'
          exact hr'

/-- What a connection does is what is projected to it. -/
theorem project_run {w : Nat → World} {as : List Act} {h : Host} (hs : run w as = some h) {i : Nat} {c : St}
    (hc : h.conns[i]? = some c) : Exchange.run (w i) (project i 0 as) = some (seen h i c) :=
  project_new as (h := {}) locks_init hs (Nat.zero_le _) hc

/-- If no other connection holds the mutex, the steps a connection can do by itself are those of the server. -/
theorem lift_step {w : Nat → World} {h : Host} {i : Nat} {c s' : St} {a : Exchange.Act} (hh : h.held = none ∨ h.held = some i)
    (hc : h.conns[i]? = some c) (ha : single a = true) (hs : (seen h i c).step (w i) a = some s') :
    ∃ h', h.step w (.conn i a) = some h' ∧ h'.conns = h.conns.set i s' ∧ h'.listening = h.listening ∧ seen h' i s' = s' ∧
      (h'.held = none ∨ h'.held = some i) := by
  have hv : ({ c with listening := h.listening, held := h.held.isSome } : St) = seen h i c := by
    rcases hh with hh | hh <;> simp [seen, hh]
  have hlist : s'.listening = h.listening := by rw [listening_step ha hs]; rfl
  refine ⟨{ h with
    held := if s'.held = h.held.isSome then h.held else if s'.held then some i else none
    conns := h.conns.set i s' }, ?_, rfl, rfl, ?_, ?_⟩
  · simp only [Host.step, ha, if_true, hc, hv, hs]
  · have : ((if s'.held = h.held.isSome then h.held else if s'.held then some i else none) == some i) = s'.held := by
      rcases hh with hh | hh <;> cases s'.held <;> simp [hh]
    simp only [seen, this, ← hlist]
  · rcases hh with hh | hh <;> cases s'.held <;> simp [hh]

theorem lift_run {w : Nat → World} (as : List Exchange.Act) {h : Host} {i : Nat} {c s' : St}
    (hh : h.held = none ∨ h.held = some i) (hc : h.conns[i]? = some c) (ha : ∀ a ∈ as, single a = true)
    (hs : (seen h i c).run (w i) as = some s') :
    ∃ h' c', h.run w (as.map (.conn i)) = some h' ∧ h'.conns = h.conns.set i c' ∧ h'.listening = h.listening ∧ seen h' i c' = s' ∧
      (h'.held = none ∨ h'.held = some i) := by
  have hlt : i < h.conns.length := (List.getElem?_eq_some_iff.1 hc).1
  induction as generalizing h c with
  | nil =>
    simp only [Exchange.St.run, Option.some.injEq] at hs
    refine ⟨h, c, rfl, ?_, rfl, hs, hh⟩
    obtain ⟨hlt, rfl⟩ := List.getElem?_eq_some_iff.1 hc
    simp
  | cons a as ih =>
    simp only [Exchange.St.run] at hs
    cases hst : (seen h i c).step (w i) a with
    | none => rw [hst] at hs; cases hs
    | some s1 =>
      rw [hst] at hs
      simp only at hs
      obtain ⟨h1, k1, k2, k3, k4, k5⟩ := lift_step hh hc (ha a List.mem_cons_self) hst
      have hlt1 : i < h1.conns.length := by rw [k2]; simpa using hlt
      obtain ⟨h', c', e1, e2, e3, e4, e5⟩ := ih (h := h1) (c := s1) k5 (by rw [k2, List.getElem?_set_self hlt])
        (fun b hb => ha b (List.mem_cons_of_mem _ hb)) (by rw [k4]; exact hs) hlt1
      refine ⟨h', c', ?_, ?_, by rw [e3, k3], e4, e5⟩
      · simp only [List.map_cons, Host.run, k1, e1]
      · rw [e2, k2, List.set_set]

theorem host_run_append {w : Nat → World} {h : Host} (as bs : List Act) :
    h.run w (as ++ bs) = (h.run w as).bind (·.run w bs) := by
  induction as generalizing h with
  | nil => rfl
  | cons a as ih =>
    simp only [List.cons_append, Host.run]
    cases h.step w a with
    | none => rfl
    | some s' => simpa using ih

theorem own_single {a : Exchange.Act} (h : Spec.Exchange.own a = true) : single a = true := by
  cases a <;> first | rfl | cases h

/-- If each connection can be brought by itself into a state that is wanted, all can, one after another. -/
theorem all_settle {w : Nat → World} (ok : Exchange.Act → Prop) (hok : ∀ a, ok a → single a = true) (Q : St → Prop)
    (hQ : ∀ s, Q s → s.held = false) {h : Host} (hheld : ∀ i, h.held = some i → i < h.conns.length)
    (hset : ∀ i c, h.conns[i]? = some c → ∃ as s', (∀ a ∈ as, ok a) ∧ (seen h i c).run (w i) as = some s' ∧ Q s') :
    ∃ as h', (∀ a ∈ as, ∃ i b, a = .conn i b ∧ ok b) ∧ h.run w as = some h' ∧ h'.held = none ∧ h'.listening = h.listening ∧
      h'.conns.length = h.conns.length ∧ ∀ i c, h'.conns[i]? = some c → Q (seen h' i c) := by
  -- one connection
  have one : ∀ (h : Host) i c, h.conns[i]? = some c → (h.held = none ∨ h.held = some i) →
      (∃ as s', (∀ a ∈ as, ok a) ∧ (seen h i c).run (w i) as = some s' ∧ Q s') →
      ∃ as h' c', (∀ a ∈ as, ∃ i b, a = Act.conn i b ∧ ok b) ∧ h.run w as = some h' ∧ h'.held = none ∧
        h'.listening = h.listening ∧ h'.conns = h.conns.set i c' ∧ Q (seen h' i c') := by
    intro h i c hc hh ⟨as, s', h1, h2, h3⟩
    obtain ⟨h', c', e1, e2, e3, e4, e5⟩ := lift_run as hh hc (fun a ha => hok a (h1 a ha)) h2
    refine ⟨_, h', c', ?_, e1, ?_, e3, e2, by rw [e4]; exact h3⟩
    · intro a ha
      obtain ⟨b, hb, rfl⟩ := List.mem_map.1 ha
      exact ⟨i, b, rfl, h1 b hb⟩
    · rcases e5 with e5 | e5
      · exact e5
      · have := hQ s' h3
        rw [← e4] at this
        simp [seen, e5] at this
  -- the first n, if the mutex is free
  have many : ∀ (n : Nat) (h : Host), h.held = none →
      (∀ i c, h.conns[i]? = some c → ∃ as s', (∀ a ∈ as, ok a) ∧ (seen h i c).run (w i) as = some s' ∧ Q s') →
      n ≤ h.conns.length →
      ∃ as h', (∀ a ∈ as, ∃ i b, a = Act.conn i b ∧ ok b) ∧ h.run w as = some h' ∧ h'.held = none ∧ h'.listening = h.listening ∧
        h'.conns.length = h.conns.length ∧ (∀ i c, i < n → h'.conns[i]? = some c → Q (seen h' i c)) ∧
        (∀ i, n ≤ i → h'.conns[i]? = h.conns[i]?) := by
    intro n
    induction n with
    | zero => intro h hh _ _; exact ⟨[], h, by simp, rfl, hh, rfl, rfl, by simp, fun _ _ => rfl⟩
    | succ n ih =>
      intro h hh hs hn
      obtain ⟨as, h1, a1, a2, a3, a4, a5, a6, a7⟩ := ih h hh hs (by omega)
      have hlt : n < h1.conns.length := by omega
      have hget : h1.conns[n]? = some h1.conns[n] := List.getElem?_eq_getElem hlt
      have hsame : ∀ c, seen h1 n c = seen h n c := by intro c; simp [seen, a3, a4, hh]
      obtain ⟨bs, h2, c', b1, b2, b3, b4, b5, b6⟩ := one h1 n _ hget (.inl a3) (by
        rw [hsame]
        exact hs n _ (by rw [← a7 n (Nat.le_refl _), hget]))
      refine ⟨as ++ bs, h2, ?_, by rw [host_run_append, a2, Option.bind_some, b2], b3, by rw [b4, a4], by rw [b5]; simpa using a5,
        ?_, ?_⟩
      · intro a ha
        rcases List.mem_append.1 ha with ha | ha
        · exact a1 a ha
        · exact b1 a ha
      · intro i c hi hc
        rw [b5] at hc
        by_cases hin : n = i
        · subst hin
          rw [List.getElem?_set_self hlt] at hc
          cases hc
          exact b6
        · rw [List.getElem?_set_ne hin] at hc
          have := a6 i c (by omega) hc
          have hs2 : seen h2 i c = seen h1 i c := by simp [seen, b3, b4, a3]
          rw [hs2]; exact this
      · intro i hi
        rw [b5, List.getElem?_set_ne (by omega), a7 i (by omega)]
  cases hh : h.held with
  | none =>
    obtain ⟨as, h', a1, a2, a3, a4, a5, a6, -⟩ := many _ h hh hset (Nat.le_refl _)
    refine ⟨as, h', a1, a2, a3, a4, a5, fun i c hc => a6 i c ?_ hc⟩
    have := (List.getElem?_eq_some_iff.1 hc).1
    omega
  | some k =>
    have hlt := hheld k hh
    have hget : h.conns[k]? = some h.conns[k] := List.getElem?_eq_getElem hlt
    obtain ⟨bs, h2, c', b1, b2, b3, b4, b5, b6⟩ := one h k _ hget (.inr hh) (hset k _ hget)
    obtain ⟨as, h', a1, a2, a3, a4, a5, a6, -⟩ := many _ h2 b3 (by
      intro i c hc
      rw [b5] at hc
      by_cases hin : k = i
      · subst hin
        rw [List.getElem?_set_self hlt] at hc
        cases hc
        exact ⟨[], _, by simp, rfl, b6⟩
      · rw [List.getElem?_set_ne hin] at hc
        have hs2 : seen h2 i c = seen h i c := by
          have : (h.held == some i) = false := by rw [hh]; simp [hin]
          simp [seen, b3, b4, this]
        rw [hs2]
        exact hset i c hc) (Nat.le_refl _)
    refine ⟨bs ++ as, h', ?_, by rw [host_run_append, b2, Option.bind_some, a2], a3, by rw [a4, b4], by rw [a5, b5]; simp,
      fun i c hc => a6 i c ?_ hc⟩
    · intro a ha
      rcases List.mem_append.1 ha with ha | ha
      · exact b1 a ha
      · exact a1 a ha
    · have := (List.getElem?_eq_some_iff.1 hc).1
      omega

/-- The connection for which the mutex is held is one of the server. -/
theorem holder_step {w : Nat → World} {h h' : Host} {a : Act} (hk : ∀ i, h.held = some i → i < h.conns.length)
    (hs : h.step w a = some h') : ∀ i, h'.held = some i → i < h'.conns.length := by
  intro i hi
  cases a with
  | conn j a =>
    have hlen := length_step hs
    simp only [reduceCtorEq, if_false] at hlen
    simp only [Host.step] at hs
    split at hs
    · split at hs
      · cases hs
      · rename_i c hc
        split at hs
        · cases hs
        · simp only [Option.some.injEq] at hs
          rw [hlen]
          rw [← hs] at hi
          simp only at hi
          split at hi
          · exact hk i hi
          · split at hi
            · cases hi; exact (List.getElem?_eq_some_iff.1 hc).1
            · cases hi
    · cases hs
  | accept =>
    simp only [Host.step] at hs
    split at hs
    · cases hs
    · rename_i hn
      simp only [Option.some.injEq] at hs; subst hs
      simp only at hi
      simp [hi] at hn
  | stop now =>
    simp only [Host.step] at hs
    split at hs
    · cases hs
    · rename_i hn
      simp only [Option.some.injEq] at hs; subst hs
      simp only at hi
      simp [hi] at hn
  | start =>
    simp only [Host.step] at hs
    split at hs
    · cases hs
    · simp only [Option.some.injEq] at hs; subst hs; exact hk i hi
  | prune =>
    simp only [Host.step] at hs
    split at hs
    · cases hs
    · simp only [Option.some.injEq] at hs; subst hs; simpa using hk i hi
  | other =>
    simp only [Host.step] at hs
    split at hs
    · cases hs
    · simp only [Option.some.injEq] at hs; subst hs; exact hk i hi

theorem holder_run {w : Nat → World} (as : List Act) {h h' : Host} (hk : ∀ i, h.held = some i → i < h.conns.length)
    (hs : h.run w as = some h') : ∀ i, h'.held = some i → i < h'.conns.length := by
  induction as generalizing h with
  | nil => simp only [Host.run, Option.some.injEq] at hs; subst hs; exact hk
  | cons a as ih =>
    simp only [Host.run] at hs
    cases hst : h.step w a with
    | none => rw [hst] at hs; cases hs
    | some h1 => rw [hst] at hs; exact ih (holder_step hk hst) hs

theorem locks_run {w : Nat → World} (as : List Act) {h h' : Host} (hl : Locks h) (hs : h.run w as = some h') : Locks h' := by
  induction as generalizing h with
  | nil => simp only [Host.run, Option.some.injEq] at hs; subst hs; exact hl
  | cons a as ih =>
    simp only [Host.run] at hs
    cases hst : h.step w a with
    | none => rw [hst] at hs; cases hs
    | some h1 => rw [hst] at hs; exact ih (locks_step hl hst) hs

theorem mem_project {i : Nat} (as : List Act) {n : Nat} {b : Exchange.Act} (hb : b ∈ project i n as) :
    ∃ a ∈ as, b ∈ forConn i a := by
  induction as generalizing n with
  | nil => simp [project] at hb
  | cons a as ih =>
    simp only [project] at hb
    rcases List.mem_append.1 hb with hb | hb
    · split at hb
      · exact ⟨a, List.mem_cons_self, hb⟩
      · simp at hb
    · obtain ⟨a', h1, h2⟩ := ih hb
      exact ⟨a', List.mem_cons_of_mem _ h1, h2⟩

/-- When the server is stopped, what a connection does by itself starts no reader. -/
theorem own_readers {w : World} {s s' : St} {a : Exchange.Act} (ho : Spec.Exchange.own a = true) (hl : s.listening = false)
    (hs : s.step w a = some s') : s'.readers = s.readers := by
  cases a with
  | call i whole =>
    simp only [Exchange.St.step] at hs
    cases hci : s.calls[i]? with
    | none => rw [hci] at hs; cases hs
    | some c =>
      rw [hci] at hs
      simp only at hs
      cases hgo : s.go w c whole with
      | none => rw [hgo] at hs; cases hs
      | some r =>
        obtain ⟨s2, c2⟩ := r
        have : s2.readers = s.readers := by
          simp only [Exchange.St.go, Exchange.St.finish, hl, Bool.false_and, Bool.false_eq_true, if_false] at hgo
          repeat' split at hgo
          all_goals first
            | (cases hgo; done)
            | (simp only [Option.some.injEq, Prod.mk.injEq] at hgo; obtain ⟨rfl, -⟩ := hgo; rfl)
        rw [hgo] at hs
        cases c2 <;> simp only [Option.some.injEq] at hs <;> subst hs <;> exact this
  | write i k =>
    simp only [Exchange.St.step] at hs
    split at hs
    · cases hs
    · split at hs
      · simp only [Option.some.injEq] at hs; subst hs; rfl
      · cases hs
  | writeEnds i =>
    simp only [Exchange.St.step] at hs
    split at hs
    · cases hs
    · split at hs
      · simp only [Option.some.injEq] at hs; subst hs; rfl
      · cases hs
  | writeFails i =>
    simp only [Exchange.St.step] at hs
    split at hs
    · cases hs
    · simp only [Option.some.injEq] at hs; subst hs; rfl
  | arrive => cases ho
  | readFails => cases ho
  | stop now => cases ho
  | start => cases ho
  | close => cases ho
  | prune => cases ho
  | other => cases ho

theorem own_run_readers {w : World} (as : List Exchange.Act) {s s' : St} (ho : ∀ a ∈ as, Spec.Exchange.own a = true)
    (hl : s.listening = false) (hs : s.run w as = some s') : s'.readers = s.readers := by
  induction as generalizing s with
  | nil => simp only [Exchange.St.run, Option.some.injEq] at hs; subst hs; rfl
  | cons a as ih =>
    simp only [Exchange.St.run] at hs
    cases hst : s.step w a with
    | none => rw [hst] at hs; cases hs
    | some s1 =>
      rw [hst] at hs
      have ha := ho a List.mem_cons_self
      rw [ih (fun b hb => ho b (List.mem_cons_of_mem _ hb)) (by rw [listening_step (own_single ha) hst, hl]) hs,
        own_readers ha hl hst]

/-- If the server is stopped and the client goes away, the connection is given up. -/
theorem ends {w : World} (ho : ∀ n, Spec.Exchange.Orderly (w.prog n)) {s : St} (hg : Exchange.Good w s) (hf : Exchange.Free s)
    (hl : s.listening = false) :
    ∃ as s', (∀ a ∈ as, Spec.Exchange.own a = true ∨ a = .readFails) ∧ s.run w as = some s' ∧ Exchange.Quiet s' ∧
      s'.pooled = false := by
  obtain ⟨as, s1, h1, h2, h3⟩ := Exchange.settles ho hg hf
  have hlist : ∀ (as : List Exchange.Act) (s s' : St), (∀ a ∈ as, Spec.Exchange.own a = true) → s.run w as = some s' →
      s'.listening = s.listening := by
    intro as
    induction as with
    | nil => intro s s' _ h; simp only [Exchange.St.run, Option.some.injEq] at h; subst h; rfl
    | cons a as ih =>
      intro s s' hb h
      simp only [Exchange.St.run] at h
      cases hst : s.step w a with
      | none => rw [hst] at h; cases h
      | some s1 =>
        rw [hst] at h
        rw [ih s1 s' (fun b hm => hb b (List.mem_cons_of_mem _ hm)) h, listening_step (own_single (hb a List.mem_cons_self)) hst]
  rcases h3.waits with hr | ⟨-, hp⟩
  · have hgs := fun a (ha : a ∈ as) => Exchange.own_gentle (h1 a ha)
    have hg1 := Exchange.good_run ho hg h2
    have hf1 := Exchange.free_run ho hgs hg hf h2
    have hl1 : s1.listening = false := by rw [hlist as s s1 h1 h2, hl]
    have hst : s1.step w .readFails = some { s1 with
        readers := s1.readers - 1
        lifecycle := .close
        calls := s1.calls ++ [{ req := s1.next, prog := .finish .done }] } := by
      simp [Exchange.St.step, hr]
    obtain ⟨bs, s3, k1, k2, k3⟩ := Exchange.settles ho (Exchange.good_step ho hg1 hst) (Exchange.free_step ho hg1 hf1 rfl hst)
    refine ⟨as ++ .readFails :: bs, s3, ?_, ?_, k3, ?_⟩
    · intro a ha
      rcases List.mem_append.1 ha with ha | ha
      · exact .inl (h1 a ha)
      · rcases List.mem_cons.1 ha with rfl | ha
        · exact .inr rfl
        · exact .inl (k1 a ha)
    · rw [run_append, h2, Option.bind_some]
      simp only [Exchange.St.run, hst, k2]
    · have := own_run_readers bs k1 (by exact hl1) k2
      simp only [hr] at this
      rcases k3.waits with hx | ⟨-, hx⟩
      · omega
      · exact hx
  · exact ⟨as, s1, fun a ha => .inl (h1 a ha), h2, h3, hp⟩

end Verif.Host
