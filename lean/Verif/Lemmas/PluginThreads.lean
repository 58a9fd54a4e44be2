import Verif.Lemmas.PluginManager
import Verif.Spec.PluginThreads
import Mathlib.Data.List.Induction
namespace Verif.PluginThreads
open SMap Plugins Spec.PluginThreads
/-
The order of the calls on a plug-in manager.
-/

abbrev PSt := Verif.PluginThreads.St

theorem run_snoc (tr : List Act) (x : Act) (s' : PSt) :
    run (tr ++ [x]) = some s' ↔ ∃ s, run tr = some s ∧ s.step x = some s' := by
  unfold run
  rw [List.foldlM_append]
  cases h : List.foldlM St.step {} tr with
  | none => simp
  | some s => simp

theorem run_induct {P : List Act → PSt → Prop} (h0 : P [] {})
    (hs : ∀ tr s x s', run tr = some s → P tr s → s.step x = some s' → P (tr ++ [x]) s')
    {tr : List Act} {s : PSt} (h : run tr = some s) : P tr s := by
  induction tr using List.reverseRecOn generalizing s with
  | nil => cases h; exact h0
  | append_singleton tr x ih =>
    obtain ⟨s0, h1, h2⟩ := (run_snoc ..).1 h
    exact hs _ _ _ _ h1 (ih h1) h2

theorem run_prefix {a b : List Act} {s : PSt} (h : run (a ++ b) = some s) : ∃ s0, run a = some s0 := by
  unfold run at h ⊢
  rw [List.foldlM_append] at h
  cases ha : List.foldlM St.step {} a with
  | none => rw [ha] at h; cases h
  | some s0 => exact ⟨s0, rfl⟩

/-! ### Steps -/

inductive Steps (s : PSt) : Act → PSt → Prop
  | call {i req} : s.calls i = none → Steps s (.call i req) (s.set i (req, .start) s.sh)
  | step {i req pc sh pc'} : s.calls i = some (req, pc) → own i s.sh req pc = some (sh, pc') →
      Steps s (.step i) (s.set i (req, pc') sh)
  | ret {i req a} : s.calls i = some (req, .done a) → Steps s (.ret i a) (s.set i (req, .returned a) s.sh)

theorem steps_of {s : PSt} {x : Act} {s' : PSt} (h : s.step x = some s') : Steps s x s' := by
  cases x with
  | call i req =>
    simp only [St.step] at h
    split at h
    next hc => cases h; exact .call hc
    · cases h
  | step i =>
    simp only [St.step] at h
    split at h
    · cases h
    next req pc hc =>
      split at h
      · cases h
      next sh pc' ho => cases h; exact .step hc ho
  | ret i v =>
    simp only [St.step] at h
    split at h
    next req w hc =>
      split at h
      next hv => cases h; subst hv; exact .ret hc
      · cases h
    · cases h

@[simp] theorem set_self (s : PSt) (i : Nat) (c : Req × Pc) (sh : Shared) : (s.set i c sh).calls i = some c := by
  simp [St.set]
theorem set_other (s : PSt) {i k : Nat} (c : Req × Pc) (sh : Shared) (h : k ≠ i) : (s.set i c sh).calls k = s.calls k := by
  simp [St.set, h]
@[simp] theorem set_sh (s : PSt) (i : Nat) (c : Req × Pc) (sh : Shared) : (s.set i c sh).sh = sh := rfl

theorem _root_.Verif.Spec.PluginThreads.Called.append {a : List Act} {i : Nat} (h : Called a i) (b : List Act) : Called (a ++ b) i :=
  ⟨h.choose, List.mem_append_left _ h.choose_spec⟩
theorem _root_.Verif.Spec.PluginThreads.Returned.append {a : List Act} {i : Nat} (h : Returned a i) (b : List Act) : Returned (a ++ b) i :=
  ⟨h.choose, List.mem_append_left _ h.choose_spec⟩

/-- A beginning of a longer sequence is the whole or a beginning of the shorter one. -/
theorem snoc_split {tr a b : List Act} {x : Act} (h : tr ++ [x] = a ++ b) : (a = tr ++ [x] ∧ b = []) ∨ ∃ b', tr = a ++ b' := by
  rcases List.eq_nil_or_concat b with rfl | ⟨b', y, rfl⟩
  · left; simpa using h.symm
  · right
    rw [List.concat_eq_append, ← List.append_assoc] at h
    exact ⟨b', (List.append_inj' h rfl).1⟩

theorem before_snoc {tr : List Act} {x : Act} {i k : Nat} (hk : Called tr k) (h : Before (tr ++ [x]) i k) : Before tr i k := by
  obtain ⟨a, b, hab, h1, h2⟩ := h
  rcases snoc_split hab with ⟨rfl, _⟩ | ⟨b', rfl⟩
  · exact absurd (hk.append _) h2
  · exact ⟨a, b', rfl, h1, h2⟩

theorem _root_.Verif.Spec.PluginThreads.Before.returned {tr : List Act} {i k : Nat} (h : Before tr i k) : Returned tr i := by
  obtain ⟨a, b, rfl, h1, _⟩ := h
  exact h1.append b

/-- Whether a call holds the mutex between steps. -/
def Pc.holds : Pc → Bool
  | .each .. => true
  | _ => false

structure Base (tr : List Act) (s : PSt) : Prop where
  uncalled : ∀ i, s.calls i = none → ¬Called tr i ∧ ¬Returned tr i
  called : ∀ i req pc, s.calls i = some (req, pc) → (∀ r, .call i r ∈ tr ↔ r = req) ∧ ∀ v, .ret i v ∈ tr ↔ pc = .returned v
  lock : ∀ i, s.sh.lock = some i ↔ ∃ req pc, s.calls i = some (req, pc) ∧ pc.holds = true

theorem own_keeps {i : Nat} {sh : Shared} {req : Req} {pc : Pc} {sh' : Shared} {pc' : Pc}
    (h : own i sh req pc = some (sh', pc')) : (∀ v, pc' ≠ .returned v) ∧ (∀ v, pc ≠ .returned v) ∧
      ((sh'.lock = sh.lock ∧ pc'.holds = pc.holds) ∨
       (sh.lock = none ∧ sh'.lock = some i ∧ pc'.holds = true ∧ pc.holds = false) ∨
       (sh'.lock = none ∧ pc'.holds = false ∧ pc.holds = true)) := by
  have sec : ∀ r, (if sh.lock.isSome = true then none else
      some (({ sh with mgr := (section_ sh.mgr r).2 } : Shared), Pc.done (section_ sh.mgr r).1)) = some (sh', pc') →
      (∀ v, pc' ≠ .returned v) ∧ sh'.lock = sh.lock ∧ pc'.holds = false := by
    intro r h
    split at h
    · cases h
    · cases h; exact ⟨nofun, rfl, rfl⟩
  cases pc with
  | start =>
    cases req with
    | load id lib opens obj =>
      simp only [own, Option.some.injEq, Prod.mk.injEq] at h; obtain ⟨rfl, rfl⟩ := h
      split <;> exact ⟨nofun, nofun, .inl ⟨rfl, rfl⟩⟩
    | runAll cb =>
      simp only [own] at h
      split at h
      · cases h
      next hl => cases h; exact ⟨nofun, nofun, .inr (.inl ⟨by simpa using hl, rfl, rfl, rfl⟩)⟩
    | run id =>
      simp only [own] at h
      split at h
      · cases h
      · split at h <;> (cases h; exact ⟨nofun, nofun, .inl ⟨rfl, rfl⟩⟩)
    | add id obj => obtain ⟨h1, h2, h3⟩ := sec _ h; exact ⟨h1, nofun, .inl ⟨h2, h3⟩⟩
    | remove id => obtain ⟨h1, h2, h3⟩ := sec _ h; exact ⟨h1, nofun, .inl ⟨h2, h3⟩⟩
    | replace id obj => obtain ⟨h1, h2, h3⟩ := sec _ h; exact ⟨h1, nofun, .inl ⟨h2, h3⟩⟩
    | clear => obtain ⟨h1, h2, h3⟩ := sec _ h; exact ⟨h1, nofun, .inl ⟨h2, h3⟩⟩
    | empty => obtain ⟨h1, h2, h3⟩ := sec _ h; exact ⟨h1, nofun, .inl ⟨h2, h3⟩⟩
    | get id => obtain ⟨h1, h2, h3⟩ := sec _ h; exact ⟨h1, nofun, .inl ⟨h2, h3⟩⟩
    | getLib id => obtain ⟨h1, h2, h3⟩ := sec _ h; exact ⟨h1, nofun, .inl ⟨h2, h3⟩⟩
    | find r => obtain ⟨h1, h2, h3⟩ := sec _ h; exact ⟨h1, nofun, .inl ⟨h2, h3⟩⟩
  | opening =>
    simp only [own] at h
    split at h
    · cases h; split <;> exact ⟨nofun, nofun, .inl ⟨rfl, rfl⟩⟩
    · cases h
  | insert =>
    simp only [own] at h
    split at h
    · split at h
      · cases h
      · cases h; exact ⟨nofun, nofun, .inl ⟨rfl, rfl⟩⟩
    · cases h
  | calling o => cases h; exact ⟨nofun, nofun, .inl ⟨rfl, rfl⟩⟩
  | each ran rest =>
    cases rest with
    | nil => cases h; exact ⟨nofun, nofun, .inr (.inr ⟨rfl, rfl, rfl⟩)⟩
    | cons o rest =>
      simp only [own] at h
      split at h
      · cases h
      · cases h; exact ⟨nofun, nofun, .inl ⟨rfl, rfl⟩⟩
  | done => cases h
  | returned => cases h

theorem base {tr : List Act} {s : PSt} (h : run tr = some s) : Base tr s := by
  refine run_induct (P := Base) ⟨fun i _ => ⟨(fun ⟨_, h⟩ => by cases h), (fun ⟨_, h⟩ => by cases h)⟩, nofun,
    fun i => ⟨nofun, fun ⟨_, _, h, _⟩ => by cases h⟩⟩ ?_ h
  clear h tr s
  intro tr s x s' _ hb hx
  cases steps_of hx with
  | call hc =>
    rename_i i req
    refine ⟨?_, ?_, ?_⟩
    · intro k hk
      by_cases hki : k = i
      · subst hki; rw [set_self] at hk; cases hk
      · rw [set_other _ _ _ hki] at hk
        obtain ⟨h1, h2⟩ := hb.uncalled k hk
        refine ⟨?_, ?_⟩
        · rintro ⟨r, hr⟩
          simp only [List.mem_append, List.mem_singleton, Act.call.injEq] at hr
          rcases hr with hr | hr
          · exact h1 ⟨r, hr⟩
          · exact hki hr.1
        · rintro ⟨v, hr⟩
          simp at hr
          exact h2 ⟨v, hr⟩
    · intro k r pc hk
      by_cases hki : k = i
      · subst hki; rw [set_self] at hk; cases hk
        obtain ⟨h1, h2⟩ := hb.uncalled k hc
        refine ⟨fun r => ?_, fun v => ?_⟩
        · simp only [List.mem_append, List.mem_singleton, Act.call.injEq, true_and]
          exact ⟨fun h => h.resolve_left fun h => h1 ⟨r, h⟩, .inr⟩
        · simp only [List.mem_append, List.mem_singleton, reduceCtorEq, or_false, iff_false]
          exact fun h => h2 ⟨v, h⟩
      · rw [set_other _ _ _ hki] at hk
        obtain ⟨h1, h2⟩ := hb.called k _ _ hk
        refine ⟨fun r => ?_, fun v => ?_⟩
        · simp only [List.mem_append, List.mem_singleton, Act.call.injEq, hki, false_and, or_false]
          exact h1 r
        · simp only [List.mem_append, List.mem_singleton, reduceCtorEq, or_false]
          exact h2 v
    · intro k
      rw [set_sh, hb.lock k]
      by_cases hki : k = i
      · subst hki; rw [set_self, hc]
        constructor
        · rintro ⟨_, _, h, _⟩; cases h
        · rintro ⟨_, _, h, h'⟩; cases h; cases h'
      · rw [set_other _ _ _ hki]
  | ret hc =>
    rename_i i req v
    refine ⟨?_, ?_, ?_⟩
    · intro k hk
      by_cases hki : k = i
      · subst hki; rw [set_self] at hk; cases hk
      · rw [set_other _ _ _ hki] at hk
        obtain ⟨h1, h2⟩ := hb.uncalled k hk
        refine ⟨?_, ?_⟩
        · rintro ⟨r, hr⟩
          simp at hr
          exact h1 ⟨r, hr⟩
        · rintro ⟨v, hr⟩
          simp only [List.mem_append, List.mem_singleton, Act.ret.injEq] at hr
          rcases hr with hr | hr
          · exact h2 ⟨v, hr⟩
          · exact hki hr.1
    · intro k r pc hk
      by_cases hki : k = i
      · subst hki; rw [set_self] at hk; cases hk
        obtain ⟨h1, h2⟩ := hb.called k _ _ hc
        refine ⟨fun r => ?_, fun w => ?_⟩
        · simp only [List.mem_append, List.mem_singleton, reduceCtorEq, or_false]
          exact h1 r
        · simp only [List.mem_append, List.mem_singleton, Act.ret.injEq, true_and, Pc.returned.injEq, h2, reduceCtorEq, false_or]
          exact eq_comm
      · rw [set_other _ _ _ hki] at hk
        obtain ⟨h1, h2⟩ := hb.called k _ _ hk
        refine ⟨fun r => ?_, fun v => ?_⟩
        · simp only [List.mem_append, List.mem_singleton, reduceCtorEq, or_false]
          exact h1 r
        · simp only [List.mem_append, List.mem_singleton, Act.ret.injEq, hki, false_and, or_false]
          exact h2 v
    · intro k
      rw [set_sh, hb.lock k]
      by_cases hki : k = i
      · subst hki; rw [set_self, hc]
        constructor
        · rintro ⟨_, _, h, h'⟩; cases h; cases h'
        · rintro ⟨_, _, h, h'⟩; cases h; cases h'
      · rw [set_other _ _ _ hki]
  | step hc ho =>
    rename_i i req pc sh pc'
    obtain ⟨k1, k2, k3⟩ := own_keeps ho
    refine ⟨?_, ?_, ?_⟩
    · intro k hk
      by_cases hki : k = i
      · subst hki; rw [set_self] at hk; cases hk
      · rw [set_other _ _ _ hki] at hk
        obtain ⟨h1, h2⟩ := hb.uncalled k hk
        refine ⟨?_, ?_⟩
        · rintro ⟨r, hr⟩
          simp at hr
          exact h1 ⟨r, hr⟩
        · rintro ⟨v, hr⟩
          simp at hr
          exact h2 ⟨v, hr⟩
    · intro k r pc1 hk
      by_cases hki : k = i
      · subst hki; rw [set_self] at hk; cases hk
        obtain ⟨h1, h2⟩ := hb.called k _ _ hc
        refine ⟨fun r => ?_, fun w => ?_⟩
        · simp only [List.mem_append, List.mem_singleton, reduceCtorEq, or_false]
          exact h1 r
        · simp only [List.mem_append, List.mem_singleton, reduceCtorEq, or_false, h2]
          exact ⟨fun h => absurd h (k2 w), fun h => absurd h (k1 w)⟩
      · rw [set_other _ _ _ hki] at hk
        obtain ⟨h1, h2⟩ := hb.called k _ _ hk
        refine ⟨fun r => ?_, fun v => ?_⟩
        · simp only [List.mem_append, List.mem_singleton, reduceCtorEq, or_false]
          exact h1 r
        · simp only [List.mem_append, List.mem_singleton, reduceCtorEq, or_false]
          exact h2 v
    · have self : (∃ r p, (s.set i (req, pc') sh).calls i = some (r, p) ∧ p.holds = true) ↔ pc'.holds = true := by
        rw [set_self]
        constructor
        · rintro ⟨_, _, h, h'⟩; cases h; exact h'
        · exact fun h => ⟨_, _, rfl, h⟩
      have was : (∃ r p, s.calls i = some (r, p) ∧ p.holds = true) ↔ pc.holds = true := by
        rw [hc]
        constructor
        · rintro ⟨_, _, h, h'⟩; cases h; exact h'
        · exact fun h => ⟨_, _, rfl, h⟩
      intro k
      rw [set_sh]
      have hi := hb.lock i
      have hk := hb.lock k
      by_cases hki : k = i
      · subst hki
        rw [self]
        rw [was] at hi
        rcases k3 with ⟨e1, e2⟩ | ⟨e1, e2, e3, e4⟩ | ⟨e1, e2, e3⟩
        · rw [e1, e2]; exact hi
        · simp [e2, e3]
        · simp [e1, e2]
      · rw [set_other _ _ _ hki, ← hk]
        rw [was] at hi
        rcases k3 with ⟨e1, e2⟩ | ⟨e1, e2, e3, e4⟩ | ⟨e1, e2, e3⟩
        · rw [e1]
        · rw [e1, e2]
          simpa using fun h : i = k => hki h.symm
        · rw [e1, hi.2 e3]
          simpa using fun h : i = k => hki h.symm

/-! ### The order -/

/-- What is decided of a call. -/
def decided : Req → Pc → Option Ans
  | _, .done a => some a
  | _, .returned a => some a
  | _, .calling o => some (.ran [o])
  | _, .each ran rest => some (.ran (ran ++ rest))
  | .load _ _ false _, .opening => some .noLibrary
  | _, _ => none

/-- The operation of C39 that a call amounts to. -/
def opOf : Req → Option Op
  | .add id obj => some (.add id obj)
  | .load id lib opens obj => some (.load id lib opens obj)
  | .remove id => some (.remove id)
  | .replace id obj => some (.replace id obj)
  | .clear => some .clear
  | _ => none

theorem lax_op {m : Mgr} {req : Req} {a : Ans} {m' : Mgr} (h : Lax m req a m') :
    m' = match opOf req with | none => m | some op => (step m op).2 := by
  rcases h with h | ⟨id, lib, obj, rfl, h1, rfl, rfl⟩
  · unfold Strict at h
    cases req <;> (simp only [seq, Prod.mk.injEq] at h; exact h.2.symm)
  · obtain ⟨e, he⟩ := Option.isSome_iff_exists.1 h1
    simp [opOf, step, he]

theorem legal_run {m m' : Mgr} {lin : List (Nat × Req × Ans)} (h : Legal Lax m lin m') :
    m' = (lin.filterMap (fun e => opOf e.2.1)).foldl (fun m op => (step m op).2) m := by
  induction lin generalizing m with
  | nil => exact h
  | cons e l ih =>
    obtain ⟨m1, h1, h2⟩ := h
    have := ih h2
    rw [this, lax_op h1, List.filterMap_cons]
    cases opOf e.2.1 <;> rfl

theorem legal_imp {R R' : Mgr → Req → Ans → Mgr → Prop} (hR : ∀ m r a m', R m r a m' → R' m r a m') {m m' : Mgr}
    {lin : List (Nat × Req × Ans)} (h : Legal R m lin m') : Legal R' m lin m' := by
  induction lin generalizing m with
  | nil => exact h
  | cons e l ih =>
    obtain ⟨m1, h1, h2⟩ := h
    exact ⟨m1, hR _ _ _ _ h1, ih h2⟩

theorem legal_snoc {R : Mgr → Req → Ans → Mgr → Prop} {m m1 m2 : Mgr} {lin : List (Nat × Req × Ans)}
    {e : Nat × Req × Ans} (h : Legal R m lin m1) (he : R m1 e.2.1 e.2.2 m2) : Legal R m (lin ++ [e]) m2 := by
  induction lin generalizing m with
  | nil => cases h; exact ⟨m2, he, rfl⟩
  | cons x l ih =>
    obtain ⟨m', h1, h2⟩ := h
    exact ⟨m', h1, ih h2⟩

/-- What a step does: nothing that counts, or it decides the call. -/
theorem own_lin {i : Nat} {sh : Shared} {req : Req} {pc : Pc} {sh' : Shared} {pc' : Pc}
    (h : own i sh req pc = some (sh', pc')) :
    (decided req pc' = decided req pc ∧ sh'.mgr = sh.mgr) ∨
    (decided req pc = none ∧ ∃ a, decided req pc' = some a ∧ Strict sh.mgr req a sh'.mgr) ∨
    (pc = .insert ∧ pc' = .done .ok ∧ ∃ id lib opens obj, req = .load id lib opens obj ∧
      sh'.mgr = { sh.mgr with map := sh.mgr.map.insert id { obj, lib := some lib } }) := by
  have sec : ∀ r, (if sh.lock.isSome = true then none else
      some (({ sh with mgr := (section_ sh.mgr r).2 } : Shared), Pc.done (section_ sh.mgr r).1)) = some (sh', pc') →
      pc' = .done (section_ sh.mgr r).1 ∧ sh'.mgr = (section_ sh.mgr r).2 := by
    intro r h
    split at h
    · cases h
    · cases h; exact ⟨rfl, rfl⟩
  cases pc with
  | start =>
    cases req with
    | load id lib opens obj =>
      simp only [own, Option.some.injEq, Prod.mk.injEq] at h; obtain ⟨rfl, rfl⟩ := h
      split
      next hl =>
        obtain ⟨e, he⟩ := Option.isSome_iff_exists.1 hl
        exact .inr (.inl ⟨rfl, _, rfl, by simp [Strict, seq, step, he, ofRes]⟩)
      next hl =>
        have hl : sh.mgr.map.lookup id = none := by simpa using hl
        cases opens with
        | true => exact .inl ⟨rfl, rfl⟩
        | false => exact .inr (.inl ⟨rfl, _, rfl, by simp [Strict, seq, step, hl, ofRes]⟩)
    | runAll cb =>
      simp only [own] at h
      split at h
      · cases h
      next hl => cases h; exact .inr (.inl ⟨rfl, _, rfl, rfl⟩)
    | run id =>
      simp only [own] at h
      split at h
      · cases h
      · split at h
        next hg => cases h; exact .inr (.inl ⟨rfl, _, rfl, by simp [Strict, seq, hg]⟩)
        next hg => cases h; exact .inr (.inl ⟨rfl, _, rfl, by simp [Strict, seq, hg]⟩)
    | add id obj => obtain ⟨rfl, h2⟩ := sec _ h; exact .inr (.inl ⟨rfl, _, rfl, by rw [h2]; rfl⟩)
    | remove id => obtain ⟨rfl, h2⟩ := sec _ h; exact .inr (.inl ⟨rfl, _, rfl, by rw [h2]; rfl⟩)
    | replace id obj => obtain ⟨rfl, h2⟩ := sec _ h; exact .inr (.inl ⟨rfl, _, rfl, by rw [h2]; rfl⟩)
    | clear => obtain ⟨rfl, h2⟩ := sec _ h; exact .inr (.inl ⟨rfl, _, rfl, by rw [h2]; rfl⟩)
    | empty => obtain ⟨rfl, h2⟩ := sec _ h; exact .inr (.inl ⟨rfl, _, rfl, by rw [h2]; rfl⟩)
    | get id => obtain ⟨rfl, h2⟩ := sec _ h; exact .inr (.inl ⟨rfl, _, rfl, by rw [h2]; rfl⟩)
    | getLib id => obtain ⟨rfl, h2⟩ := sec _ h; exact .inr (.inl ⟨rfl, _, rfl, by rw [h2]; rfl⟩)
    | find r => obtain ⟨rfl, h2⟩ := sec _ h; exact .inr (.inl ⟨rfl, _, rfl, by rw [h2]; rfl⟩)
  | opening =>
    simp only [own] at h
    split at h
    · cases h
      rename_i opens _
      left
      cases opens <;> exact ⟨rfl, rfl⟩
    · cases h
  | insert =>
    simp only [own] at h
    split at h
    · split at h
      · cases h
      · cases h; exact .inr (.inr ⟨rfl, rfl, _, _, _, _, rfl, rfl⟩)
    · cases h
  | calling o => cases h; exact .inl ⟨by simp [decided], rfl⟩
  | each ran rest =>
    cases rest with
    | nil => cases h; exact .inl ⟨by simp [decided], rfl⟩
    | cons o rest =>
      simp only [own] at h
      split at h
      · cases h
      · cases h; exact .inl ⟨by simp [decided], rfl⟩
  | done => cases h
  | returned => cases h

/-- A call at the insertion is a `load` whose library opened. -/
theorem at_insert {tr : List Act} {s : PSt} (h : run tr = some s) :
    ∀ i req, s.calls i = some (req, .insert) → ∃ id lib obj, req = .load id lib true obj := by
  refine run_induct (P := fun _ s => ∀ i req, s.calls i = some (req, .insert) → ∃ id lib obj, req = .load id lib true obj)
    nofun ?_ h
  clear h tr s
  intro tr s x s' _ ih hx i req hi
  cases steps_of hx with
  | call hc =>
    rename_i k r
    by_cases hik : i = k
    · subst hik; rw [set_self] at hi; cases hi
    · rw [set_other _ _ _ hik] at hi; exact ih i req hi
  | ret hc =>
    rename_i k r v
    by_cases hik : i = k
    · subst hik; rw [set_self] at hi; cases hi
    · rw [set_other _ _ _ hik] at hi; exact ih i req hi
  | step hc ho =>
    rename_i k r pc sh pc'
    by_cases hik : i = k
    · subst hik; rw [set_self] at hi; cases hi
      cases pc with
      | opening =>
        simp only [own] at ho
        split at ho
        next id lib opens obj =>
          cases opens with
          | true => exact ⟨_, _, _, rfl⟩
          | false => cases ho
        · cases ho
      | start =>
        cases req with
        | load id lib opens obj =>
          simp only [own, Option.some.injEq, Prod.mk.injEq] at ho
          obtain ⟨_, ho⟩ := ho
          split at ho <;> cases ho
        | runAll cb => simp only [own] at ho; split at ho <;> cases ho
        | run id =>
          simp only [own] at ho
          split at ho
          · cases ho
          · split at ho <;> cases ho
        | _ => simp only [own] at ho; split at ho <;> cases ho
      | insert => simp only [own] at ho; split at ho
                  · split at ho <;> cases ho
                  · cases ho
      | calling => cases ho
      | each ran rest => cases rest with
        | nil => cases ho
        | cons o rest => simp only [own] at ho; split at ho <;> cases ho
      | done => cases ho
      | returned => cases ho
    · rw [set_other _ _ _ hik] at hi; exact ih i req hi

/-- The order so far. -/
structure Lin (R : Mgr → Req → Ans → Mgr → Prop) (tr : List Act) (s : PSt) (lin : List (Nat × Req × Ans)) : Prop where
  mem : ∀ i req a, (i, req, a) ∈ lin ↔ ∃ pc, s.calls i = some (req, pc) ∧ decided req pc = some a
  once : (lin.map (·.1)).Nodup
  order : lin.Pairwise fun x y => ¬Before tr y.1 x.1
  legal : Legal R {} lin s.sh.mgr

theorem Lin.keep {R : Mgr → Req → Ans → Mgr → Prop} {tr : List Act} {s s' : PSt} {lin : List (Nat × Req × Ans)} {x : Act}
    (h : Lin R tr s lin) (hb : Base tr s) (hm : s'.sh.mgr = s.sh.mgr)
    (hd : ∀ i req a, (∃ pc, s'.calls i = some (req, pc) ∧ decided req pc = some a) ↔
      ∃ pc, s.calls i = some (req, pc) ∧ decided req pc = some a) : Lin R (tr ++ [x]) s' lin := by
  refine ⟨fun i req a => by rw [h.mem, hd], h.once, ?_, by rw [hm]; exact h.legal⟩
  refine h.order.imp_of_mem fun {a b} ha hb' hn hcon => hn (before_snoc ?_ hcon)
  obtain ⟨pc, hc, _⟩ := (h.mem a.1 a.2.1 a.2.2).1 ha
  exact ⟨a.2.1, ((hb.called _ _ _ hc).1 _).2 rfl⟩

theorem Lin.add {R : Mgr → Req → Ans → Mgr → Prop} {tr : List Act} {s : PSt} {lin : List (Nat × Req × Ans)} {i : Nat}
    {req : Req} {pc pc' : Pc} {sh : Shared} {a : Ans} (h : Lin R tr s lin) (hb : Base tr s)
    (hc : s.calls i = some (req, pc)) (hn : decided req pc = none) (hd : decided req pc' = some a)
    (hnr : ∀ v, pc ≠ .returned v) (hR : R s.sh.mgr req a sh.mgr) :
    Lin R (tr ++ [.step i]) (s.set i (req, pc') sh) (lin ++ [(i, req, a)]) := by
  have hout : ∀ e ∈ lin, e.1 ≠ i := by
    intro e he hei
    obtain ⟨p, h1, h2⟩ := (h.mem e.1 e.2.1 e.2.2).1 he
    rw [hei, hc] at h1; cases h1
    rw [hn] at h2; cases h2
  refine ⟨?_, ?_, ?_, legal_snoc h.legal hR⟩
  · intro k r b
    simp only [List.mem_append, List.mem_singleton, Prod.mk.injEq]
    by_cases hki : k = i
    · subst hki
      rw [set_self]
      constructor
      · rintro (h1 | ⟨_, rfl, rfl⟩)
        · exact absurd rfl (hout _ h1)
        · exact ⟨_, rfl, hd⟩
      · rintro ⟨p, h1, h2⟩
        cases h1
        rw [hd] at h2; cases h2
        exact .inr ⟨rfl, rfl, rfl⟩
    · rw [set_other _ _ _ hki, h.mem]
      simp [hki]
  · rw [List.map_append, List.nodup_append]
    refine ⟨h.once, by simp, ?_⟩
    intro x hx y hy
    obtain ⟨e, he, rfl⟩ := List.mem_map.1 hx
    simp only [List.map_cons, List.map_nil, List.mem_singleton] at hy
    rw [hy]
    exact hout e he
  · rw [List.pairwise_append]
    refine ⟨?_, List.pairwise_singleton _ _, ?_⟩
    · refine h.order.imp_of_mem fun {a b} ha hb' hn hcon => hn (before_snoc ?_ hcon)
      obtain ⟨pc, hc, _⟩ := (h.mem a.1 a.2.1 a.2.2).1 ha
      exact ⟨a.2.1, ((hb.called _ _ _ hc).1 _).2 rfl⟩
    · intro x _ y hy
      simp only [List.mem_singleton] at hy
      subst hy
      intro hcon
      obtain ⟨v, hv⟩ := hcon.returned
      simp only [List.mem_append, List.mem_singleton, reduceCtorEq, or_false] at hv
      exact hnr v (((hb.called i _ _ hc).2 v).1 hv)

/-- The order grows with the steps of the calls. -/
theorem lin_step {R : Mgr → Req → Ans → Mgr → Prop} (hR : ∀ m r a m', Strict m r a m' → R m r a m') {tr : List Act}
    {s : PSt} {x : Act} {s' : PSt} (hb : Base tr s) (hx : Steps s x s') {lin : List (Nat × Req × Ans)}
    (hl : Lin R tr s lin)
    (hins : ∀ i id lib obj opens, s.calls i = some (.load id lib opens obj, .insert) →
      R s.sh.mgr (.load id lib opens obj) .ok { s.sh.mgr with map := s.sh.mgr.map.insert id { obj, lib := some lib } }) :
    ∃ lin', Lin R (tr ++ [x]) s' lin' := by
  have other : ∀ {i k : Nat} {c : Req × Pc} {sh : Shared} (req : Req) (a : Ans), k ≠ i →
      ((∃ pc, (s.set i c sh).calls k = some (req, pc) ∧ decided req pc = some a) ↔
        ∃ pc, s.calls k = some (req, pc) ∧ decided req pc = some a) := by
    intro i k c sh req a hki
    rw [set_other _ _ _ hki]
  cases hx with
  | call hc =>
    rename_i i req
    refine ⟨lin, hl.keep hb rfl ?_⟩
    intro k r a
    by_cases hki : k = i
    · subst hki
      rw [set_self, hc]
      constructor
      · rintro ⟨_, h, h'⟩; cases h; cases req <;> cases h'
      · rintro ⟨_, h, _⟩; cases h
    · exact other r a hki
  | ret hc =>
    rename_i i req v
    refine ⟨lin, hl.keep hb rfl ?_⟩
    intro k r a
    by_cases hki : k = i
    · subst hki
      rw [set_self, hc]
      constructor
      · rintro ⟨_, h, h'⟩
        cases h
        exact ⟨_, rfl, by simpa [decided] using h'⟩
      · rintro ⟨_, h, h'⟩
        cases h
        exact ⟨_, rfl, by simpa [decided] using h'⟩
    · exact other r a hki
  | step hc ho =>
    rename_i i req pc sh pc'
    rcases own_lin ho with ⟨h1, h2⟩ | ⟨h1, a, h2, h3⟩ | ⟨rfl, rfl, id, lib, opens, obj, rfl, h2⟩
    · refine ⟨lin, hl.keep hb h2 ?_⟩
      intro k r a
      by_cases hki : k = i
      · subst hki
        rw [set_self, hc]
        constructor
        · rintro ⟨_, h, h'⟩
          cases h
          exact ⟨_, rfl, by rw [← h1]; exact h'⟩
        · rintro ⟨_, h, h'⟩
          cases h
          exact ⟨_, rfl, by rw [h1]; exact h'⟩
      · exact other r a hki
    · exact ⟨_, hl.add hb hc h1 h2 (own_keeps ho).2.1 (hR _ _ _ _ h3)⟩
    · refine ⟨_, hl.add hb hc (by cases opens <;> rfl) rfl nofun ?_⟩
      rw [h2]
      exact hins i id lib obj opens hc

theorem mgr_run {m : Mgr} {lin : List (Nat × Req × Ans)} (h : Legal Lax {} lin m) :
    m = Plugins.run (lin.filterMap fun e => opOf e.2.1) := legal_run h

theorem strict_lax (m : Mgr) (r : Req) (a : Ans) (m' : Mgr) (h : Strict m r a m') : Lax m r a m' := .inl h

theorem lin_lax {tr : List Act} {s : PSt} (h : run tr = some s) : ∃ lin, Lin Lax tr s lin := by
  refine run_induct (P := fun tr s => ∃ lin, Lin Lax tr s lin) ?_ ?_ h
  · refine ⟨[], ⟨?_, List.nodup_nil, List.Pairwise.nil, rfl⟩⟩
    intro i req a
    constructor
    · nofun
    · rintro ⟨_, h, _⟩; cases h
  · clear h tr s
    rintro tr s x s' hr ⟨lin, hl⟩ hx
    refine lin_step strict_lax (base hr) (steps_of hx) hl ?_
    intro i id lib obj opens hc
    obtain ⟨_, _, _, he⟩ := at_insert hr i _ hc
    cases he
    have hm := mgr_run hl.legal
    have hs : Sorted s.sh.mgr.map := by rw [hm]; exact (run_table _).1
    cases hlk : s.sh.mgr.map.lookup id with
    | none => left; simp [Strict, seq, step, hlk, ofRes]
    | some e =>
      right
      refine ⟨id, lib, obj, rfl, by rw [hlk]; rfl, rfl, ?_⟩
      rw [insert_present hs hlk]

/-! ### Registrations that do not overlap -/

/-- A `load` that found the identifier free and has not inserted its object yet. -/
def Pc.between : Pc → Bool
  | .opening | .insert => true
  | _ => false

theorem lax_lookup {m : Mgr} (hm : Sorted m.map) {req : Req} {a : Ans} {m' : Mgr} (h : Lax m req a m') {id : Bytes}
    (hid : m.map.lookup id = none) (hr : Req.registers req ≠ some id) : m'.map.lookup id = none := by
  rw [lax_op h]
  cases req with
  | add id' obj =>
    have hne : id ≠ id' := fun e => hr (by rw [e]; rfl)
    simp [opOf, step, lookup_insert hm, hne, hid]
  | load id' lib opens obj =>
    have hne : id ≠ id' := fun e => hr (by rw [e]; rfl)
    simp only [opOf, step]
    split
    · exact hid
    · split
      · simp [lookup_insert hm, hne, hid]
      · exact hid
  | remove id' =>
    have := congrFun (step_table hm (.remove id')) id
    simp only [opOf]
    rw [show (step m (.remove id')).2.map.lookup id = _ from this]
    simp [Spec.Plugins.step, hid]
  | replace id' obj =>
    have := congrFun (step_table hm (.replace id' obj)) id
    simp only [opOf]
    rw [show (step m (.replace id' obj)).2.map.lookup id = _ from this]
    simp only [Spec.Plugins.step]
    split
    next e => rw [← e, hid]; rfl
    · exact hid
  | clear => rfl
  | empty => exact hid
  | get => exact hid
  | getLib => exact hid
  | find => exact hid
  | run => exact hid
  | runAll => exact hid

theorem sorted {tr : List Act} {s : PSt} (h : run tr = some s) : Sorted s.sh.mgr.map := by
  obtain ⟨lin, hl⟩ := lin_lax h
  rw [mgr_run hl.legal]; exact (run_table _).1

theorem own_lax {tr : List Act} {s : PSt} (h : run tr = some s) {i : Nat} {req : Req} {pc : Pc} {sh' : Shared} {pc' : Pc}
    (hc : s.calls i = some (req, pc)) (ho : own i s.sh req pc = some (sh', pc')) :
    sh'.mgr = s.sh.mgr ∨ ∃ a, Lax s.sh.mgr req a sh'.mgr := by
  rcases own_lin ho with ⟨_, h2⟩ | ⟨_, a, _, h3⟩ | ⟨rfl, rfl, id, lib, opens, obj, rfl, h2⟩
  · exact .inl h2
  · exact .inr ⟨a, .inl h3⟩
  · obtain ⟨_, _, _, he⟩ := at_insert h i _ hc
    cases he
    cases hlk : s.sh.mgr.map.lookup id with
    | none => exact .inr ⟨.ok, .inl (by simp [Strict, seq, step, hlk, ofRes, h2])⟩
    | some e => left; rw [h2, insert_present (sorted h) hlk]

theorem OneEach.prefix {tr : List Act} {x : Act} (h : OneEach (tr ++ [x])) : OneEach tr :=
  fun a b hab => h a (b ++ [x]) (by rw [hab, List.append_assoc])

/-- While no other call registers the identifier it stays free. -/
theorem still_free {tr : List Act} {s : PSt} (h : run tr = some s) : OneEach tr →
    ∀ i id lib opens obj pc, s.calls i = some (.load id lib opens obj, pc) → pc.between = true →
      s.sh.mgr.map.lookup id = none := by
  refine run_induct (P := fun tr s => OneEach tr → ∀ i id lib opens obj pc,
    s.calls i = some (.load id lib opens obj, pc) → pc.between = true → s.sh.mgr.map.lookup id = none) nofun ?_ h
  clear h tr s
  intro tr s x s' hr ih hx hone i id lib opens obj pc hi hbt
  have hone' := OneEach.prefix hone
  have hb := base hr
  cases steps_of hx with
  | call hc =>
    rename_i k req
    by_cases hik : i = k
    · subst hik; rw [set_self] at hi; cases hi; cases hbt
    · rw [set_other _ _ _ hik] at hi; exact ih hone' i _ _ _ _ _ hi hbt
  | ret hc =>
    rename_i k req v
    by_cases hik : i = k
    · subst hik; rw [set_self] at hi; cases hi; cases hbt
    · rw [set_other _ _ _ hik] at hi; exact ih hone' i _ _ _ _ _ hi hbt
  | step hc ho =>
    rename_i k req pc0 sh pc'
    rw [set_sh]
    by_cases hik : i = k
    · subst hik
      rw [set_self] at hi; cases hi
      cases pc0 with
      | start =>
        simp only [own, Option.some.injEq, Prod.mk.injEq] at ho
        obtain ⟨rfl, rfl⟩ := ho
        split at hbt
        · cases hbt
        next hl => simpa using hl
      | opening =>
        simp only [own, Option.some.injEq, Prod.mk.injEq] at ho
        obtain ⟨rfl, rfl⟩ := ho
        exact ih hone' i _ _ _ _ _ hc rfl
      | insert =>
        simp only [own] at ho
        split at ho
        · cases ho
        · cases ho; cases hbt
      | calling => cases ho; cases hbt
      | each ran rest => cases rest with
        | nil => cases ho; cases hbt
        | cons o rest => cases ho; cases hbt
      | done => cases ho
      | returned => cases ho
    · rw [set_other _ _ _ hik] at hi
      have hfree := ih hone' i _ _ _ _ _ hi hbt
      rcases own_lax hr hc ho with h | ⟨a, h⟩
      · rw [h]; exact hfree
      · refine lax_lookup (sorted hr) h hfree fun hreg => hik ?_
        have nri : ¬Returned tr i := fun ⟨v, hv⟩ => by
          have := ((hb.called i _ _ hi).2 v).1 hv
          rw [this] at hbt; cases hbt
        have nrk : ¬Returned tr k := fun ⟨v, hv⟩ => (own_keeps ho).2.1 v (((hb.called k _ _ hc).2 v).1 hv)
        exact hone' tr [] (by simp) i k _ _ id (((hb.called i _ _ hi).1 _).2 rfl) (((hb.called k _ _ hc).1 _).2 rfl) nri nrk
          rfl hreg

theorem lin_strict {tr : List Act} {s : PSt} (h : run tr = some s) : OneEach tr → ∃ lin, Lin Strict tr s lin := by
  refine run_induct (P := fun tr s => OneEach tr → ∃ lin, Lin Strict tr s lin) ?_ ?_ h
  · refine fun _ => ⟨[], ⟨?_, List.nodup_nil, List.Pairwise.nil, rfl⟩⟩
    intro i req a
    constructor
    · nofun
    · rintro ⟨_, h, _⟩; cases h
  · clear h tr s
    intro tr s x s' hr ih hx hone
    have hone' := OneEach.prefix hone
    obtain ⟨lin, hl⟩ := ih hone'
    refine lin_step (fun _ _ _ _ h => h) (base hr) (steps_of hx) hl ?_
    intro i id lib obj opens hc
    obtain ⟨_, _, _, he⟩ := at_insert hr i _ hc
    cases he
    have hlk := still_free hr hone' i _ _ _ _ _ hc rfl
    simp [Strict, seq, step, hlk, ofRes]

/-! ### Objects -/

open Verif.Spec.Plugins (takes taken registered destroyed) in
/-- An object that one call hands over is registered or destroyed at most once. -/
theorem at_most_once {tr : List Act} {s : PSt} (h : run tr = some s) (ho : HandedOnce tr) (obj : Nat) :
    destroyed s.sh.mgr obj + registered s.sh.mgr obj ≤ 1 := by
  obtain ⟨lin, hl⟩ := lin_lax h
  have hb := base h
  have key : ∀ (l : List (Nat × Req × Ans)) (t : Spec.Paths.Table Entry), (l.map (·.1)).Nodup →
      (∀ e ∈ l, .call e.1 e.2.1 ∈ tr) → (taken obj t (l.filterMap fun e => opOf e.2.1) ≤ 1 ∧
        ((∀ e ∈ l, Req.hands e.2.1 ≠ some obj) → taken obj t (l.filterMap fun e => opOf e.2.1) = 0)) := by
    intro l
    induction l with
    | nil => intro t _ _; exact ⟨Nat.zero_le _, fun _ => rfl⟩
    | cons e l ih =>
      intro t hn hm
      rw [List.map_cons, List.nodup_cons] at hn
      have hm' : ∀ x ∈ l, .call x.1 x.2.1 ∈ tr := fun x hx => hm x (List.mem_cons_of_mem _ hx)
      rw [List.filterMap_cons]
      by_cases hh : Req.hands e.2.1 = some obj
      · have rest : ∀ x ∈ l, Req.hands x.2.1 ≠ some obj := by
          intro x hx hxo
          have := ho e.1 x.1 e.2.1 x.2.1 obj (hm e List.mem_cons_self) (hm' x hx) hh hxo
          exact hn.1 (this ▸ List.mem_map_of_mem hx)
        refine ⟨?_, fun hall => absurd hh (hall e List.mem_cons_self)⟩
        split
        · exact (ih t hn.2 hm').1
        next op hop =>
          simp only [taken]
          rw [(ih _ hn.2 hm').2 rest]
          cases takes t obj op <;> simp
      · have nt : ∀ op, opOf e.2.1 = some op → takes t obj op = false := by
          intro op hop
          cases hreq : e.2.1 with
          | add id o =>
            rw [hreq] at hop hh; cases hop
            have : o ≠ obj := fun h => hh (by rw [h]; rfl)
            simp [takes, this]
          | load id lib opens o =>
            rw [hreq] at hop hh; cases hop
            have : o ≠ obj := fun h => hh (by rw [h]; rfl)
            simp [takes, this]
          | replace id o =>
            rw [hreq] at hop hh; cases hop
            have : o ≠ obj := fun h => hh (by rw [h]; rfl)
            simp [takes, this]
          | remove id => rw [hreq] at hop; cases hop; rfl
          | clear => rw [hreq] at hop; cases hop; rfl
          | _ => rw [hreq] at hop; cases hop
        split
        · exact ⟨(ih t hn.2 hm').1, fun hall => (ih t hn.2 hm').2 fun x hx => hall x (List.mem_cons_of_mem _ hx)⟩
        next op hop =>
          simp only [taken, nt op hop, Bool.toNat_false, Nat.zero_add]
          exact ⟨(ih _ hn.2 hm').1, fun hall => (ih _ hn.2 hm').2 fun x hx => hall x (List.mem_cons_of_mem _ hx)⟩
  rw [mgr_run hl.legal, run_count]
  refine (key lin _ hl.once ?_).1
  intro e he
  obtain ⟨pc, hc, _⟩ := (hl.mem e.1 e.2.1 e.2.2).1 he
  exact ((hb.called _ _ _ hc).1 _).2 rfl

/-- The object is registered. -/
def Reg (m : Mgr) (obj : Nat) : Prop := ∃ id e, (id, e) ∈ m.map ∧ e.obj = obj

theorem reg_pos {m : Mgr} {obj : Nat} (h : Reg m obj) : 0 < Spec.Plugins.registered m obj := by
  obtain ⟨id, e, h1, h2⟩ := h
  unfold Spec.Plugins.registered
  rw [List.countP_pos_iff]
  exact ⟨_, h1, by simp [h2]⟩

theorem reg_keeps {m : Mgr} (hm : Sorted m.map) {req : Req} {a : Ans} {m' : Mgr} (h : Lax m req a m') {obj : Nat}
    (hr : Reg m obj) (hd : Req.destroys req = false) : Reg m' obj := by
  obtain ⟨id, e, h1, h2⟩ := hr
  have ins : ∀ k v, (id, e) ∈ m.map.insert k v := by
    intro k v
    cases hl : m.map.lookup k with
    | none => exact (perm_insert hl).mem_iff.2 (List.mem_cons_of_mem _ h1)
    | some w => rw [insert_present hm hl]; exact h1
  rw [lax_op h]
  cases req with
  | add id' o => exact ⟨id, e, ins _ _, h2⟩
  | load id' lib opens o =>
    simp only [opOf, step]
    split
    · exact ⟨id, e, h1, h2⟩
    · split
      · exact ⟨id, e, ins _ _, h2⟩
      · exact ⟨id, e, h1, h2⟩
  | remove => cases hd
  | replace => cases hd
  | clear => cases hd
  | _ => exact ⟨id, e, h1, h2⟩

theorem lock_blocks {i k : Nat} {sh : Shared} {req : Req} {pc : Pc} {sh' : Shared} {pc' : Pc} (hl : sh.lock = some k)
    (h : own i sh req pc = some (sh', pc')) (hp : pc.holds = false) : sh'.mgr = sh.mgr := by
  have hs : sh.lock.isSome = true := by rw [hl]; rfl
  cases pc with
  | start =>
    cases req with
    | load id lib opens obj =>
      simp only [own, Option.some.injEq, Prod.mk.injEq] at h; obtain ⟨rfl, rfl⟩ := h; rfl
    | _ => simp only [own, hs, if_true] at h; cases h
  | opening =>
    simp only [own] at h
    split at h
    · cases h; rfl
    · cases h
  | insert =>
    simp only [own] at h
    split at h
    · simp only [hs, if_true] at h; cases h
    · cases h
  | calling => cases h; rfl
  | each => cases hp
  | done => cases h
  | returned => cases h

/-- What is known of the objects that calls use. -/
structure Using (tr : List Act) (s : PSt) : Prop where
  one : ∀ i req obj, s.calls i = some (req, .calling obj) → Reg s.sh.mgr obj ∨
    ∃ k kreq, .call k kreq ∈ tr ∧ Req.destroys kreq = true ∧ ¬Before tr k i
  all : ∀ i req ran rest, s.calls i = some (req, .each ran rest) → ∀ obj ∈ rest, Reg s.sh.mgr obj

theorem using_ {tr : List Act} {s : PSt} (h : run tr = some s) : Using tr s := by
  refine run_induct (P := Using) ⟨nofun, nofun⟩ ?_ h
  clear h tr s
  intro tr s x s' hr hu hx
  have hb := base hr
  have more : ∀ i req obj, s.calls i = some (req, .calling obj) → (∃ k kreq, .call k kreq ∈ tr ∧ Req.destroys kreq = true ∧ ¬Before tr k i) →
      ∃ k kreq, .call k kreq ∈ tr ++ [x] ∧ Req.destroys kreq = true ∧ ¬Before (tr ++ [x]) k i := by
    rintro i req obj hi ⟨k, kreq, h1, h2, h3⟩
    exact ⟨k, kreq, List.mem_append_left _ h1, h2, fun h => h3 (before_snoc ⟨req, ((hb.called i _ _ hi).1 _).2 rfl⟩ h)⟩
  cases steps_of hx with
  | call hc =>
    rename_i k req
    refine ⟨?_, ?_⟩
    · intro i r obj hi
      by_cases hik : i = k
      · subst hik; rw [set_self] at hi; cases hi
      · rw [set_other _ _ _ hik] at hi; exact (hu.one i r obj hi).imp id (more i r obj hi)
    · intro i r ran rest hi
      by_cases hik : i = k
      · subst hik; rw [set_self] at hi; cases hi
      · rw [set_other _ _ _ hik] at hi; exact hu.all i r ran rest hi
  | ret hc =>
    rename_i k req v
    refine ⟨?_, ?_⟩
    · intro i r obj hi
      by_cases hik : i = k
      · subst hik; rw [set_self] at hi; cases hi
      · rw [set_other _ _ _ hik] at hi; exact (hu.one i r obj hi).imp id (more i r obj hi)
    · intro i r ran rest hi
      by_cases hik : i = k
      · subst hik; rw [set_self] at hi; cases hi
      · rw [set_other _ _ _ hik] at hi; exact hu.all i r ran rest hi
  | step hc ho =>
    rename_i k req pc sh pc'
    refine ⟨?_, ?_⟩
    · intro i r obj hi
      by_cases hik : i = k
      · subst hik; rw [set_self] at hi; cases hi
        left
        rw [set_sh]
        cases pc with
        | start =>
          cases req with
          | run id =>
            simp only [own] at ho
            split at ho
            · cases ho
            · split at ho
              · cases ho
              next o hg =>
                cases ho
                unfold Plugins.get at hg
                obtain ⟨e, he, h2⟩ := Option.map_eq_some_iff.1 hg
                exact ⟨id, e, (lookup_eq_some (sorted hr)).1 he, h2⟩
          | load id lib opens o =>
            simp only [own, Option.some.injEq, Prod.mk.injEq] at ho
            obtain ⟨_, ho⟩ := ho
            split at ho <;> cases ho
          | _ => simp only [own] at ho; split at ho <;> cases ho
        | opening =>
          simp only [own] at ho
          split at ho
          · simp only [Option.some.injEq, Prod.mk.injEq] at ho
            obtain ⟨_, ho⟩ := ho
            split at ho <;> cases ho
          · cases ho
        | insert =>
          simp only [own] at ho
          split at ho
          · split at ho <;> cases ho
          · cases ho
        | calling => cases ho
        | each ran rest => cases rest with
          | nil => cases ho
          | cons o rest => simp only [own] at ho; split at ho <;> cases ho
        | done => cases ho
        | returned => cases ho
      · rw [set_other _ _ _ hik] at hi
        rcases hu.one i r obj hi with h1 | h1
        · by_cases hd : Req.destroys req = true
          · right
            refine ⟨k, req, List.mem_append_left _ (((hb.called k _ _ hc).1 _).2 rfl), hd, ?_⟩
            intro hbef
            obtain ⟨v, hv⟩ := hbef.returned
            simp only [List.mem_append, List.mem_singleton, reduceCtorEq, or_false] at hv
            exact (own_keeps ho).2.1 v (((hb.called k _ _ hc).2 v).1 hv)
          · left
            rw [set_sh]
            rcases own_lax hr hc ho with h | ⟨a, h⟩
            · rw [h]; exact h1
            · exact reg_keeps (sorted hr) h h1 (by simpa using hd)
        · exact .inr (more i r obj hi h1)
    · intro i r ran rest hi obj hobj
      rw [set_sh]
      by_cases hik : i = k
      · subst hik; rw [set_self] at hi; cases hi
        cases pc with
        | start =>
          cases req with
          | runAll cb =>
            simp only [own] at ho
            split at ho
            · cases ho
            · cases ho
              obtain ⟨x, hx, rfl⟩ := List.mem_map.1 hobj
              exact ⟨x.1, x.2, hx, rfl⟩
          | run id =>
            simp only [own] at ho
            split at ho
            · cases ho
            · split at ho <;> cases ho
          | load id lib opens o =>
            simp only [own, Option.some.injEq, Prod.mk.injEq] at ho
            obtain ⟨_, ho⟩ := ho
            split at ho <;> cases ho
          | _ => simp only [own] at ho; split at ho <;> cases ho
        | opening =>
          simp only [own] at ho
          split at ho
          · simp only [Option.some.injEq, Prod.mk.injEq] at ho
            obtain ⟨_, ho⟩ := ho
            split at ho <;> cases ho
          · cases ho
        | insert =>
          simp only [own] at ho
          split at ho
          · split at ho <;> cases ho
          · cases ho
        | calling => cases ho
        | each ran0 rest0 => cases rest0 with
          | nil => cases ho
          | cons o rest0 =>
            simp only [own] at ho
            split at ho
            · cases ho
            · cases ho
              exact hu.all i _ _ _ hc obj (List.mem_cons_of_mem _ hobj)
        | done => cases ho
        | returned => cases ho
      · rw [set_other _ _ _ hik] at hi
        have hreg := hu.all i r ran rest hi obj hobj
        have hl : s.sh.lock = some i := (hb.lock i).2 ⟨_, _, hi, rfl⟩
        have hp : pc.holds = false := by
          by_contra hcon
          have := (hb.lock k).2 ⟨_, _, hc, by simpa using hcon⟩
          rw [hl] at this
          exact hik (by simpa using this)
        rw [lock_blocks hl ho hp]
        exact hreg

/-- A call that does not wait for itself can move when the mutex is free or its own. -/
theorem own_enabled (i : Nat) (sh : Shared) (req : Req) (pc : Pc) (h : pc.holds = true ∨ sh.lock = none)
    (hcb : req ≠ .runAll true) (hfit : pc.between = true → ∃ id lib opens obj, req = .load id lib opens obj) :
    (∃ v, pc = .done v ∨ pc = .returned v) ∨ (own i sh req pc).isSome = true := by
  cases pc with
  | done v => exact .inl ⟨v, .inl rfl⟩
  | returned v => exact .inl ⟨v, .inr rfl⟩
  | start =>
    right
    rcases h with h | h
    · cases h
    · cases req with
      | load => rfl
      | run id => simp only [own, h]; simp; split <;> rfl
      | _ => simp [own, h]
  | opening => right; obtain ⟨_, _, _, _, rfl⟩ := hfit rfl; rfl
  | insert =>
    right
    obtain ⟨_, _, _, _, rfl⟩ := hfit rfl
    rcases h with h | h
    · cases h
    · simp [own, h]
  | calling => exact .inr rfl
  | each ran rest =>
    right
    cases rest with
    | nil => rfl
    | cons o rest =>
      cases req with
      | runAll cb => cases cb with
        | true => exact absurd rfl hcb
        | false => rfl
      | _ => rfl

theorem fits {tr : List Act} {s : PSt} (h : run tr = some s) :
    ∀ i req pc, s.calls i = some (req, pc) → pc.between = true → ∃ id lib opens obj, req = .load id lib opens obj := by
  refine run_induct (P := fun _ s => ∀ i req pc, s.calls i = some (req, pc) → pc.between = true →
    ∃ id lib opens obj, req = .load id lib opens obj) nofun ?_ h
  clear h tr s
  intro tr s x s' _ ih hx i req pc hi hbt
  cases steps_of hx with
  | call hc =>
    rename_i k r
    by_cases hik : i = k
    · subst hik; rw [set_self] at hi; cases hi; cases hbt
    · rw [set_other _ _ _ hik] at hi; exact ih i req pc hi hbt
  | ret hc =>
    rename_i k r v
    by_cases hik : i = k
    · subst hik; rw [set_self] at hi; cases hi; cases hbt
    · rw [set_other _ _ _ hik] at hi; exact ih i req pc hi hbt
  | step hc ho =>
    rename_i k r pc0 sh pc'
    by_cases hik : i = k
    · subst hik; rw [set_self] at hi; cases hi
      cases pc0 with
      | opening => exact ih i _ _ hc rfl
      | insert => exact ih i _ _ hc rfl
      | start =>
        cases req with
        | load id lib opens obj => exact ⟨_, _, _, _, rfl⟩
        | runAll cb => simp only [own] at ho; split at ho <;> cases ho; cases hbt
        | run id =>
          simp only [own] at ho
          split at ho
          · cases ho
          · split at ho <;> (cases ho; cases hbt)
        | _ => simp only [own] at ho; split at ho <;> cases ho; cases hbt
      | calling => cases ho; cases hbt
      | each ran rest => cases rest with
        | nil => cases ho; cases hbt
        | cons o rest => simp only [own] at ho; split at ho <;> cases ho; cases hbt
      | done => cases ho
      | returned => cases ho
    · rw [set_other _ _ _ hik] at hi; exact ih i req pc hi hbt

theorem calling_run {tr : List Act} {s : PSt} (h : run tr = some s) :
    ∀ i req obj, s.calls i = some (req, .calling obj) → ∃ id, req = .run id := by
  refine run_induct (P := fun _ s => ∀ i req obj, s.calls i = some (req, .calling obj) → ∃ id, req = .run id) nofun ?_ h
  clear h tr s
  intro tr s x s' _ ih hx i req obj hi
  cases steps_of hx with
  | call hc =>
    rename_i k r
    by_cases hik : i = k
    · subst hik; rw [set_self] at hi; cases hi
    · rw [set_other _ _ _ hik] at hi; exact ih i req obj hi
  | ret hc =>
    rename_i k r v
    by_cases hik : i = k
    · subst hik; rw [set_self] at hi; cases hi
    · rw [set_other _ _ _ hik] at hi; exact ih i req obj hi
  | step hc ho =>
    rename_i k r pc0 sh pc'
    by_cases hik : i = k
    · subst hik; rw [set_self] at hi; cases hi
      cases pc0 with
      | opening =>
        simp only [own] at ho
        split at ho
        · simp only [Option.some.injEq, Prod.mk.injEq] at ho
          obtain ⟨_, ho⟩ := ho
          split at ho <;> cases ho
        · cases ho
      | insert =>
        simp only [own] at ho
        split at ho
        · split at ho <;> cases ho
        · cases ho
      | start =>
        cases req with
        | run id => exact ⟨id, rfl⟩
        | load id lib opens o =>
          simp only [own, Option.some.injEq, Prod.mk.injEq] at ho
          obtain ⟨_, ho⟩ := ho
          split at ho <;> cases ho
        | _ => simp only [own] at ho; split at ho <;> cases ho
      | calling => cases ho
      | each ran rest => cases rest with
        | nil => cases ho
        | cons o rest => simp only [own] at ho; split at ho <;> cases ho
      | done => cases ho
      | returned => cases ho
    · rw [set_other _ _ _ hik] at hi; exact ih i req obj hi

end Verif.PluginThreads
