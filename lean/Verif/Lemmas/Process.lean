import Verif.Spec.Process
/-
Invariants of `process` (C70).
-/
namespace Verif.Process
open Verif.Spec.Process

/-- The call has the mutex. -/
def Frame.holds : Frame → Bool
  | .shutTest | .shutNotify | .shutUnlock | .waitTest | .waitUnlock => true
  | _ => false

theorem Frame.notify_holds (f : Frame) : f.notify.holds = f.holds := by cases f <;> rfl

theorem setStack_self (st : Nat → List Frame) (t : Nat) (fs : List Frame) : setStack st t fs t = fs := by simp [setStack]

theorem setStack_other {st : Nat → List Frame} {t i : Nat} {fs : List Frame} (h : i ≠ t) : setStack st t fs i = st i := by
  simp [setStack, h]

/-- How many calls of a thread have the mutex. -/
def held : List Frame → Nat
  | [] => 0
  | f :: fs => (if f.holds then 1 else 0) + held fs

/-- The mutex is had by the calls that think so: at most one call of one thread. -/
def Owned (s : St) : Prop := ∀ t, held (s.stack t) = if s.owner = some t then 1 else 0

theorem held_notify (l : List Frame) : held (l.map Frame.notify) = held l := by
  induction l with
  | nil => rfl
  | cons f l ih => simp only [List.map_cons, held, Frame.notify_holds, ih]

theorem owned_set {s : St} (h : Owned s) {t : Nat} {fs : List Frame} {o : Option Nat}
    (h1 : held fs = if o = some t then 1 else 0) (h2 : ∀ i, i ≠ t → (o = some i ↔ s.owner = some i)) :
    ∀ i, held (setStack s.stack t fs i) = if o = some i then 1 else 0 := by
  intro i
  by_cases e : i = t
  · subst e; simpa [setStack] using h1
  · have := h2 i e
    simp only [setStack, if_neg e, h i, this]

theorem owned_step {s s' : St} {t : Nat} {a : Act} (h : Owned s) (hs : s.step t a = some s') : Owned s' := by
  have h1 := h t
  have hio : ∀ {f fs}, s.stack t = f :: fs → f.holds = true → s.owner = some t ∧ held fs = 0 := by
    intro f fs he hf
    rw [he, held, hf] at h1
    by_cases hc : s.owner = some t
    · rw [if_pos hc] at h1; exact ⟨hc, by simp at h1; exact h1⟩
    · rw [if_neg hc] at h1; simp at h1
  have hno : s.owner = none → held (s.stack t) = 0 := fun ho => by rw [h1, ho]; rfl
  cases a with
  | shutdown =>
    simp only [St.step] at hs
    split at hs <;> cases hs
    rename_i he
    exact owned_set h (by rw [← h1, he]; rfl) (fun i _ => Iff.rfl)
  | wait =>
    simp only [St.step] at hs
    split at hs <;> cases hs
    rename_i he
    exact owned_set h (by rw [← h1, he]; rfl) (fun i _ => Iff.rfl)
  | signal =>
    simp only [St.step] at hs
    cases hs
    exact owned_set h (by rw [← h1]; simp [held, Frame.holds]) (fun i _ => Iff.rfl)
  | spurious =>
    simp only [St.step] at hs
    split at hs
    · rename_i fs he
      cases hs
      exact owned_set h (by rw [← h1, he]; rfl) (fun i _ => Iff.rfl)
    · cases hs
  | go =>
    simp only [St.step, St.go] at hs
    have lock : ∀ {f g fs}, s.stack t = f :: fs → f.holds = false → g.holds = true → s.owner = none →
        Owned { s with owner := some t, stack := setStack s.stack t (g :: fs) } := by
      intro f g fs he hf hg ho
      have := hno ho
      rw [he, held, hf] at this
      refine owned_set h ?_ (fun i hi => ?_)
      · simp only [held, hg, if_pos]; simp at this; omega
      · rw [ho]; simp [Ne.symm hi]
    have stay : ∀ {f g fs b}, s.stack t = f :: fs → f.holds = true → g.holds = true →
        Owned { s with flag := b, stack := setStack s.stack t (g :: fs) } := by
      intro f g fs b he hf hg
      obtain ⟨ho, h0⟩ := hio he hf
      exact owned_set h (by simp [held, hg, ho, h0]) (fun i _ => Iff.rfl)
    have free : ∀ {f fs gs l}, s.stack t = f :: fs → f.holds = true → held gs = held fs →
        Owned { s with owner := none, stack := setStack s.stack t gs, log := l } := by
      intro f fs gs l he hf hg
      obtain ⟨ho, h0⟩ := hio he hf
      refine owned_set h (by rw [hg, h0]; rfl) (fun i hi => ?_)
      rw [ho]; simp [Ne.symm hi]
    split at hs
    · cases hs
    · split at hs <;> cases hs
      rename_i fs he ho
      exact lock he rfl rfl ho
    · rename_i fs he
      split at hs <;> cases hs
      · exact stay (b := s.flag) he rfl rfl
      · exact stay he rfl rfl
    · rename_i fs he
      cases hs
      intro i
      simp only [held_notify]
      exact stay (b := s.flag) (g := .shutUnlock) he rfl rfl i
    · rename_i fs he
      cases hs
      exact free he rfl rfl
    · split at hs <;> cases hs
      rename_i fs he ho
      exact lock he rfl rfl ho
    · rename_i fs he
      split at hs <;> cases hs
      · exact stay (b := s.flag) he rfl rfl
      · exact free (l := s.log) (gs := .waitSleep false :: fs) he rfl (by simp [held, Frame.holds])
    · split at hs <;> cases hs
      rename_i fs he ho
      exact lock he rfl rfl ho
    · cases hs
    · rename_i fs he
      cases hs
      exact free he rfl rfl

theorem owned {ok : St → Nat → Act → Prop} {s : St} (hr : Reach ok s) : Owned s := by
  induction hr with
  | init => intro t; simp [St.init, held]
  | step _ _ hs ih => exact owned_step ih hs

/-- Only the innermost call has the mutex. -/
def TopHolds (s : St) : Prop := ∀ t, held (s.stack t).tail = 0

theorem held_tail_le (l : List Frame) : held l.tail ≤ held l := by
  cases l with
  | nil => exact Nat.le_refl _
  | cons f fs => simp only [List.tail_cons, held]; omega

/-- What a step can do to a stack: the innermost call is replaced, or ends; a call begins; or all are notified. -/
inductive Change (old : List Frame) : List Frame → Prop where
  | same : Change old old
  | replace {f g fs} : old = f :: fs → Change old (g :: fs)
  | pop {f fs} : old = f :: fs → Change old fs
  | push {g} : old = [] → Change old [g]

/-- A step changes the stack of its thread, unless it is a signal or `notify_all`. -/
theorem step_change {s s' : St} {t : Nat} {a : Act} (hs : s.step t a = some s') (ha : a ≠ .signal) :
    ∃ st : Nat → List Frame, (∀ i, i ≠ t → st i = s.stack i) ∧ Change (s.stack t) (st t) ∧
      (s'.stack = st ∨ s'.stack = fun i => (st i).map Frame.notify) := by
  have key : ∀ fs, Change (s.stack t) fs → ∃ st : Nat → List Frame, (∀ i, i ≠ t → st i = s.stack i) ∧
      Change (s.stack t) (st t) ∧ (setStack s.stack t fs = st ∨ setStack s.stack t fs = fun i => (st i).map Frame.notify) := fun fs h =>
    ⟨setStack s.stack t fs, fun i hi => setStack_other hi, by rw [setStack_self]; exact h, .inl rfl⟩
  cases a with
  | shutdown =>
    simp only [St.step] at hs
    split at hs <;> cases hs
    rename_i he
    exact key _ (.push he)
  | wait =>
    simp only [St.step] at hs
    split at hs <;> cases hs
    rename_i he
    exact key _ (.push he)
  | signal => exact absurd rfl ha
  | spurious =>
    simp only [St.step] at hs
    split at hs
    · rename_i fs he
      cases hs
      exact key _ (.replace he)
    · cases hs
  | go =>
    simp only [St.step, St.go] at hs
    split at hs
    · cases hs
    · rename_i he
      split at hs <;> cases hs
      exact key _ (.replace he)
    · rename_i he
      split at hs <;> cases hs <;> exact key _ (.replace he)
    · rename_i fs he
      cases hs
      exact ⟨setStack s.stack t (.shutUnlock :: fs), fun i hi => setStack_other hi,
        by rw [setStack_self]; exact .replace he, .inr rfl⟩
    · rename_i he
      cases hs
      exact key _ (.pop he)
    · rename_i he
      split at hs <;> cases hs
      exact key _ (.replace he)
    · rename_i he
      split at hs <;> cases hs <;> exact key _ (.replace he)
    · rename_i he
      split at hs <;> cases hs
      exact key _ (.replace he)
    · cases hs
    · rename_i he
      cases hs
      exact key _ (.pop he)

theorem topHolds_step {s s' : St} {t : Nat} {a : Act} (ho : Owned s) (h : TopHolds s) (hc : Calm s t a)
    (hs : s.step t a = some s') : TopHolds s' := by
  by_cases ha : a = .signal
  · subst ha
    simp only [St.step] at hs
    cases hs
    intro i
    by_cases e : i = t
    · subst e
      simp only [setStack_self, List.tail_cons]
      rw [ho i, if_neg (hc rfl)]
    · simp only [setStack_other e]; exact h i
  · obtain ⟨st, h1, h2, h3⟩ := step_change hs ha
    have h4 : ∀ i, held (st i).tail = 0 := by
      intro i
      by_cases e : i = t
      · subst e
        have h5 := h i
        generalize st i = new at h2 ⊢
        generalize s.stack i = old at h2 h5
        cases h2 with
        | same => exact h5
        | replace he => rw [he] at h5; exact h5
        | pop he => rw [he, List.tail_cons] at h5; exact Nat.le_zero.mp (h5 ▸ held_tail_le _)
        | push he => rfl
      · rw [h1 i e]; exact h i
    rcases h3 with h3 | h3 <;> rw [TopHolds, h3]
    · exact h4
    · intro i
      rw [← List.map_tail, held_notify]
      exact h4 i

theorem calm_owned {s : St} (hr : Reach Calm s) : TopHolds s := by
  induction hr with
  | init => intro t; simp [St.init, held]
  | step hr hc hs ih => exact topHolds_step (owned hr) ih hc hs

/-- What is known about the flag and the log. -/
structure Inv (s : St) : Prop where
  asked : s.flag = true → Ev.asked ∈ s.log
  pending : ∀ t, ∀ f ∈ s.stack t, f = .shutLock ∨ f = .shutTest → Ev.asked ∈ s.log
  past : ∀ t, ∀ f ∈ s.stack t, f = .shutNotify ∨ f = .shutUnlock ∨ f = .waitUnlock → s.flag = true
  shut : Ev.shut ∈ s.log → s.flag = true
  order : ∀ l₁ l₂, s.log = l₁ ++ .waited :: l₂ → Ev.asked ∈ l₁
  /-- No notification is lost. -/
  wake : s.flag = true → (∃ u, .waitSleep false ∈ s.stack u) → ∃ t, .shutNotify ∈ s.stack t

theorem Inv.init : Inv St.init where
  asked := by simp [St.init]
  pending := by simp [St.init]
  past := by simp [St.init]
  shut := by simp [St.init]
  order := by simp [St.init]
  wake := by simp [St.init]

theorem order_snoc {l : List Ev} (h : ∀ l₁ l₂, l = l₁ ++ .waited :: l₂ → Ev.asked ∈ l₁) (e : Ev)
    (he : e = .waited → Ev.asked ∈ l) : ∀ l₁ l₂, l ++ [e] = l₁ ++ .waited :: l₂ → Ev.asked ∈ l₁ := by
  intro l₁ l₂ hl
  rcases List.eq_nil_or_concat l₂ with rfl | ⟨l₃, x, rfl⟩
  · have := List.append_inj' hl (by simp)
    cases this.2
    exact this.1 ▸ he rfl
  · rw [List.concat_eq_append, ← List.cons_append, ← List.append_assoc] at hl
    exact h _ _ (List.append_inj' hl (by simp)).1

/-- Replacing the innermost call. -/
theorem Inv.replace {s : St} (h : Inv s) {t : Nat} {f : Frame} {fs : List Frame} (he : s.stack t = f :: fs) (g : Frame)
    (o : Option Nat) (b : Bool) (hb : s.flag = true → b = true) (ha : b = true → Ev.asked ∈ s.log)
    (hf : f = .shutNotify → False)
    (hp : g = .shutLock ∨ g = .shutTest → Ev.asked ∈ s.log)
    (hq : g = .shutNotify ∨ g = .shutUnlock ∨ g = .waitUnlock → b = true)
    (hw : b = true → (s.flag = true ∧ (g = .waitSleep false → f = .waitSleep false)) ∨ g = .shutNotify) :
    Inv { s with flag := b, owner := o, stack := setStack s.stack t (g :: fs) } := by
  have mem : ∀ {i x}, x ∈ setStack s.stack t (g :: fs) i → x ∈ s.stack i ∨ (i = t ∧ x = g) := by
    intro i x hx
    by_cases e : i = t
    · subst e
      rw [setStack_self] at hx
      rcases List.mem_cons.mp hx with hx | hx
      · exact .inr ⟨rfl, hx⟩
      · exact .inl (by rw [he]; exact List.mem_cons_of_mem _ hx)
    · rw [setStack_other e] at hx; exact .inl hx
  refine ⟨ha, fun i x hx hy => ?_, fun i x hx hy => ?_, fun hx => hb (h.shut hx), h.order, fun hx ⟨u, hu⟩ => ?_⟩
  · rcases mem hx with h' | ⟨-, rfl⟩
    · exact h.pending i x h' hy
    · exact hp hy
  · rcases mem hx with h' | ⟨-, rfl⟩
    · exact hb (h.past i x h' hy)
    · exact hq hy
  · rcases hw hx with ⟨h1, h2⟩ | h2
    · have : ∃ u, .waitSleep false ∈ s.stack u := by
        rcases mem hu with h' | ⟨rfl, h'⟩
        · exact ⟨u, h'⟩
        · exact ⟨u, by rw [he, h2 h'.symm]; exact List.mem_cons_self⟩
      obtain ⟨v, hv⟩ := h.wake h1 this
      refine ⟨v, ?_⟩
      by_cases e : v = t
      · subst e
        simp only [setStack_self]
        rw [he] at hv
        rcases List.mem_cons.mp hv with hv | hv
        · exact absurd hv.symm hf
        · exact List.mem_cons_of_mem _ hv
      · simp only [setStack_other e]; exact hv
    · exact ⟨t, by simp only [setStack_self]; rw [h2]; exact List.mem_cons_self⟩

/-- A call begins. -/
theorem Inv.push {s : St} (h : Inv s) {t : Nat} (g : Frame) (l : List Ev) (hl : l = [] ∨ l = [.asked])
    (hp : g = .shutLock ∨ g = .shutTest → l = [.asked])
    (hq : g ≠ .shutNotify ∧ g ≠ .shutUnlock ∧ g ≠ .waitUnlock ∧ g ≠ .waitSleep false) :
    Inv { s with stack := setStack s.stack t (g :: s.stack t), log := s.log ++ l } := by
  have mem : ∀ {i x}, x ∈ setStack s.stack t (g :: s.stack t) i → x ∈ s.stack i ∨ x = g := by
    intro i x hx
    by_cases e : i = t
    · subst e
      rw [setStack_self] at hx
      exact (List.mem_cons.mp hx).symm
    · rw [setStack_other e] at hx; exact .inl hx
  refine ⟨fun hx => List.mem_append_left _ (h.asked hx), fun i x hx hy => ?_, fun i x hx hy => ?_, fun hx => ?_, ?_, fun hx ⟨u, hu⟩ => ?_⟩
  · rcases mem hx with h' | rfl
    · exact List.mem_append_left _ (h.pending i x h' hy)
    · exact List.mem_append_right _ (by rw [hp hy]; exact List.mem_cons_self)
  · rcases mem hx with h' | rfl
    · exact h.past i x h' hy
    · rcases hy with hy | hy | hy
      · exact absurd hy hq.1
      · exact absurd hy hq.2.1
      · exact absurd hy hq.2.2.1
  · rcases List.mem_append.mp hx with hx | hx
    · exact h.shut hx
    · rcases hl with rfl | rfl <;> simp at hx
  · rcases hl with rfl | rfl
    · simp only [List.append_nil]; exact h.order
    · exact order_snoc h.order _ (by simp)
  · have : .waitSleep false ∈ s.stack u := by
      rcases mem hu with h' | h'
      · exact h'
      · exact absurd h'.symm hq.2.2.2
    obtain ⟨v, hv⟩ := h.wake hx ⟨u, this⟩
    refine ⟨v, ?_⟩
    by_cases e : v = t
    · subst e; simp only [setStack_self]; exact List.mem_cons_of_mem _ hv
    · simp only [setStack_other e]; exact hv

/-- A call returns. -/
theorem Inv.pop {s : St} (h : Inv s) {t : Nat} {f : Frame} {fs : List Frame} (he : s.stack t = f :: fs) (o : Option Nat) (e : Ev)
    (hf : f = .shutUnlock ∨ f = .waitUnlock) :
    Inv { s with owner := o, stack := setStack s.stack t fs, log := s.log ++ [e] } := by
  have hfl : s.flag = true := h.past t f (by rw [he]; exact List.mem_cons_self) (by rcases hf with h | h <;> simp [h])
  have mem : ∀ {i x}, x ∈ setStack s.stack t fs i → x ∈ s.stack i := by
    intro i x hx
    by_cases e : i = t
    · subst e
      rw [setStack_self] at hx
      rw [he]; exact List.mem_cons_of_mem _ hx
    · rw [setStack_other e] at hx; exact hx
  refine ⟨fun hx => List.mem_append_left _ (h.asked hx), fun i x hx hy => List.mem_append_left _ (h.pending i x (mem hx) hy),
    fun i x hx hy => hfl, fun _ => hfl, order_snoc h.order _ (fun _ => h.asked hfl), fun hx ⟨u, hu⟩ => ?_⟩
  obtain ⟨v, hv⟩ := h.wake hx ⟨u, mem hu⟩
  refine ⟨v, ?_⟩
  by_cases e : v = t
  · subst e
    simp only [setStack_self]
    rw [he] at hv
    rcases List.mem_cons.mp hv with hv | hv
    · subst hv; rcases hf with hf | hf <;> cases hf
    · exact hv
  · simp only [setStack_other e]; exact hv

theorem notify_eq {f g : Frame} (h : f.notify = g) (hg : ∀ b, g ≠ .waitSleep b) : f = g := by
  cases f <;> first | exact h | exact absurd h.symm (hg true)

/-- `notify_all`: afterwards no call is asleep without notification. -/
theorem Inv.notify {s : St} (h : Inv s) {t : Nat} {fs : List Frame} (he : s.stack t = .shutNotify :: fs) :
    Inv { s with stack := fun i => (setStack s.stack t (.shutUnlock :: fs) i).map Frame.notify } := by
  have hfl : s.flag = true := h.past t _ (by rw [he]; exact List.mem_cons_self) (.inl rfl)
  refine ⟨h.asked, fun i x hx hy => h.asked hfl, fun i x hx hy => hfl, h.shut, h.order, fun hx ⟨u, hu⟩ => ?_⟩
  obtain ⟨f, -, hf⟩ := List.mem_map.mp hu
  cases f <;> cases hf

theorem inv_step {s s' : St} {t : Nat} {a : Act} (h : Inv s) (hs : s.step t a = some s') : Inv s' := by
  cases a with
  | shutdown =>
    simp only [St.step] at hs
    split at hs <;> cases hs
    rename_i he
    have := h.push (t := t) .shutLock [.asked] (by simp) (by simp) (by simp)
    rwa [he] at this
  | wait =>
    simp only [St.step] at hs
    split at hs <;> cases hs
    rename_i he
    have := h.push (t := t) .waitLock [] (by simp) (by simp) (by simp)
    rw [he, List.append_nil] at this
    exact this
  | signal =>
    simp only [St.step] at hs
    cases hs
    exact h.push (t := t) .shutLock [.asked] (by simp) (by simp) (by simp)
  | spurious =>
    simp only [St.step] at hs
    split at hs
    · rename_i fs he
      cases hs
      exact h.replace he _ s.owner s.flag id h.asked (by simp) (by simp) (by simp) (by simp)
    · cases hs
  | go =>
    simp only [St.step, St.go] at hs
    split at hs
    · cases hs
    · rename_i he
      split at hs <;> cases hs
      exact h.replace he _ _ s.flag id h.asked (by simp) (fun _ => h.pending t _ (by rw [he]; exact List.mem_cons_self) (.inl rfl))
        (by simp) (by simp)
    · rename_i he
      have ha := h.pending t _ (by rw [he]; exact List.mem_cons_self) (.inr rfl)
      split at hs <;> cases hs
      · rename_i hfl
        exact h.replace he _ s.owner s.flag id h.asked (by simp) (by simp) (fun _ => hfl) (by simp)
      · exact h.replace he _ s.owner true (fun _ => rfl) (fun _ => ha) (by simp) (by simp) (fun _ => rfl) (by simp)
    · rename_i fs he
      cases hs
      exact h.notify he
    · rename_i he
      cases hs
      exact h.pop he none .shut (.inl rfl)
    · rename_i he
      split at hs <;> cases hs
      exact h.replace he _ _ s.flag id h.asked (by simp) (by simp) (by simp) (by simp)
    · rename_i he
      split at hs <;> cases hs
      · rename_i hfl
        exact h.replace he _ s.owner s.flag id h.asked (by simp) (by simp) (fun _ => hfl) (by simp)
      · rename_i hfl
        exact h.replace he _ none s.flag id h.asked (by simp) (by simp) (by simp) (fun hx => absurd hx hfl)
    · rename_i he
      split at hs <;> cases hs
      exact h.replace he _ _ s.flag id h.asked (by simp) (by simp) (by simp) (by simp)
    · cases hs
    · rename_i he
      cases hs
      exact h.pop he none .waited (.inr rfl)

theorem inv {ok : St → Nat → Act → Prop} {s : St} (hr : Reach ok s) : Inv s := by
  induction hr with
  | init => exact .init
  | step _ _ hs ih => exact inv_step ih hs

/-- How far a call is from its end once the flag is set. -/
def Frame.weight : Frame → Nat
  | .shutLock => 4
  | .shutTest => 3
  | .shutNotify => 2
  | .shutUnlock => 1
  | .waitLock => 3
  | .waitTest => 2
  | .waitSleep b => if b then 3 else 4
  | .waitUnlock => 1

def total (l : List Frame) : Nat := (l.map Frame.weight).sum

/-- The same for all calls of some threads. -/
def work (s : St) (ts : List Nat) : Nat := (ts.map fun t => total (s.stack t)).sum

theorem total_notify (l : List Frame) : total (l.map Frame.notify) ≤ total l := by
  induction l with
  | nil => exact Nat.le_refl _
  | cons f l ih =>
    simp only [List.map_cons, total, List.sum_cons] at ih ⊢
    have : f.notify.weight ≤ f.weight := by
      cases f <;> try exact Nat.le_refl _
      rename_i b; cases b <;> simp [Frame.notify, Frame.weight]
    omega

theorem sum_lt {α : Type} {ts : List α} {f g : α → Nat} (h : ∀ x ∈ ts, f x ≤ g x) {t : α} (ht : t ∈ ts) (hl : f t < g t) :
    (ts.map f).sum < (ts.map g).sum := by
  induction ts with
  | nil => cases ht
  | cons a ts ih =>
    simp only [List.map_cons, List.sum_cons]
    have h1 := h a List.mem_cons_self
    rcases List.mem_cons.mp ht with rfl | ht'
    · have : ∀ l : List α, (∀ x ∈ l, f x ≤ g x) → (l.map f).sum ≤ (l.map g).sum := by
        intro l
        induction l with
        | nil => intro _; exact Nat.le_refl _
        | cons b l ih =>
          intro hb
          simp only [List.map_cons, List.sum_cons]
          have := hb b List.mem_cons_self
          have := ih (fun x hx => hb x (List.mem_cons_of_mem _ hx))
          omega
      have := this ts (fun x hx => h x (List.mem_cons_of_mem _ hx))
      omega
    · have := ih (fun x hx => h x (List.mem_cons_of_mem _ hx)) ht'
      omega

/-- Once the flag is set, every step from inside brings the end nearer. -/
theorem work_lt {s s' : St} {t : Nat} {a : Act} {ts : List Nat} (hf : s.flag = true) (ha : a = .go ∨ a = .spurious)
    (hs : s.step t a = some s') (ht : t ∈ ts) : work s' ts < work s ts := by
  have key : ∀ fs, total fs < total (s.stack t) → (ts.map fun i => total (setStack s.stack t fs i)).sum < work s ts := by
    intro fs h
    refine sum_lt (fun i _ => ?_) ht (by rw [setStack_self]; exact h)
    by_cases e : i = t
    · subst e; rw [setStack_self]; omega
    · rw [setStack_other e]; omega
  rcases ha with rfl | rfl
  · simp only [St.step, St.go] at hs
    split at hs
    · cases hs
    · rename_i he
      split at hs <;> cases hs
      exact key _ (by rw [he]; simp [total, Frame.weight])
    · rename_i he
      rw [if_pos hf] at hs
      cases hs
      exact key _ (by rw [he]; simp [total, Frame.weight])
    · rename_i fs he
      cases hs
      refine Nat.lt_of_le_of_lt ?_ (key (.shutUnlock :: fs) (by rw [he]; simp [total, Frame.weight]))
      have : ∀ l : List Nat, (l.map fun i => total ((setStack s.stack t (.shutUnlock :: fs) i).map Frame.notify)).sum ≤
          (l.map fun i => total (setStack s.stack t (.shutUnlock :: fs) i)).sum := by
        intro l
        induction l with
        | nil => exact Nat.le_refl _
        | cons b l ih =>
          simp only [List.map_cons, List.sum_cons]
          have := total_notify (setStack s.stack t (.shutUnlock :: fs) b)
          omega
      exact this ts
    · rename_i he
      cases hs
      exact key _ (by rw [he]; simp [total, Frame.weight])
    · rename_i he
      split at hs <;> cases hs
      exact key _ (by rw [he]; simp [total, Frame.weight])
    · rename_i he
      rw [if_pos hf] at hs
      cases hs
      exact key _ (by rw [he]; simp [total, Frame.weight])
    · rename_i he
      split at hs <;> cases hs
      exact key _ (by rw [he]; simp [total, Frame.weight])
    · cases hs
    · rename_i he
      cases hs
      exact key _ (by rw [he]; simp [total, Frame.weight])
  · simp only [St.step] at hs
    split at hs
    · rename_i he
      cases hs
      exact key _ (by rw [he]; simp [total, Frame.weight])
    · cases hs

theorem flag_stays {s s' : St} {t : Nat} {a : Act} (hf : s.flag = true) (hs : s.step t a = some s') : s'.flag = true := by
  cases a with
  | go =>
    simp only [St.step, St.go] at hs
    split at hs <;> (try split at hs) <;> cases hs <;> first | exact hf | rfl
  | spurious =>
    simp only [St.step] at hs
    split at hs <;> cases hs
    exact hf
  | signal => simp only [St.step] at hs; cases hs; exact hf
  | shutdown | wait =>
    simp only [St.step] at hs
    split at hs <;> cases hs
    exact hf

/-- The same before the flag is set; the 4 is what a call may cost afterwards. -/
def Frame.weight0 : Frame → Nat
  | .shutLock => 6
  | .shutTest => 5
  | .waitLock => 6
  | .waitTest => 5
  | .waitSleep b => if b then 6 else 4
  | _ => 4

def total0 (l : List Frame) : Nat := (l.map Frame.weight0).sum

def work0 (s : St) (ts : List Nat) : Nat :=
  if s.flag then work s ts else (ts.map fun t => total0 (s.stack t)).sum

theorem total_le (l : List Frame) : total l ≤ total0 l := by
  induction l with
  | nil => exact Nat.le_refl _
  | cons f l ih =>
    simp only [total, total0, List.map_cons, List.sum_cons] at ih ⊢
    have : f.weight ≤ f.weight0 := by
      cases f <;> try decide
      rename_i b; cases b <;> decide
    omega

/-- Every step of a thread that goes on brings the end, or the next sleep, nearer. -/
theorem work0_lt {s s' : St} {t : Nat} {ts : List Nat} (hi : Inv s) (hs : s.step t .go = some s') (ht : t ∈ ts) :
    work0 s' ts < work0 s ts := by
  by_cases hf : s.flag = true
  · rw [work0, work0, if_pos hf, if_pos (flag_stays hf hs)]
    exact work_lt hf (.inl rfl) hs ht
  · have key : ∀ fs, total0 fs < total0 (s.stack t) →
        (ts.map fun i => total0 (setStack s.stack t fs i)).sum < (ts.map fun i => total0 (s.stack i)).sum := by
      intro fs h
      refine sum_lt (fun i _ => ?_) ht (by rw [setStack_self]; exact h)
      by_cases e : i = t
      · subst e; rw [setStack_self]; omega
      · rw [setStack_other e]; omega
    have hp : ∀ {f fs}, s.stack t = f :: fs → f = .shutNotify ∨ f = .shutUnlock ∨ f = .waitUnlock → False := fun he hx =>
      hf (hi.past t _ (by rw [he]; exact List.mem_cons_self) hx)
    rw [work0, work0, if_neg hf]
    simp only [St.step, St.go] at hs
    split at hs
    · cases hs
    · rename_i he
      split at hs <;> cases hs
      rw [if_neg hf]
      exact key _ (by rw [he]; simp [total0, Frame.weight0])
    · rename_i fs he
      rw [if_neg hf] at hs
      cases hs
      rw [if_pos rfl]
      refine sum_lt (fun i _ => ?_) ht ?_
      · by_cases e : i = t
        · subst e
          simp only [setStack_self]
          rw [he]
          have := total_le fs
          simp only [total, total0, List.map_cons, List.sum_cons, Frame.weight, Frame.weight0] at this ⊢
          omega
        · simp only [setStack_other e]; exact total_le _
      · simp only [setStack_self]
        rw [he]
        have := total_le fs
        simp only [total, total0, List.map_cons, List.sum_cons, Frame.weight, Frame.weight0] at this ⊢
        omega
    · rename_i he; exact (hp he (.inl rfl)).elim
    · rename_i he; exact (hp he (.inr (.inl rfl))).elim
    · rename_i he
      split at hs <;> cases hs
      rw [if_neg hf]
      exact key _ (by rw [he]; simp [total0, Frame.weight0])
    · rename_i he
      rw [if_neg hf] at hs
      cases hs
      rw [if_neg hf]
      exact key _ (by rw [he]; simp [total0, Frame.weight0])
    · rename_i he
      split at hs <;> cases hs
      rw [if_neg hf]
      exact key _ (by rw [he]; simp [total0, Frame.weight0])
    · cases hs
    · rename_i he; exact (hp he (.inr (.inr rfl))).elim

/-- The calls of `wait_for_shutdown`. -/
def Frame.isWait : Frame → Bool
  | .waitLock | .waitTest | .waitSleep _ | .waitUnlock => true
  | _ => false

/-- `wait_for_shutdown` is called by no signal handler; and if something was asked for, it is done or about to be done. -/
structure Inv2 (s : St) : Prop where
  bottom : ∀ t f, f ∈ (s.stack t).dropLast → f.isWait = false
  doing : Ev.asked ∈ s.log → s.flag = true ∨ ∃ t f, f ∈ s.stack t ∧ (f = .shutLock ∨ f = .shutTest)

theorem bottom_notify {l : List Frame} (h : ∀ f ∈ l.dropLast, f.isWait = false) :
    ∀ f ∈ (l.map Frame.notify).dropLast, f.isWait = false := by
  intro f hf
  rw [← List.map_dropLast] at hf
  obtain ⟨g, hg, rfl⟩ := List.mem_map.mp hf
  have := h g hg
  cases g <;> first | rfl | exact this

theorem inv2_step {s s' : St} {t : Nat} {a : Act} (h : Inv2 s) (hs : s.step t a = some s') : Inv2 s' := by
  have bot : ∀ fs, (∀ f ∈ fs.dropLast, f.isWait = false) →
      ∀ i f, f ∈ (setStack s.stack t fs i).dropLast → f.isWait = false := by
    intro fs hfs i f hf
    by_cases e : i = t
    · subst e; rw [setStack_self] at hf; exact hfs f hf
    · rw [setStack_other e] at hf; exact h.bottom i f hf
  have rep : ∀ {f g fs}, s.stack t = f :: fs → (g.isWait = true → f.isWait = true) →
      ∀ x ∈ (g :: fs).dropLast, x.isWait = false := by
    intro f g fs he hg x hx
    have hb := h.bottom t
    rw [he] at hb
    cases fs with
    | nil => cases hx
    | cons y ys =>
      rw [List.dropLast_cons_of_ne_nil (by simp)] at hx
      rcases List.mem_cons.mp hx with rfl | hx
      · have := hb f (by rw [List.dropLast_cons_of_ne_nil (by simp)]; exact List.mem_cons_self)
        cases hgw : x.isWait with
        | false => rfl
        | true => rw [hg hgw] at this; cases this
      · exact hb x (by rw [List.dropLast_cons_of_ne_nil (by simp)]; exact List.mem_cons_of_mem _ hx)
  have popb : ∀ {f fs}, s.stack t = f :: fs → ∀ x ∈ fs.dropLast, x.isWait = false := by
    intro f fs he x hx
    have hb := h.bottom t
    rw [he] at hb
    cases fs with
    | nil => cases hx
    | cons y ys => exact hb x (by rw [List.dropLast_cons_of_ne_nil (by simp)]; exact List.mem_cons_of_mem _ hx)
  /- the pending call stays, or it is the one that is replaced -/
  have keep : ∀ {f fs gs}, s.stack t = f :: fs → (∀ x ∈ fs, x ∈ gs) → (f = .shutLock ∨ f = .shutTest → False) →
      Ev.asked ∈ s.log → s.flag = true ∨ ∃ u x, x ∈ setStack s.stack t gs u ∧ (x = .shutLock ∨ x = .shutTest) := by
    intro f fs gs he hg hf ha
    rcases h.doing ha with h1 | ⟨u, x, hx, hy⟩
    · exact .inl h1
    · refine .inr ⟨u, x, ?_, hy⟩
      by_cases e : u = t
      · subst e
        rw [setStack_self]
        rw [he] at hx
        rcases List.mem_cons.mp hx with rfl | hx
        · exact (hf hy).elim
        · exact hg x hx
      · rw [setStack_other e]; exact hx
  cases a with
  | shutdown =>
    simp only [St.step] at hs
    split at hs <;> cases hs
    exact ⟨bot _ (by simp), fun _ => .inr ⟨t, .shutLock, by simp only [setStack_self]; exact List.mem_cons_self, .inl rfl⟩⟩
  | wait =>
    simp only [St.step] at hs
    split at hs <;> cases hs
    rename_i he
    refine ⟨bot _ (by simp), fun ha => (h.doing ha).imp id ?_⟩
    rintro ⟨u, x, hx, hy⟩
    refine ⟨u, x, ?_, hy⟩
    have : u ≠ t := by rintro rfl; rw [he] at hx; cases hx
    simp only [setStack_other this]; exact hx
  | signal =>
    simp only [St.step] at hs
    cases hs
    refine ⟨bot _ ?_, fun _ => .inr ⟨t, .shutLock, by simp only [setStack_self]; exact List.mem_cons_self, .inl rfl⟩⟩
    intro f hf
    cases hst : s.stack t with
    | nil => rw [hst] at hf; cases hf
    | cons y ys =>
      rw [hst, List.dropLast_cons_of_ne_nil (by simp)] at hf
      rcases List.mem_cons.mp hf with rfl | hf
      · rfl
      · exact h.bottom t f (by rw [hst]; exact hf)
  | spurious =>
    simp only [St.step] at hs
    split at hs
    · rename_i fs he
      cases hs
      exact ⟨bot _ (rep he (fun _ => rfl)), keep he (fun x hx => List.mem_cons_of_mem _ hx) (by simp)⟩
    · cases hs
  | go =>
    simp only [St.step, St.go] at hs
    split at hs
    · cases hs
    · rename_i he
      split at hs <;> cases hs
      exact ⟨bot _ (rep he (by simp [Frame.isWait])),
        fun _ => .inr ⟨t, .shutTest, by simp only [setStack_self]; exact List.mem_cons_self, .inr rfl⟩⟩
    · rename_i he
      split at hs <;> cases hs
      · rename_i hfl
        exact ⟨bot _ (rep he (by simp [Frame.isWait])), fun _ => .inl hfl⟩
      · exact ⟨bot _ (rep he (by simp [Frame.isWait])), fun _ => .inl rfl⟩
    · rename_i fs he
      cases hs
      refine ⟨fun i => bottom_notify (bot _ (rep (g := .shutUnlock) he (by simp [Frame.isWait])) i), fun ha => ?_⟩
      rcases keep (gs := .shutUnlock :: fs) he (fun x hx => List.mem_cons_of_mem _ hx) (by simp) ha with h1 | ⟨u, x, hx, hy⟩
      · exact .inl h1
      · refine .inr ⟨u, x, List.mem_map.mpr ⟨x, hx, ?_⟩, hy⟩
        rcases hy with rfl | rfl <;> rfl
    · rename_i he
      cases hs
      exact ⟨bot _ (popb he), fun ha => keep he (fun x hx => hx) (by simp) (by simpa using ha)⟩
    · rename_i he
      split at hs <;> cases hs
      exact ⟨bot _ (rep he (by simp [Frame.isWait])), keep he (fun x hx => List.mem_cons_of_mem _ hx) (by simp)⟩
    · rename_i he
      split at hs <;> cases hs
      · exact ⟨bot _ (rep he (by simp [Frame.isWait])), keep he (fun x hx => List.mem_cons_of_mem _ hx) (by simp)⟩
      · exact ⟨bot _ (rep he (by simp [Frame.isWait])), keep he (fun x hx => List.mem_cons_of_mem _ hx) (by simp)⟩
    · rename_i he
      split at hs <;> cases hs
      exact ⟨bot _ (rep he (by simp [Frame.isWait])), keep he (fun x hx => List.mem_cons_of_mem _ hx) (by simp)⟩
    · cases hs
    · rename_i he
      cases hs
      exact ⟨bot _ (popb he), fun ha => keep he (fun x hx => hx) (by simp) (by simpa using ha)⟩

theorem inv2 {ok : St → Nat → Act → Prop} {s : St} (hr : Reach ok s) : Inv2 s := by
  induction hr with
  | init => exact ⟨by simp [St.init], by simp [St.init]⟩
  | step _ _ hs ih => exact inv2_step ih hs

/-- A thread whose innermost call has the mutex can go on. -/
theorem holds_goes {s : St} {t : Nat} {f : Frame} {fs : List Frame} (he : s.stack t = f :: fs) (hf : f.holds = true) :
    s.step t .go ≠ none := by
  simp only [St.step, St.go, he]
  cases f <;> cases hf <;> simp only <;> (try split) <;> simp

/-- If nothing can go on although something was asked for, no call is left. -/
theorem still_idle {s : St} (hr : Reach Calm s) (ha : Ev.asked ∈ s.log) (hs : Still s) : ∀ t, Idle s t := by
  have ho := owned hr
  have ht := calm_owned hr
  have hi := inv hr
  have h2 := inv2 hr
  have free : s.owner = none := by
    cases h : s.owner with
    | none => rfl
    | some t =>
      exfalso
      have h1 := ho t
      rw [if_pos h] at h1
      cases hst : s.stack t with
      | nil => rw [hst] at h1; cases h1
      | cons f fs =>
        have h3 := ht t
        rw [hst, List.tail_cons] at h3
        rw [hst, held, h3] at h1
        refine holds_goes hst ?_ (hs t)
        cases hf : f.holds with
        | true => rfl
        | false => rw [hf] at h1; cases h1
  have nohold : ∀ t f, f ∈ s.stack t → f.holds = false := by
    intro t f hf
    have h1 := ho t
    rw [free] at h1
    have : ∀ l : List Frame, held l = 0 → ∀ f ∈ l, f.holds = false := by
      intro l
      induction l with
      | nil => intro _ f hf; cases hf
      | cons g l ih =>
        intro hl f hf
        rw [held] at hl
        rcases List.mem_cons.mp hf with rfl | hf
        · cases hfh : f.holds with
          | false => rfl
          | true => rw [hfh] at hl; simp at hl
        · exact ih (by omega) f hf
    exact this _ (by simpa using h1) f hf
  have nolock : ∀ t fs, s.stack t ≠ .shutLock :: fs := by
    intro t fs he
    have := hs t
    simp [St.step, St.go, he, free] at this
  have nopend : ∀ t f, f ∈ s.stack t → f.isWait = true := by
    intro t f hf
    cases hst : s.stack t with
    | nil => rw [hst] at hf; cases hf
    | cons g gs =>
      have hg : g.isWait = true := by
        have := nohold t g (by rw [hst]; exact List.mem_cons_self)
        cases g <;> first | rfl | exact absurd this (by decide) | exact absurd hst (nolock t gs)
      have hgs : gs = [] := by
        cases gs with
        | nil => rfl
        | cons y ys =>
          have := h2.bottom t g (by rw [hst, List.dropLast_cons_of_ne_nil (by simp)]; exact List.mem_cons_self)
          rw [hg] at this; cases this
      rw [hst, hgs] at hf
      rw [List.mem_singleton.mp hf]
      exact hg
  have hfl : s.flag = true := by
    rcases h2.doing ha with h | ⟨t, f, hf, hx⟩
    · exact h
    · have := nopend t f hf
      rcases hx with rfl | rfl <;> cases this
  intro t
  cases hst : s.stack t with
  | nil => exact hst
  | cons g gs =>
    exfalso
    have hg := nopend t g (by rw [hst]; exact List.mem_cons_self)
    have hh := nohold t g (by rw [hst]; exact List.mem_cons_self)
    have hgo := hs t
    cases g <;> first | exact absurd hg (by decide) | exact absurd hh (by decide) | skip
    · simp [St.step, St.go, hst, free] at hgo
    · rename_i b
      cases b with
      | true => simp [St.step, St.go, hst, free] at hgo
      | false =>
        obtain ⟨u, hu⟩ := hi.wake hfl ⟨t, by rw [hst]; exact List.mem_cons_self⟩
        exact absurd (nohold u _ hu) (by decide)

end Verif.Process
