import Verif.Lemmas.ServerLife
/-
Runs of servers that share a scheduler: what stays as it is, and how `stop` comes to its end.
-/
namespace Verif.ServerLife
open Verif.Spec.ServerLife

theorem run_append {W : List Nat} {s s' s'' : St} {as bs : List (Nat × Act)} (h1 : s.run W as = some s')
    (h2 : s'.run W bs = some s'') : s.run W (as ++ bs) = some s'' := by
  induction as generalizing s with
  | nil => simp only [St.run, Option.some.injEq] at h1; subst h1; simpa using h2
  | cons a as ih =>
    obtain ⟨t, a⟩ := a
    simp only [St.run, List.cons_append] at h1 ⊢
    split at h1
    · cases h1
    · rename_i s1 hs
      exact ih h1

theorem reach_run {W : List Nat} {ok : St → Nat → Act → Prop} {s s' : St} {as : List (Nat × Act)} (hr : Reach W ok s)
    (ha : ∀ (s : St) t a, (t, a) ∈ as → ok s t a) (h : s.run W as = some s') : Reach W ok s' := by
  induction as generalizing s with
  | nil => simp only [St.run, Option.some.injEq] at h; subst h; exact hr
  | cons a as ih =>
    obtain ⟨t, a⟩ := a
    simp only [St.run] at h
    split at h
    · cases h
    · rename_i s1 hs
      exact ih (.step hr (ha s t a (by simp)) hs) (fun s t b hb => ha s t b (by simp [hb])) h

/- A connection whose handler does not return. -/

theorem stopRound_pc {s s' : St} {t v i : Nat} {g : Bool} (h : s.stopRound t v g = some s') (hi : i ≠ t) {w : Nat} {g' : Bool}
    (hp : s.pc i = .stopLoop w g') : s'.pc i = .stopLoop w g' := by
  simp only [St.stopRound] at h
  split at h
  · cases h; simp only [set_apply]; rw [if_neg hi]; exact hp
  · split at h
    · cases h
    · cases h
      simp only [set_apply]
      rw [if_neg hi]
      by_cases hu : s.users - 1 = 0 <;> simp [notifyStopped, notifyUsers, hu, hp]

theorem stopRound_status {s s' : St} {t v c : Nat} {g : Bool} (h : s.stopRound t v g = some s') :
    s'.status c = (if s.status c = .orphan ∧ s.owner c = v then .finished else s.status c) ∧ s'.owner = s.owner ∧
      s'.next = s.next := by
  simp only [St.stopRound] at h
  split at h
  · cases h; exact ⟨rfl, rfl, rfl⟩
  · split at h
    · cases h
    · cases h; exact ⟨rfl, rfl, rfl⟩

theorem stopRound_busy {s s' : St} {t v : Nat} {g : Bool} (h : s.stopRound t v g = some s') (hb : s.busy v = true) :
    s'.pc = set s.pc t (.stopLoop v g) ∧ s'.log = s.log ∧ s'.running = s.running := by
  simp only [St.stopRound, hb, if_true] at h
  cases h; exact ⟨rfl, rfl, rfl⟩

theorem busy_of {s : St} (hf : Fresh s) {c v : Nat} (h1 : s.status c ≠ .absent) (h2 : s.status c ≠ .finished)
    (h3 : s.status c ≠ .orphan) (ho : s.owner c = v) : s.busy v = true := by
  unfold St.busy
  rw [List.any_eq_true]
  exact ⟨c, List.mem_range.2 (lt_of_status hf h1), by simp [h1, h2, h3, ho]⟩

/-- A connection that is not finished keeps its owner. -/
theorem owner_step {W : List Nat} {s s' : St} {t c : Nat} {a : Act} (hf : Fresh s) (hc : s.status c ≠ .absent)
    (h : s.step W t a = some s') : s'.owner c = s.owner c := by
  have hl := lt_of_status hf hc
  cases a <;> simp only [St.step] at h
  case go =>
    simp only [St.go] at h
    split at h
    · cases h
    · cases h; exact (listen_status (s := s.use _) hl).2
    · cases h; rfl
    · split at h <;> cases h; rfl
    · split at h <;> cases h; rfl
    · rw [(stopRound_status (c := c) h).2.1]; rfl
    · cases h; unfold St.joinRound; split <;> rfl
    · split at h
      · cases h
      · cases h; unfold St.shutRound; split <;> rfl
    · split at h <;> cases h; rfl
  case start v => split at h <;> (try split at h) <;> cases h <;> rfl
  case stop v =>
    split at h
    · split at h
      · rw [(stopRound_status (c := c) h).2.1]; rfl
      · cases h; rfl
    · cases h
  case join v =>
    split at h
    · cases h; unfold St.joinRound; split <;> rfl
    · cases h
  case destroy v =>
    split at h
    · split at h
      · rw [(stopRound_status (c := c) h).2.1]; rfl
      · cases h; rfl
    · cases h
  case startup => split at h <;> cases h; rfl
  case shutdown =>
    split at h
    · split at h
      · cases h; unfold St.shutRound; split <;> rfl
      · cases h; rfl
    · cases h
  case accept d ok =>
    split at h
    · cases h; exact (listen_status (s := s.use _) hl).2
    · cases h
  case handle d => split at h <;> cases h; rfl
  case await d => split at h <;> cases h; rfl
  case finish d keep => split at h <;> cases h; rfl
  case drop d => split at h <;> cases h; rfl

/-- Only the thread that handles a connection, outside a call, ends its handling. -/
theorem handled_step {W : List Nat} {s s' : St} {t c i : Nat} {a : Act} (hf : Fresh s) (hc : s.status c = .handled i)
    (hp : s.pc i ≠ .idle) (h : s.step W t a = some s') : s'.status c = .handled i := by
  have hl := lt_of_status hf (c := c) (by rw [hc]; simp)
  cases a <;> simp only [St.step] at h
  case go =>
    simp only [St.go] at h
    split at h
    · cases h
    · cases h; rw [(listen_status (s := s.use _) hl).1]; show (if _ then _ else s.status c) = _; rw [if_neg]
      · exact hc
      · rintro ⟨_, h2, _⟩; have h2 : s.status c = .orphan := h2; rw [hc] at h2; cases h2
    · cases h; exact hc
    · split at h <;> cases h; exact hc
    · split at h <;> cases h; exact hc
    · rw [(stopRound_status (c := c) h).1]; show (if _ then _ else s.status c) = _; rw [if_neg]
      · exact hc
      · rintro ⟨h2, _⟩; have h2 : s.status c = .orphan := h2; rw [hc] at h2; cases h2
    · cases h; unfold St.joinRound; split <;> exact hc
    · split at h
      · cases h
      · cases h; unfold St.shutRound; split <;> exact hc
    · split at h <;> cases h; exact hc
  case start v => split at h <;> (try split at h) <;> cases h <;> exact hc
  case stop v =>
    split at h
    · split at h
      · rw [(stopRound_status (c := c) h).1]; show (if _ then _ else s.status c) = _; rw [if_neg]
        · exact hc
        · rintro ⟨h2, _⟩; have h2 : s.status c = .orphan := h2; rw [hc] at h2; cases h2
      · cases h; exact hc
    · cases h
  case join v =>
    split at h
    · cases h; unfold St.joinRound; split <;> exact hc
    · cases h
  case destroy v =>
    split at h
    · split at h
      · rw [(stopRound_status (c := c) h).1]; show (if _ then _ else s.status c) = _; rw [if_neg]
        · exact hc
        · rintro ⟨h2, _⟩; have h2 : s.status c = .orphan := h2; rw [hc] at h2; cases h2
      · cases h; exact hc
    · cases h
  case startup => split at h <;> cases h; exact hc
  case shutdown =>
    split at h
    · split at h
      · cases h; unfold St.shutRound; split <;> exact hc
      · cases h; exact hc
    · cases h
  case accept d ok =>
    split at h
    · rename_i hd
      cases h
      have hne : c ≠ d := by rintro rfl; rw [hc] at hd; exact absurd hd.2 (by simp)
      simp only [set_apply]
      rw [if_neg hne, (listen_status (s := s.use _) hl).1]; show (if _ then _ else s.status c) = _; rw [if_neg]
      · exact hc
      · rintro ⟨_, h2, _⟩; have h2 : s.status c = .orphan := h2; rw [hc] at h2; cases h2
    · cases h
  case handle d =>
    split at h
    · rename_i hd
      cases h
      have hne : c ≠ d := by rintro rfl; rw [hc] at hd; exact absurd hd.2 (by simp)
      simp only [set_apply]
      rw [if_neg hne]; exact hc
    · cases h
  case await d =>
    split at h
    · rename_i hd
      cases h
      have hne : c ≠ d := by rintro rfl; rw [hc] at hd; cases hd.2; exact hp hd.1
      simp only [set_apply]
      rw [if_neg hne]; exact hc
    · cases h
  case finish d keep =>
    split at h
    · rename_i hd
      cases h
      have hne : c ≠ d := by rintro rfl; rw [hc] at hd; cases hd.2; exact hp hd.1
      simp only [St.finishConn, set_apply]
      rw [if_neg hne]; exact hc
    · cases h
  case drop d =>
    split at h
    · rename_i hd
      cases h
      have hne : c ≠ d := by rintro rfl; rw [hc] at hd; cases hd.2; exact hp hd.1
      simp only [set_apply]
      rw [if_neg hne]; exact hc
    · cases h

/-- A thread in the loop of `stop` stays there as long as a connection of the server is not finished and not an
    orphan. -/
theorem stopLoop_step {W : List Nat} {s s' : St} {t i v : Nat} {g : Bool} {a : Act} (hp : s.pc i = .stopLoop v g)
    (hb : s.busy v = true) (h : s.step W t a = some s') : s'.pc i = .stopLoop v g := by
  by_cases hti : t = i
  · subst hti
    cases a <;> simp only [St.step, hp] at h
    case go =>
      simp only [St.go, hp] at h
      have := (stopRound_busy (s := s.use v) h hb).1
      rw [this]; simp
    all_goals (try (simp at h; done))
    case accept d ok =>
      split at h
      · rename_i hd
        have := hd.1
        simp [St.ready, hp] at this
      · cases h
    case handle d =>
      split at h
      · rename_i hd
        have := hd.1
        simp [St.ready, hp] at this
      · cases h
  · have hit : i ≠ t := fun e => hti e.symm
    cases a <;> simp only [St.step] at h
    case go =>
      simp only [St.go] at h
      split at h
      · cases h
      · cases h; simp only [set_apply]; rw [if_neg hit]; exact hp
      · cases h; simp only [set_apply]; rw [if_neg hit]; exact hp
      · split at h <;> cases h; simp only [set_apply]; rw [if_neg hit]; exact hp
      · split at h <;> cases h; simp only [set_apply]; rw [if_neg hit]; exact hp
      · exact stopRound_pc h hit hp
      · cases h; unfold St.joinRound; split <;> (simp only [set_apply]; rw [if_neg hit]; exact hp)
      · split at h
        · cases h
        · cases h; unfold St.shutRound; split <;> (simp only [set_apply]; rw [if_neg hit]; exact hp)
      · split at h <;> cases h; simp only [set_apply]; rw [if_neg hit]; exact hp
    case start v =>
      split at h
      · split at h
        · cases h; exact hp
        · cases h; simp only [set_apply]; rw [if_neg hit]; exact hp
      · cases h
    case stop v =>
      split at h
      · split at h
        · exact stopRound_pc h hit hp
        · cases h; exact hp
      · cases h
    case join v =>
      split at h
      · cases h; unfold St.joinRound; split <;> (simp only [set_apply]; rw [if_neg hit]; exact hp)
      · cases h
    case destroy v =>
      split at h
      · split at h
        · exact stopRound_pc h hit hp
        · cases h; exact hp
      · cases h
    case startup => split at h <;> cases h; exact hp
    case shutdown =>
      split at h
      · split at h
        · cases h; unfold St.shutRound; split <;> (simp only [set_apply]; rw [if_neg hit]; exact hp)
        · cases h; simp only [set_apply]; rw [if_neg hit]; exact hp
      · cases h
    case accept d ok =>
      split at h
      · cases h; show ((s.use _).listen _).pc i = _; rw [(listen_eq _ _).1]; exact hp
      · cases h
    case handle d => split at h <;> cases h; exact hp
    case await d => split at h <;> cases h; exact hp
    case finish d keep => split at h <;> cases h; exact hp
    case drop d => split at h <;> cases h; exact hp

/-- `stop` called in a handler of the server never returns. -/
theorem self_stop_run {W : List Nat} {as : List (Nat × Act)} : ∀ {s s' : St} {t v c : Nat} {g : Bool}, Fresh s →
    s.pc t = .stopLoop v g → s.status c = .handled t → s.owner c = v → s.run W as = some s' →
    s'.pc t = .stopLoop v g ∧ s'.status c = .handled t := by
  induction as with
  | nil =>
    intro s s' t v c g _ hp hc _ h
    simp only [St.run, Option.some.injEq] at h; subst h; exact ⟨hp, hc⟩
  | cons x as ih =>
    intro s s' t v c g hf hp hc ho h
    obtain ⟨i, a⟩ := x
    simp only [St.run] at h
    split at h
    · cases h
    · rename_i s1 hs
      have hb := busy_of hf (c := c) (v := v) (by rw [hc]; simp) (by rw [hc]; simp) (by rw [hc]; simp) ho
      refine ih (fresh_step hf hs) (stopLoop_step hp hb hs) (handled_step hf hc (by rw [hp]; simp) hs) ?_ h
      rw [owner_step hf (by rw [hc]; simp) hs]; exact ho

/- A server without a scheduler. -/

/-- The scheduler does not run, and no thread is going to start it. -/
def Asleep (s : St) : Prop := s.running = false ∧ ∀ i, starts (s.pc i) = none

theorem stopRound_starts {s s' : St} {t v : Nat} {g : Bool} (hs : ∀ i, starts (s.pc i) = none)
    (h : s.stopRound t v g = some s') : (∀ i, starts (s'.pc i) = none) ∧ s'.running = s.running := by
  simp only [St.stopRound] at h
  split at h
  · cases h
    refine ⟨fun i => ?_, rfl⟩
    simp only [set_apply]; split
    · rfl
    · exact hs i
  · split at h
    · cases h
    · cases h
      refine ⟨fun i => ?_, rfl⟩
      simp only [set_apply]; split
      · rfl
      · rw [starts_notifyStopped]
        split
        · rw [starts_notifyUsers]; exact hs i
        · exact hs i

theorem set_starts {pc : Nat → Pc} (hs : ∀ i, starts (pc i) = none) {t : Nat} {p : Pc} (hp : starts p = none) :
    ∀ i, starts (set pc t p i) = none := by
  intro i; rw [set_apply]; split
  · exact hp
  · exact hs i

theorem asleep_step {W : List Nat} {s s' : St} {t : Nat} {a : Act} (ha : Asleep s) (h1 : a ≠ .startup)
    (h2 : ∀ v, a ≠ .start v) (h : s.step W t a = some s') : Asleep s' := by
  obtain ⟨hr, hs⟩ := ha
  have hst := hs t
  cases a <;> simp only [St.step] at h
  case go =>
    simp only [St.go] at h
    split at h <;> rename_i hp <;> (try (rw [hp] at hst; cases hst; done))
    · cases h
    · have := stopRound_starts (s := s.use _) hs h
      exact ⟨this.2.trans hr, this.1⟩
    · cases h; unfold St.joinRound; split <;> exact ⟨hr, set_starts hs rfl⟩
    · split at h
      · cases h
      · cases h; unfold St.shutRound; split
        · exact ⟨hr, set_starts hs rfl⟩
        · exact ⟨rfl, set_starts hs rfl⟩
    · split at h <;> cases h; exact ⟨hr, set_starts hs rfl⟩
  case start v => exact absurd rfl (h2 v)
  case stop v =>
    split at h
    · split at h
      · have := stopRound_starts (by exact hs) h
        exact ⟨this.2.trans hr, this.1⟩
      · cases h; exact ⟨hr, hs⟩
    · cases h
  case join v =>
    split at h
    · cases h; unfold St.joinRound; split <;> exact ⟨hr, set_starts hs rfl⟩
    · cases h
  case destroy v =>
    split at h
    · split at h
      · have := stopRound_starts (by exact hs) h
        exact ⟨this.2.trans hr, this.1⟩
      · cases h; exact ⟨hr, hs⟩
    · cases h
  case startup => exact absurd rfl h1
  case shutdown =>
    split at h
    · split at h
      · rename_i hr'; rw [hr] at hr'; cases hr'
      · cases h; exact ⟨hr, set_starts hs rfl⟩
    · cases h
  case accept c ok =>
    split at h
    · rename_i hd; have := hd.1; simp [St.ready, hr] at this
    · cases h
  case handle c =>
    split at h
    · rename_i hd; have := hd.1; simp [St.ready, hr] at this
    · cases h
  case await c => split at h <;> cases h; exact ⟨hr, hs⟩
  case finish c keep => split at h <;> cases h; exact ⟨hr, hs⟩
  case drop c => split at h <;> cases h; exact ⟨hr, hs⟩

/-- A pending accept stays pending. -/
theorem accepting_step {W : List Nat} {s s' : St} {t c : Nat} {a : Act} (hf : Fresh s) (ha : s.running = false)
    (hc : s.status c = .accepting) (h : s.step W t a = some s') : s'.status c = .accepting := by
  have hl := lt_of_status hf (c := c) (by rw [hc]; simp)
  have hno : ∀ {x : Status} {p : Prop} [Decidable p], ¬ p → (if p then x else s.status c) = .accepting := by
    intro x p _ hn; rw [if_neg hn]; exact hc
  have hor : s.status c ≠ .orphan := by rw [hc]; simp
  cases a <;> simp only [St.step] at h
  case go =>
    simp only [St.go] at h
    split at h
    · cases h
    · cases h; rw [(listen_status (s := s.use _) hl).1]; exact hno fun h => hor h.2.1
    · cases h; exact hc
    · split at h <;> cases h; exact hc
    · split at h <;> cases h; exact hc
    · rw [(stopRound_status (c := c) h).1]; exact hno fun h => hor h.1
    · cases h; unfold St.joinRound; split <;> exact hc
    · split at h
      · cases h
      · cases h; unfold St.shutRound; split <;> exact hc
    · split at h <;> cases h; exact hc
  case start v => split at h <;> (try split at h) <;> cases h <;> exact hc
  case stop v =>
    split at h
    · split at h
      · rw [(stopRound_status (c := c) h).1]; exact hno fun h => hor h.1
      · cases h; exact hc
    · cases h
  case join v =>
    split at h
    · cases h; unfold St.joinRound; split <;> exact hc
    · cases h
  case destroy v =>
    split at h
    · split at h
      · rw [(stopRound_status (c := c) h).1]; exact hno fun h => hor h.1
      · cases h; exact hc
    · cases h
  case startup => split at h <;> cases h; exact hc
  case shutdown =>
    split at h
    · split at h
      · cases h; unfold St.shutRound; split <;> exact hc
      · cases h; exact hc
    · cases h
  case accept d ok =>
    split at h
    · rename_i hd; have := hd.1; simp [St.ready, ha] at this
    · cases h
  case handle d =>
    split at h
    · rename_i hd; have := hd.1; simp [St.ready, ha] at this
    · cases h
  case await d =>
    split at h
    · rename_i hd
      cases h
      have hne : c ≠ d := by rintro rfl; rw [hc] at hd; cases hd.2
      simp only [set_apply]
      rw [if_neg hne]; exact hc
    · cases h
  case finish d keep =>
    split at h
    · rename_i hd
      cases h
      have hne : c ≠ d := by rintro rfl; rw [hc] at hd; cases hd.2
      simp only [St.finishConn, set_apply]
      rw [if_neg hne]; exact hc
    · cases h
  case drop d =>
    split at h
    · rename_i hd
      cases h
      have hne : c ≠ d := by rintro rfl; rw [hc] at hd; cases hd.2
      simp only [set_apply]
      rw [if_neg hne]; exact hc
    · cases h

/-- `stop` tells that it has returned only when no connection is busy. -/
theorem stopped_step {W : List Nat} {s s' : St} {t v : Nat} {a : Act} (h : s.step W t a = some s')
    (hl : s'.log = s.log ++ [.stopped v true]) : s.busy v = false := by
  have key : ∀ {s1 : St} {w : Nat} {g : Bool}, s1.stopRound t w g = some s' → s1.log = s.log → s1.busy = s.busy →
      s.busy v = false := by
    intro s1 w g h he hbs
    cases hb : s1.busy w with
    | true =>
      rw [(stopRound_busy h hb).2.1, he] at hl
      simp at hl
    | false =>
      have hb' : s1.busy w = false := hb
      simp only [St.stopRound, hb] at h
      simp only [Bool.false_eq_true, if_false] at h
      split at h
      · cases h
      · cases h
        simp only [he, List.append_cancel_left_eq, List.cons.injEq, and_true] at hl
        split at hl
        · cases hl
        · cases hl; rw [← hbs]; exact hb'
  cases a <;> simp only [St.step] at h
  case go =>
    simp only [St.go] at h
    split at h
    · cases h
    · cases h; simp [(listen_eq _ _).2.2.2.2.1, St.use] at hl
    · cases h; simp [St.use] at hl
    · split at h <;> cases h; simp at hl
    · split at h <;> cases h; simp at hl
    · exact key h rfl rfl
    · cases h; unfold St.joinRound at hl; split at hl <;> simp [St.use] at hl
    · split at h
      · cases h
      · cases h; unfold St.shutRound at hl; split at hl <;> simp at hl
    · split at h <;> cases h; simp at hl
  case start w => split at h <;> (try split at h) <;> cases h <;> simp [St.use] at hl
  case stop w =>
    split at h
    · split at h
      · exact key h rfl rfl
      · cases h; simp [St.use] at hl
    · cases h
  case join w =>
    split at h
    · cases h; unfold St.joinRound at hl; split at hl <;> simp [St.use] at hl
    · cases h
  case destroy w =>
    split at h
    · split at h
      · exact key h rfl rfl
      · cases h; simp [St.use] at hl
    · cases h
  case startup => split at h <;> cases h; simp at hl
  case shutdown =>
    split at h
    · split at h
      · cases h; unfold St.shutRound at hl; split at hl <;> simp at hl
      · cases h; simp at hl
    · cases h
  case accept d ok => split at h <;> cases h; simp [(listen_eq _ _).2.2.2.2.1, St.use] at hl
  case handle d => split at h <;> cases h; simp [St.use] at hl
  case await d => split at h <;> cases h; simp at hl
  case finish d keep => split at h <;> cases h; simp [St.use, St.finishConn] at hl
  case drop d => split at h <;> cases h; simp at hl

/-- A step adds at most one call to those that have returned. -/
theorem log_step {W : List Nat} {s s' : St} {t : Nat} {a : Act} (h : s.step W t a = some s') :
    s'.log = s.log ∨ ∃ e, s'.log = s.log ++ [e] := by
  have key : ∀ {s1 : St} {w : Nat} {g : Bool}, s1.stopRound t w g = some s' → s1.log = s.log →
      s'.log = s.log ∨ ∃ e, s'.log = s.log ++ [e] := by
    intro s1 w g h he
    simp only [St.stopRound] at h
    split at h
    · cases h; exact .inl he
    · split at h
      · cases h
      · cases h; exact .inr ⟨_, by rw [← he]⟩
  cases a <;> simp only [St.step] at h
  case go =>
    simp only [St.go] at h
    split at h
    · cases h
    · cases h; left; exact (listen_eq (s.use _) _).2.2.2.2.1
    · cases h; left; rfl
    · split at h <;> cases h; left; rfl
    · split at h <;> cases h; right; exact ⟨_, rfl⟩
    · exact key h rfl
    · cases h; unfold St.joinRound; split
      · left; rfl
      · right; exact ⟨_, rfl⟩
    · split at h
      · cases h
      · cases h; unfold St.shutRound; left; split <;> rfl
    · split at h <;> cases h; right; exact ⟨_, rfl⟩
  case start w =>
    split at h
    · split at h
      · cases h; right; exact ⟨_, rfl⟩
      · cases h; left; rfl
    · cases h
  case stop w =>
    split at h
    · split at h
      · exact key h rfl
      · cases h; right; exact ⟨_, rfl⟩
    · cases h
  case join w =>
    split at h
    · cases h; unfold St.joinRound; split
      · left; rfl
      · right; exact ⟨_, rfl⟩
    · cases h
  case destroy w =>
    split at h
    · split at h
      · exact key h rfl
      · cases h; right; exact ⟨_, rfl⟩
    · cases h
  case startup => split at h <;> cases h; left; rfl
  case shutdown =>
    split at h
    · split at h
      · cases h; unfold St.shutRound; left; split <;> rfl
      · cases h; left; rfl
    · cases h
  case accept d ok => split at h <;> cases h; left; exact (listen_eq (s.use _) _).2.2.2.2.1
  case handle d => split at h <;> cases h; left; rfl
  case await d => split at h <;> cases h; left; rfl
  case finish d keep => split at h <;> cases h; left; rfl
  case drop d => split at h <;> cases h; left; rfl

theorem asleep_run {W : List Nat} {as : List (Nat × Act)} : ∀ {s s' : St} {v c : Nat}, Fresh s → Asleep s →
    s.status c = .accepting → s.owner c = v → (∀ x ∈ as, x.2 ≠ .startup ∧ ∀ w, x.2 ≠ .start w) → s.run W as = some s' →
    s'.status c = .accepting ∧ s'.log.count (.stopped v true) = s.log.count (.stopped v true) := by
  induction as with
  | nil =>
    intro s s' v c _ _ hc _ _ h
    simp only [St.run, Option.some.injEq] at h; subst h; exact ⟨hc, rfl⟩
  | cons x as ih =>
    intro s s' v c hf ha hc ho hx h
    obtain ⟨i, a⟩ := x
    simp only [St.run] at h
    split at h
    · cases h
    · rename_i s1 hs
      have hx0 := hx (i, a) (by simp)
      have hb := busy_of hf (c := c) (v := v) (by rw [hc]; simp) (by rw [hc]; simp) (by rw [hc]; simp) ho
      have ⟨h1, h2⟩ := ih (v := v) (fresh_step hf hs) (asleep_step ha hx0.1 hx0.2 hs) (accepting_step hf ha.1 hc hs)
        (by rw [owner_step hf (by rw [hc]; simp) hs]; exact ho) (fun y hy => hx y (by simp [hy])) h
      refine ⟨h1, h2.trans ?_⟩
      rcases log_step hs with e | ⟨e, he⟩
      · rw [e]
      · rw [he, List.count_append]
        by_cases hev : e = .stopped v true
        · subst hev
          rw [stopped_step hs he] at hb; cases hb
        · simp [hev]

/- Who waits in `join`. -/

/-- A thread that waits in `join` without having been notified waits for a server that listens or is being stopped. -/
def JoinOk (s : St) : Prop := ∀ i v, s.pc i = .joinWait v false → s.listening v = true ∨ ∃ j, stops (s.pc j) = some v

theorem joinWait_told (s : St) (v i w : Nat) :
    notifyStopped (if s.users - 1 = 0 then notifyUsers s.pc else s.pc) v i = .joinWait w false → s.pc i = .joinWait w false ∧ w ≠ v := by
  by_cases hu : s.users - 1 = 0
  · simp only [hu, if_true, notifyStopped, notifyUsers]
    cases s.pc i <;> simp +contextual
  · simp only [hu, if_false, notifyStopped]
    cases s.pc i <;> simp +contextual

theorem stops_told (s : St) (v i : Nat) :
    stops (notifyStopped (if s.users - 1 = 0 then notifyUsers s.pc else s.pc) v i) = stops (s.pc i) := by
  rw [stops_notifyStopped]
  split
  · exact stops_notifyUsers _ _
  · rfl

theorem joinOk_stopRound {s s' : St} {t v : Nat} {g : Bool} (h : s.stopRound t v g = some s')
    (hj : ∀ i w, s.pc i = .joinWait w false → w ≠ v → s.listening w = true ∨ ∃ j, stops (s.pc j) = some w)
    (ht : stops (s.pc t) = some v ∨ s.pc t = .idle) : JoinOk s' := by
  have ht : ∀ w, stops (s.pc t) = some w → w = v := by
    intro w hw
    rcases ht with h | h
    · rw [h] at hw; exact (Option.some.inj hw).symm
    · rw [h] at hw; cases hw
  simp only [St.stopRound] at h
  split at h
  · cases h
    intro i w hi
    simp only [set_apply] at hi
    split at hi
    · cases hi
    · by_cases hw : w = v
      · exact .inr ⟨t, by simp [hw, stops]⟩
      · rcases hj i w hi hw with h | ⟨j, h⟩
        · exact .inl h
        · refine .inr ⟨j, ?_⟩
          simp only [set_apply]
          rw [if_neg]
          · exact h
          · rintro rfl; exact hw (ht w h)
  · split at h
    · cases h
    · cases h
      intro i w hi
      simp only [set_apply] at hi
      split at hi
      · cases hi
      · obtain ⟨h1, hw⟩ := joinWait_told s v i w hi
        rcases hj i w h1 hw with h | ⟨j, h⟩
        · exact .inl h
        · refine .inr ⟨j, ?_⟩
          simp only [set_apply]
          rw [if_neg]
          · rw [stops_told]; exact h
          · rintro rfl; exact hw (ht w h)

theorem joinOk_set {s s' : St} (hj : JoinOk s) {t : Nat} {p : Pc} (hl : ∀ v, s.listening v = true → s'.listening v = true)
    (hp : s'.pc = set s.pc t p) (ht : stops (s.pc t) = none) (hn : ∀ v, p = .joinWait v false → s'.listening v = true) :
    JoinOk s' := by
  intro i v hi
  rw [hp, set_apply] at hi
  split at hi
  · exact .inl (hn v hi)
  · rcases hj i v hi with h | ⟨j, h⟩
    · exact .inl (hl v h)
    · refine .inr ⟨j, ?_⟩
      rw [hp, set_apply, if_neg]
      · exact h
      · rintro rfl; rw [ht] at h; cases h

theorem joinOk_same {s s' : St} (hj : JoinOk s) (hl : s'.listening = s.listening) (hp : s'.pc = s.pc) : JoinOk s' := by
  unfold JoinOk
  rw [hl, hp]; exact hj

theorem joinOk_step {W : List Nat} {s s' : St} {t : Nat} {a : Act} (hj : JoinOk s) (h : s.step W t a = some s') :
    JoinOk s' := by
  cases a <;> simp only [St.step] at h
  case go =>
    simp only [St.go] at h
    split at h <;> rename_i hp
    · cases h
    · cases h
      exact joinOk_set hj (p := .startLook _) (fun v hv => by rw [(listen_eq _ _).2.1]; exact hv) rfl (by rw [hp]; rfl) (by simp)
    · cases h
      refine joinOk_set hj (fun v hv => hv) rfl (by rw [hp]; rfl) (fun v hv => ?_)
      split at hv <;> cases hv
    · split at h <;> cases h; exact joinOk_set hj (fun v hv => hv) rfl (by rw [hp]; rfl) (by simp)
    · split at h <;> cases h; exact joinOk_set hj (fun v hv => hv) rfl (by rw [hp]; rfl) (by simp)
    · exact joinOk_stopRound h (fun i w hi _ => hj i w hi) (.inl (by show stops (s.pc t) = _; rw [hp]; rfl))
    · cases h
      unfold St.joinRound; split
      · rename_i hl
        refine joinOk_set (p := .joinWait _ false) hj (fun v hv => hv) rfl (by rw [hp]; rfl) (fun w hw => ?_)
        cases hw; exact hl
      · exact joinOk_set hj (fun v hv => hv) rfl (by rw [hp]; rfl) (by simp)
    · split at h
      · cases h
      · cases h
        unfold St.shutRound; split <;> exact joinOk_set hj (fun v hv => hv) rfl (by rw [hp]; rfl) (by simp)
    · split at h <;> cases h; exact joinOk_set hj (fun v hv => hv) rfl (by rw [hp]; rfl) (by simp)
  case start v =>
    split at h
    · rename_i hp
      split at h
      · cases h; exact joinOk_same hj rfl rfl
      · cases h
        refine joinOk_set hj (fun w hw => ?_) rfl (by rw [hp]; rfl) (by simp)
        show set s.listening v true w = true
        rw [set_apply]; split
        · rfl
        · exact hw
    · cases h
  case stop v =>
    split at h
    · rename_i hp
      split at h
      · refine joinOk_stopRound h ?_ (.inr hp)
        intro i w hi hw
        rcases hj i w hi with h | h
        · refine .inl ?_
          show set s.listening v false w = true
          rw [set_apply, if_neg hw]; exact h
        · exact .inr h
      · cases h; exact joinOk_same hj rfl rfl
    · cases h
  case join v =>
    split at h
    · rename_i hp
      cases h
      unfold St.joinRound; split
      · rename_i hl
        refine joinOk_set (p := .joinWait _ false) hj (fun v hv => hv) rfl (by rw [hp]; rfl) (fun w hw => ?_)
        cases hw; exact hl
      · exact joinOk_set hj (fun v hv => hv) rfl (by rw [hp]; rfl) (by simp)
    · cases h
  case destroy v =>
    split at h
    · rename_i hp
      split at h
      · refine joinOk_stopRound h ?_ (.inr hp)
        intro i w hi hw
        rcases hj i w hi with h | h
        · refine .inl ?_
          show set s.listening v false w = true
          rw [set_apply, if_neg hw]; exact h
        · exact .inr h
      · cases h; exact joinOk_same hj rfl rfl
    · cases h
  case startup => split at h <;> cases h; exact joinOk_same hj rfl rfl
  case shutdown =>
    split at h
    · rename_i hp
      split at h
      · cases h
        unfold St.shutRound; split <;> exact joinOk_set hj (fun v hv => hv) rfl (by rw [hp.1]; rfl) (by simp)
      · cases h; exact joinOk_set hj (fun v hv => hv) rfl (by rw [hp.1]; rfl) (by simp)
    · cases h
  case accept d ok =>
    split at h <;> cases h
    exact joinOk_same hj (listen_eq (s.use _) _).2.1 (listen_eq (s.use _) _).1
  case handle d => split at h <;> cases h; exact joinOk_same hj rfl rfl
  case await d => split at h <;> cases h; exact joinOk_same hj rfl rfl
  case finish d keep => split at h <;> cases h; exact joinOk_same hj rfl rfl
  case drop d => split at h <;> cases h; exact joinOk_same hj rfl rfl

theorem joinOk {W : List Nat} {ok : St → Nat → Act → Prop} {s : St} (hr : Reach W ok s) : JoinOk s := by
  induction hr with
  | init => intro i v h; cases h
  | step _ _ hs ih => exact joinOk_step ih hs

theorem idle_only {W : List Nat} {s s' : St} {t : Nat} {a : Act} (hp : s.pc t ≠ .idle) (ha : a ≠ .go)
    (h : s.step W t a = some s') : False := by
  cases a <;> simp only [St.step] at h
  case go => exact ha rfl
  case accept d ok =>
    split at h
    · rename_i hd; have := hd.1; simp [St.ready, hp] at this
    · cases h
  case handle d =>
    split at h
    · rename_i hd; have := hd.1; simp [St.ready, hp] at this
    · cases h
  all_goals simp [hp] at h

/-- A thread that waits in `join` is notified only when a `stop` or a destructor of the server returns. -/
theorem join_step {W : List Nat} {s s' : St} {t i v : Nat} {a : Act} (hp : s.pc i = .joinWait v false)
    (hn : Notified s t a) (h : s.step W t a = some s') :
    s'.pc i = .joinWait v false ∨ s'.log = s.log ++ [.stopped v true] ∨ s'.log = s.log ++ [.destroyed v] := by
  by_cases hti : t = i
  · subst hti
    by_cases ha : a = .go
    · exact absurd hp ((hn ha).1 v)
    · exact (idle_only (by rw [hp]; simp) ha h).elim
  · have hit : i ≠ t := fun e => hti e.symm
    have hset : ∀ p, set s.pc t p i = .joinWait v false := by intro p; rw [set_apply, if_neg hit]; exact hp
    have key : ∀ {s1 : St} {w : Nat} {g : Bool}, s1.stopRound t w g = some s' → s1.log = s.log → s1.pc = s.pc →
        s'.pc i = .joinWait v false ∨ s'.log = s.log ++ [.stopped v true] ∨ s'.log = s.log ++ [.destroyed v] := by
      intro s1 w g h he hpc
      simp only [St.stopRound] at h
      split at h
      · cases h; left; show set s1.pc t _ i = _; rw [hpc]; exact hset _
      · split at h
        · cases h
        · cases h
          by_cases hw : v = w
          · subst hw
            right
            cases g
            · left; simp [he]
            · right; simp [he]
          · left
            simp only [set_apply]
            rw [if_neg hit]
            by_cases hu : s1.users - 1 = 0 <;> simp [notifyStopped, notifyUsers, hu, hpc, hp, hw]
    cases a <;> simp only [St.step] at h
    case go =>
      simp only [St.go] at h
      split at h
      · cases h
      · cases h; left; exact hset _
      · cases h; left; exact hset _
      · split at h <;> cases h; left; exact hset _
      · split at h <;> cases h; left; exact hset _
      · exact key h rfl rfl
      · cases h; left; unfold St.joinRound; split <;> exact hset _
      · split at h
        · cases h
        · cases h; left; unfold St.shutRound; split <;> exact hset _
      · split at h <;> cases h; left; exact hset _
    case start w =>
      left
      split at h
      · split at h
        · cases h; exact hp
        · cases h; exact hset _
      · cases h
    case stop w =>
      split at h
      · split at h
        · exact key h rfl rfl
        · cases h; left; exact hp
      · cases h
    case join w =>
      split at h
      · cases h; left; unfold St.joinRound; split <;> exact hset _
      · cases h
    case destroy w =>
      split at h
      · split at h
        · exact key h rfl rfl
        · cases h; left; exact hp
      · cases h
    case startup => split at h <;> cases h; left; exact hp
    case shutdown =>
      left
      split at h
      · split at h
        · cases h; unfold St.shutRound; split <;> exact hset _
        · cases h; exact hset _
      · cases h
    case accept d ok =>
      split at h <;> cases h
      left
      show ((s.use _).listen _).pc i = _; rw [(listen_eq _ _).1]; exact hp
    case handle d => split at h <;> cases h; left; exact hp
    case await d => split at h <;> cases h; left; exact hp
    case finish d keep => split at h <;> cases h; left; exact hp
    case drop d => split at h <;> cases h; left; exact hp

theorem join_steps {W : List Nat} {s s' : St} {i v : Nat} (hp : s.pc i = .joinWait v false) (h : Steps W Notified s s') :
    ∃ l, s'.log = s.log ++ l ∧ (s'.pc i = .joinWait v false ∨ .stopped v true ∈ l ∨ .destroyed v ∈ l) := by
  induction h with
  | refl => exact ⟨[], by simp, .inl hp⟩
  | @step s1 s2 _ _ _ hn hs ih =>
    obtain ⟨l, hl, hc⟩ := ih
    obtain ⟨m, hm⟩ : ∃ m, s2.log = s1.log ++ m := by
      rcases log_step hs with e | ⟨e, he⟩
      · exact ⟨[], by rw [e, List.append_nil]⟩
      · exact ⟨[e], he⟩
    refine ⟨l ++ m, by rw [hm, hl, List.append_assoc], ?_⟩
    rcases hc with hc | hc | hc
    · rcases join_step hc hn hs with h | h | h
      · exact .inl h
      · rw [hm] at h
        have := List.append_cancel_left h
        exact .inr (.inl (by simp [this]))
      · rw [hm] at h
        have := List.append_cancel_left h
        exact .inr (.inr (by simp [this]))
    · exact .inr (.inl (by simp [hc]))
    · exact .inr (.inr (by simp [hc]))

/- `stop` comes to its end. -/

theorem free_finished {s : St} {w : Nat} {st : Nat → Status} (hf : s.free w = true)
    (h : ∀ d, st d = s.status d ∨ st d = .finished) : ({ s with status := st } : St).free w = true := by
  unfold St.free at hf ⊢
  rw [List.all_eq_true] at hf ⊢
  intro d hd
  have := hf d hd
  rcases h d with e | e
  · simp only [e]; exact this
  · simp [e]

/-- A worker, or the thread that handles it, can finish a connection of a server that does not listen. -/
theorem finish_one (keep : Bool) {W : List Nat} {s : St} (hi : Inv s) {v w : Nat} (hl : s.listening v = false) (hr : s.running = true)
    (hw : w ∈ W) (hp : s.pc w = .idle) (hf : s.free w = true)
    (hh : ∀ c i, s.owner c = v → s.status c = .handled i → s.pc i = .idle) (c : Nat) (ho : s.owner c = v) (ha : Alive s c)
    (hno : s.status c ≠ .orphan) :
    ∃ acts, (∀ x ∈ acts, x.2 = .accept c false ∨ x.2 = .handle c ∨ x.2 = .finish c keep) ∧
      s.run W acts = some { s with status := set s.status c .finished } := by
  have hrd : s.ready W w = true := by simp [St.ready, hw, hr, hp, hf]
  have hg := gone_of_alive hi ha
  rw [ho] at hg
  have hu := use_eq hi hg
  have hlis : s.listen v = s := by simp [St.listen, hl]
  cases hs : s.status c with
  | absent => exact absurd hs ha.1
  | finished => exact absurd hs ha.2
  | orphan => exact absurd hs hno
  | accepting =>
    refine ⟨[(w, .accept c false)], by simp, ?_⟩
    simp [St.run, St.step, hrd, hs, ho, hu, hlis]
  | handled i =>
    refine ⟨[(i, .finish c keep)], by simp, ?_⟩
    simp [St.run, St.step, hh c i ho hs, hs, ho, hu, St.finishConn, hl]
  | waiting =>
    refine ⟨[(w, .handle c), (w, .finish c keep)], by simp, ?_⟩
    have h1 : s.step W w (.handle c) = some { s with status := set s.status c (.handled w) } := by
      simp [St.step, hrd, hs, ho, hu]
    have hu2 := use_eq (inv_set_status hi ha (.handled w)) (v := v) hg
    simp only [St.run, h1]
    simp [St.step, hp, ho, hu2, St.finishConn, set_set, hl]

/-- All connections of the list are finished, and nothing else changes. -/
theorem finish_all (keep : Bool) {W : List Nat} {v w : Nat} (L : List Nat) : ∀ {s : St}, Inv s → s.listening v = false →
    s.running = true → w ∈ W → s.pc w = .idle → s.free w = true →
    (∀ c i, s.owner c = v → s.status c = .handled i → s.pc i = .idle) →
    ∃ acts st, (∀ x ∈ acts, ∃ c, x.2 = .accept c false ∨ x.2 = .handle c ∨ x.2 = .finish c keep) ∧
      s.run W acts = some { s with status := st } ∧ Inv { s with status := st } ∧
      (∀ d, st d = s.status d ∨ st d = .finished) ∧
      ∀ c ∈ L, s.owner c = v → st c = .absent ∨ st c = .finished ∨ st c = .orphan := by
  induction L with
  | nil => intro s hi _ _ _ _ _ _; exact ⟨[], s.status, by simp, rfl, hi, fun _ => .inl rfl, by simp⟩
  | cons c L ih =>
    intro s hi hl hr hw hp hf hh
    by_cases hc : s.owner c = v ∧ Alive s c ∧ s.status c ≠ .orphan
    · obtain ⟨as, h1, h2⟩ := finish_one keep hi hl hr hw hp hf hh c hc.1 hc.2.1 hc.2.2
      have hi' := inv_set_status hi hc.2.1 .finished
      have hst : ∀ d, set s.status c .finished d = s.status d ∨ set s.status c .finished d = .finished := by
        intro d; rw [set_apply]; split
        · exact .inr rfl
        · exact .inl rfl
      obtain ⟨bs, st, h3, h4, h5, h6, h7⟩ := ih hi' hl hr hw hp (free_finished hf hst) (by
        intro d i ho hd
        rcases hst d with e | e
        · have hd : set s.status c .finished d = .handled i := hd
          rw [e] at hd; exact hh d i ho hd
        · have hd : set s.status c .finished d = .handled i := hd
          rw [e] at hd; cases hd)
      refine ⟨as ++ bs, st, ?_, run_append h2 h4, h5, ?_, ?_⟩
      · intro x hx
        rcases List.mem_append.1 hx with h | h
        · exact ⟨c, h1 x h⟩
        · exact h3 x h
      · intro d
        rcases h6 d with e | e
        · rcases hst d with e' | e'
          · exact .inl (e.trans e')
          · exact .inr (e.trans e')
        · exact .inr e
      · intro d hd ho
        rcases List.mem_cons.1 hd with e | e
        · subst e
          rcases h6 d with e | e
          · exact .inr (.inl (e.trans (by simp)))
          · exact .inr (.inl e)
        · exact h7 d e ho
    · obtain ⟨bs, st, h3, h4, h5, h6, h7⟩ := ih hi hl hr hw hp hf hh
      refine ⟨bs, st, h3, h4, h5, h6, ?_⟩
      intro d hd ho
      rcases List.mem_cons.1 hd with e | e
      · subst e
        rcases h6 d with e | e
        · rw [e]
          by_cases h1 : s.status d = .absent
          · exact .inl h1
          · by_cases h2 : s.status d = .finished
            · exact .inr (.inl h2)
            · by_cases h3 : s.status d = .orphan
              · exact .inr (.inr h3)
              · exact absurd ⟨ho, ⟨h1, h2⟩, h3⟩ hc
        · exact .inr (.inl e)
      · exact h7 d e ho

/-- A `stop` that waits returns when the connections have been finished. -/
theorem stop_finishes (keep : Bool) {W : List Nat} {s : St} (hi : Inv s) {t v w : Nat} {g : Bool} (ht : s.pc t = .stopLoop v g)
    (hw : w ∈ W) (hp : s.pc w = .idle) (hf : s.free w = true)
    (hh : ∀ c i, s.owner c = v → s.status c = .handled i → s.pc i = .idle) :
    ∃ acts s', (∀ x ∈ acts, x = (t, .go) ∨ ∃ c, x.2 = .accept c false ∨ x.2 = .handle c ∨ x.2 = .finish c keep) ∧
      s.run W acts = some s' ∧ s'.pc t = .idle ∧
      s'.log = s.log ++ [if g then .destroyed v else .stopped v true] := by
  have hst : stops (s.pc t) = some v := by rw [ht]; rfl
  have hrun := hi.runReg v (.inr ⟨t, hst⟩)
  have hheld : s.held = false := by
    cases h : s.held
    · rfl
    · rw [hi.heldRun h] at hrun; cases hrun
  obtain ⟨as, st, h1, h2, h3, h4, h5⟩ := finish_all keep (W := W) (List.range s.next) hi (hi.stopL t v hst) hrun hw hp hf hh
  have hb : ({ s with status := st } : St).busy v = false := by
    unfold St.busy
    rw [List.any_eq_false]
    intro c hc
    by_cases ho : s.owner c = v
    · rcases h5 c hc ho with e | e | e <;> simp [e]
    · simp [ho]
  have hg : s.gone v = false := by
    cases hg : s.gone v
    · rfl
    · exact absurd hst ((hi.gone v hg).2 t).2.1
  have hu := use_eq h3 (v := v) hg
  have hgo : ∃ s', ({ s with status := st } : St).run W [(t, .go)] = some s' ∧ s'.pc t = .idle ∧
      s'.log = s.log ++ [if g then .destroyed v else .stopped v true] := by
    simp only [St.run, St.step, St.go, ht, hu, St.stopRound, hb]
    simp [hheld]
  obtain ⟨s', h6, h7, h8⟩ := hgo
  refine ⟨as ++ [(t, .go)], s', ?_, run_append h2 h6, h7, h8⟩
  intro x hx
  rcases List.mem_append.1 hx with h | h
  · exact .inr (h1 x h)
  · exact .inl (by simpa using h)

/- The calls that return. -/

theorem stopRound_event {s s' : St} {t w : Nat} {g : Bool} {e : Ev} (h : s.stopRound t w g = some s')
    (hl : s'.log = s.log ++ [e]) : e = (if g then .destroyed w else .stopped w true) ∧ s'.listening = s.listening ∧
      ∀ i, stops (s'.pc i) = if i = t then none else stops (s.pc i) := by
  simp only [St.stopRound] at h
  split at h
  · cases h; simp at hl
  · split at h
    · cases h
    · cases h
      simp only [List.append_cancel_left_eq, List.cons.injEq, and_true] at hl
      refine ⟨hl.symm, rfl, fun i => ?_⟩
      simp only [set_apply]
      split
      · rfl
      · exact stops_told _ _ _

/-- A `stop` or a destructor that returns leaves a server that does not listen and is not being stopped. -/
theorem stopped_event {W : List Nat} {s s' : St} {t v : Nat} {a : Act} (hi : Inv s) (ho : Careful s t a)
    (h : s.step W t a = some s') {e : Ev} (he : (∃ b, e = .stopped v b) ∨ e = .destroyed v) (hl : s'.log = s.log ++ [e]) :
    s'.listening v = false ∧ ∀ i, stops (s'.pc i) ≠ some v := by
  cases a <;> simp only [St.step] at h
  case go =>
    simp only [St.go] at h
    split at h <;> rename_i hp
    · cases h
    · cases h; simp [(listen_eq _ _).2.2.2.2.1, St.use] at hl
    · cases h; simp [St.use] at hl
    · split at h <;> cases h; simp at hl
    · split at h <;> cases h
      simp only [List.append_cancel_left_eq, List.cons.injEq, and_true] at hl
      subst hl; rcases he with ⟨b, he⟩ | he <;> cases he
    · rename_i w g
      obtain ⟨h1, h2, h3⟩ := stopRound_event h hl
      have hst : stops (s.pc t) = some w := by rw [hp]; rfl
      have hv : w = v := by
        rcases he with ⟨b, he⟩ | he <;> subst he <;> split at h1 <;> cases h1 <;> rfl
      subst hv
      refine ⟨by rw [h2]; exact hi.stopL t w hst, fun i => ?_⟩
      rw [h3]
      split
      · simp
      · intro hi'
        exact absurd (hi.uniq i t w (.inr hi') (.inr hst)) (by assumption)
    · cases h
      unfold St.joinRound at hl
      split at hl
      · simp [St.use] at hl
      · simp only [St.use, List.append_cancel_left_eq, List.cons.injEq, and_true] at hl
        subst hl; rcases he with ⟨b, he⟩ | he <;> cases he
    · split at h
      · cases h
      · cases h; unfold St.shutRound at hl; split at hl <;> simp at hl
    · split at h <;> cases h
      simp only [List.append_cancel_left_eq, List.cons.injEq, and_true] at hl
      subst hl; rcases he with ⟨b, he⟩ | he <;> cases he
  case start w =>
    split at h
    · split at h
      · cases h
        simp only [St.use, List.append_cancel_left_eq, List.cons.injEq, and_true] at hl
        subst hl; rcases he with ⟨b, he⟩ | he <;> cases he
      · cases h; simp [St.use] at hl
    · cases h
  case stop w =>
    obtain ⟨hg, hq⟩ := ho
    split at h
    · split at h
      · obtain ⟨h1, h2, h3⟩ := stopRound_event h hl
        have hv : w = v := by
          rcases he with ⟨b, he⟩ | he <;> subst he <;> cases h1
          rfl
        subst hv
        refine ⟨by rw [h2]; simp, fun i => ?_⟩
        rw [h3]
        split
        · simp
        · exact (hq i).2
      · rename_i hli
        cases h
        simp only [St.use, List.append_cancel_left_eq, List.cons.injEq, and_true] at hl
        have hv : w = v := by
          subst hl; rcases he with ⟨b, he⟩ | he <;> cases he
          rfl
        subst hv
        exact ⟨by simpa using hli, fun i => (hq i).2⟩
    · cases h
  case join w =>
    split at h
    · cases h
      unfold St.joinRound at hl
      split at hl
      · simp [St.use] at hl
      · simp only [St.use, List.append_cancel_left_eq, List.cons.injEq, and_true] at hl
        subst hl; rcases he with ⟨b, he⟩ | he <;> cases he
    · cases h
  case destroy w =>
    obtain ⟨hg, hq, _⟩ := ho
    split at h
    · split at h
      · obtain ⟨h1, h2, h3⟩ := stopRound_event h hl
        have hv : w = v := by
          rcases he with ⟨b, he⟩ | he <;> subst he <;> cases h1
          rfl
        subst hv
        refine ⟨by rw [h2]; simp, fun i => ?_⟩
        rw [h3]
        split
        · simp
        · exact (hq i).2
      · rename_i hli
        cases h
        simp only [St.use, List.append_cancel_left_eq, List.cons.injEq, and_true] at hl
        have hv : w = v := by
          subst hl; rcases he with ⟨b, he⟩ | he <;> cases he
          rfl
        subst hv
        exact ⟨by simpa using hli, fun i => (hq i).2⟩
    · cases h
  case startup => split at h <;> cases h; simp at hl
  case shutdown =>
    split at h
    · split at h
      · cases h; unfold St.shutRound at hl; split at hl <;> simp at hl
      · cases h; simp at hl
    · cases h
  case accept d ok => split at h <;> cases h; simp [(listen_eq _ _).2.2.2.2.1, St.use] at hl
  case handle d => split at h <;> cases h; simp [St.use] at hl
  case await d => split at h <;> cases h; simp at hl
  case finish d keep => split at h <;> cases h; simp [St.use, St.finishConn] at hl
  case drop d => split at h <;> cases h; simp at hl

/-- `shutdown` returns when the threads have been joined. -/
theorem shutdown_event {W : List Nat} {s s' : St} {t : Nat} {a : Act} (h : s.step W t a = some s')
    (hl : s'.log = s.log ++ [.shutdown]) : s.pc t = .shutJoin ∧ s.ended W = true ∧
      s' = { s with held := false, pc := set s.pc t .idle, log := s.log ++ [.shutdown] } := by
  have key : ∀ {s1 : St} {w : Nat} {g : Bool}, s1.stopRound t w g = some s' → s1.log = s.log → False := by
    intro s1 w g h he
    rw [← he] at hl
    have := (stopRound_event h hl).1
    split at this <;> cases this
  cases a <;> simp only [St.step] at h
  case go =>
    simp only [St.go] at h
    split at h <;> rename_i hp
    · cases h
    · cases h; simp [(listen_eq _ _).2.2.2.2.1, St.use] at hl
    · cases h; simp [St.use] at hl
    · split at h <;> cases h; simp at hl
    · split at h <;> cases h; simp at hl
    · exact (key h rfl).elim
    · cases h; unfold St.joinRound at hl; split at hl <;> simp [St.use] at hl
    · split at h
      · cases h
      · cases h; unfold St.shutRound at hl; split at hl <;> simp at hl
    · split at h
      · rename_i he
        cases h; exact ⟨hp, he, rfl⟩
      · cases h
  case start w => split at h <;> (try split at h) <;> cases h <;> simp [St.use] at hl
  case stop w =>
    split at h
    · split at h
      · exact (key h rfl).elim
      · cases h; simp [St.use] at hl
    · cases h
  case join w =>
    split at h
    · cases h; unfold St.joinRound at hl; split at hl <;> simp [St.use] at hl
    · cases h
  case destroy w =>
    split at h
    · split at h
      · exact (key h rfl).elim
      · cases h; simp [St.use] at hl
    · cases h
  case startup => split at h <;> cases h; simp at hl
  case shutdown =>
    split at h
    · split at h
      · cases h; unfold St.shutRound at hl; split at hl <;> simp at hl
      · cases h; simp at hl
    · cases h
  case accept d ok => split at h <;> cases h; simp [(listen_eq _ _).2.2.2.2.1, St.use] at hl
  case handle d => split at h <;> cases h; simp [St.use] at hl
  case await d => split at h <;> cases h; simp at hl
  case finish d keep => split at h <;> cases h; simp [St.use, St.finishConn] at hl
  case drop d => split at h <;> cases h; simp at hl

/-- `join` returns when the server does not listen. -/
theorem joined_event {W : List Nat} {s s' : St} {t v : Nat} {a : Act} (h : s.step W t a = some s')
    (hl : s'.log = s.log ++ [.joined v]) : s'.listening v = false ∧ s'.pc t = .idle := by
  have key : ∀ {s1 : St} {w : Nat} {g : Bool}, s1.stopRound t w g = some s' → s1.log = s.log → False := by
    intro s1 w g h he
    rw [← he] at hl
    have := (stopRound_event h hl).1
    split at this <;> cases this
  have key2 : ∀ {s1 : St} {w : Nat}, s1.log = s.log → s' = s1.joinRound t w → s'.listening v = false ∧ s'.pc t = .idle := by
    intro s1 w he hs
    unfold St.joinRound at hs
    split at hs
    · subst hs; simp [he] at hl
    · rename_i hli
      subst hs
      simp only [he, List.append_cancel_left_eq, List.cons.injEq, and_true, Ev.joined.injEq] at hl
      subst hl
      exact ⟨by simpa using hli, by simp⟩
  cases a <;> simp only [St.step] at h
  case go =>
    simp only [St.go] at h
    split at h <;> rename_i hp
    · cases h
    · cases h; simp [(listen_eq _ _).2.2.2.2.1, St.use] at hl
    · cases h; simp [St.use] at hl
    · split at h <;> cases h; simp at hl
    · split at h <;> cases h; simp at hl
    · exact (key h rfl).elim
    · cases h; exact key2 (s1 := s.use _) rfl rfl
    · split at h
      · cases h
      · cases h; unfold St.shutRound at hl; split at hl <;> simp at hl
    · split at h <;> cases h; simp at hl
  case start w => split at h <;> (try split at h) <;> cases h <;> simp [St.use] at hl
  case stop w =>
    split at h
    · split at h
      · exact (key h rfl).elim
      · cases h; simp [St.use] at hl
    · cases h
  case join w =>
    split at h
    · cases h; exact key2 (s1 := s.use _) rfl rfl
    · cases h
  case destroy w =>
    split at h
    · split at h
      · exact (key h rfl).elim
      · cases h; simp [St.use] at hl
    · cases h
  case startup => split at h <;> cases h; simp at hl
  case shutdown =>
    split at h
    · split at h
      · cases h; unfold St.shutRound at hl; split at hl <;> simp at hl
      · cases h; simp at hl
    · cases h
  case accept d ok => split at h <;> cases h; simp [(listen_eq _ _).2.2.2.2.1, St.use] at hl
  case handle d => split at h <;> cases h; simp [St.use] at hl
  case await d => split at h <;> cases h; simp at hl
  case finish d keep => split at h <;> cases h; simp [St.use, St.finishConn] at hl
  case drop d => split at h <;> cases h; simp at hl

/- A listening server has an accept pending. -/

def Pending (s : St) : Prop :=
  ∀ v, s.listening v = true → (∀ i, s.pc i ≠ .startListen v) → ∃ c, s.owner c = v ∧ s.status c = .accepting

theorem listen_accepts {s : St} (v : Nat) (h : s.listening v = true) :
    (s.listen v).owner s.next = v ∧ (s.listen v).status s.next = .accepting := by
  simp [St.listen, h]

theorem pending_keep {s s' : St} (hp : Pending s) (w : Nat) (h1 : s.listening w = true) (h2 : ∀ i, s.pc i ≠ .startListen w)
    (h3 : ∀ c, s.status c = .accepting → s'.status c = .accepting ∧ s'.owner c = s.owner c) :
    ∃ c, s'.owner c = w ∧ s'.status c = .accepting := by
  obtain ⟨c, g1, g2⟩ := hp w h1 h2
  exact ⟨c, (h3 c g2).2.trans g1, (h3 c g2).1⟩

theorem keep_listen {s : St} (hf : Fresh s) (v : Nat) (c : Nat) (hc : s.status c = .accepting) :
    (s.listen v).status c = .accepting ∧ (s.listen v).owner c = s.owner c := by
  have := listen_status (v := v) (lt_of_status hf (c := c) (by rw [hc]; simp))
  rw [this.1, this.2, if_neg]
  · exact ⟨hc, rfl⟩
  · rintro ⟨_, h, _⟩; rw [hc] at h; cases h

theorem keep_prune {s s' : St} {t v : Nat} {g : Bool} (h : s.stopRound t v g = some s') (c : Nat)
    (hc : s.status c = .accepting) : s'.status c = .accepting ∧ s'.owner c = s.owner c := by
  have := stopRound_status (c := c) h
  rw [this.1, this.2.1, if_neg]
  · exact ⟨hc, rfl⟩
  · rintro ⟨h, _⟩; rw [hc] at h; cases h

theorem keep_set {s : St} {d : Nat} {x : Status} (hd : s.status d ≠ .accepting) (c : Nat) (hc : s.status c = .accepting) :
    set s.status d x c = .accepting := by
  rw [set_apply, if_neg]
  · exact hc
  · rintro rfl; exact hd hc

theorem startListen_stopRound {s s' : St} {t v w : Nat} {g : Bool} (h : s.stopRound t v g = some s')
    (ht : ∀ w, s.pc t ≠ .startListen w) (hn : ∀ i, s'.pc i ≠ .startListen w) : ∀ i, s.pc i ≠ .startListen w := by
  intro i hi
  have hne : i ≠ t := by rintro rfl; exact ht w hi
  refine hn i ?_
  simp only [St.stopRound] at h
  split at h
  · cases h; simp only [set_apply]; rw [if_neg hne]; exact hi
  · split at h
    · cases h
    · cases h
      simp only [set_apply]
      rw [if_neg hne]
      by_cases hu : s.users - 1 = 0 <;> simp [notifyStopped, notifyUsers, hu, hi]

theorem startListen_set {pc : Nat → Pc} {t w : Nat} {p : Pc} (ht : ∀ w, pc t ≠ .startListen w)
    (hn : ∀ i, set pc t p i ≠ .startListen w) : ∀ i, pc i ≠ .startListen w := by
  intro i hi
  have hne : i ≠ t := by rintro rfl; exact ht w hi
  have := hn i
  rw [set_apply, if_neg hne] at this
  exact this hi

theorem stopRound_listening {s s' : St} {t v : Nat} {g : Bool} (h : s.stopRound t v g = some s') :
    s'.listening = s.listening := by
  simp only [St.stopRound] at h
  split at h
  · cases h; rfl
  · split at h
    · cases h
    · cases h; rfl

theorem pending_step {W : List Nat} {s s' : St} {t : Nat} {a : Act} (hf : Fresh s) (hp : Pending s)
    (h : s.step W t a = some s') : Pending s' := by
  have htriv : ∀ c, s.status c = .accepting → s.status c = .accepting ∧ s.owner c = s.owner c := fun c hc => ⟨hc, rfl⟩
  cases a <;> simp only [St.step] at h <;> intro w h1 h2
  case go =>
    simp only [St.go] at h
    split at h <;> rename_i hpc
    · cases h
    · rename_i v
      cases h
      have h1 : ((s.use v).listen v).listening w = true := h1
      rw [(listen_eq _ _).2.1] at h1
      by_cases hv : w = v
      · subst hv
        exact ⟨s.next, listen_accepts (s := s.use w) w h1⟩
      · refine pending_keep hp w h1 ?_ (keep_listen (s := s.use v) hf v)
        intro i hi
        have := h2 i
        simp only [set_apply] at this
        split at this
        · rename_i e; subst e; rw [hpc] at hi; cases hi; exact hv rfl
        · exact this hi
    · cases h
      exact pending_keep hp w h1 (startListen_set (by rw [hpc]; simp) h2) htriv
    · split at h <;> cases h
      exact pending_keep hp w h1 (startListen_set (by rw [hpc]; simp) h2) htriv
    · split at h <;> cases h
      exact pending_keep hp w h1 (startListen_set (by rw [hpc]; simp) h2) htriv
    · rw [stopRound_listening h] at h1
      exact pending_keep hp w h1 (startListen_stopRound (s := s.use _) h (by show ∀ w, s.pc t ≠ _; rw [hpc]; simp) h2)
        (keep_prune (s := s.use _) h)
    · cases h
      unfold St.joinRound at h1 h2 ⊢
      split at h2
      · rename_i hl
        simp only [hl, if_true] at h1 ⊢
        exact pending_keep hp w h1 (startListen_set (by rw [hpc]; simp) h2) htriv
      · rename_i hl
        simp only [hl] at h1 ⊢
        exact pending_keep hp w h1 (startListen_set (by rw [hpc]; simp) h2) htriv
    · split at h
      · cases h
      · cases h
        unfold St.shutRound at h1 h2 ⊢
        split at h2
        · rename_i hl
          simp only [hl, if_true] at h1 ⊢
          exact pending_keep hp w h1 (startListen_set (by rw [hpc]; simp) h2) htriv
        · rename_i hl
          simp only [hl] at h1 ⊢
          exact pending_keep hp w h1 (startListen_set (by rw [hpc]; simp) h2) htriv
    · split at h <;> cases h
      exact pending_keep hp w h1 (startListen_set (by rw [hpc]; simp) h2) htriv
  case start v =>
    split at h
    · rename_i hpc
      split at h
      · cases h; exact pending_keep hp w h1 h2 htriv
      · cases h
        have hwv : w ≠ v := by
          rintro rfl
          exact h2 t (by simp)
        have h1 : set s.listening v true w = true := h1
        rw [set_apply, if_neg hwv] at h1
        exact pending_keep hp w h1 (startListen_set (by rw [hpc]; simp) h2) htriv
    · cases h
  case stop v =>
    split at h
    · rename_i hpc
      split at h
      · rw [stopRound_listening h] at h1
        have h1 : set s.listening v false w = true := h1
        have hwv : w ≠ v := by rintro rfl; simp at h1
        rw [set_apply, if_neg hwv] at h1
        have k1 := startListen_stopRound h (by show ∀ w, s.pc t ≠ _; rw [hpc]; simp) h2
        have k2 := keep_prune h
        exact pending_keep hp w h1 k1 k2
      · cases h; exact pending_keep hp w h1 h2 htriv
    · cases h
  case join v =>
    split at h
    · rename_i hpc
      cases h
      unfold St.joinRound at h1 h2 ⊢
      split at h2
      · rename_i hl
        simp only [hl, if_true] at h1 ⊢
        exact pending_keep hp w h1 (startListen_set (by rw [hpc]; simp) h2) htriv
      · rename_i hl
        simp only [hl] at h1 ⊢
        exact pending_keep hp w h1 (startListen_set (by rw [hpc]; simp) h2) htriv
    · cases h
  case destroy v =>
    split at h
    · rename_i hpc
      split at h
      · rw [stopRound_listening h] at h1
        have h1 : set s.listening v false w = true := h1
        have hwv : w ≠ v := by rintro rfl; simp at h1
        rw [set_apply, if_neg hwv] at h1
        have k1 := startListen_stopRound h (by show ∀ w, s.pc t ≠ _; rw [hpc]; simp) h2
        have k2 := keep_prune h
        exact pending_keep hp w h1 k1 k2
      · cases h; exact pending_keep hp w h1 h2 htriv
    · cases h
  case startup => split at h <;> cases h; exact pending_keep hp w h1 h2 htriv
  case shutdown =>
    split at h
    · rename_i hpc
      split at h
      · cases h
        unfold St.shutRound at h1 h2 ⊢
        split at h2
        · rename_i hl
          simp only [hl, if_true] at h1 ⊢
          exact pending_keep hp w h1 (startListen_set (by rw [hpc.1]; simp) h2) htriv
        · rename_i hl
          simp only [hl] at h1 ⊢
          exact pending_keep hp w h1 (startListen_set (by rw [hpc.1]; simp) h2) htriv
      · cases h
        exact pending_keep hp w h1 (startListen_set (by rw [hpc.1]; simp) h2) htriv
    · cases h
  case accept d ok =>
    split at h
    · rename_i hd
      cases h
      have h1 : ((s.use (s.owner d)).listen (s.owner d)).listening w = true := h1
      rw [(listen_eq _ _).2.1] at h1
      have h2 : ∀ i, ((s.use (s.owner d)).listen (s.owner d)).pc i ≠ .startListen w := h2
      rw [(listen_eq _ _).1] at h2
      by_cases hw : w = s.owner d
      · have ha := listen_accepts (s := s.use (s.owner d)) (s.owner d) (by rw [← hw]; exact h1)
        have hlt := lt_of_status hf (c := d) (by rw [hd.2]; simp)
        refine ⟨s.next, ?_, ?_⟩
        · rw [hw]; exact ha.1
        · show set _ d _ s.next = _
          rw [set_apply, if_neg (by omega)]
          exact ha.2
      · obtain ⟨c, g1, g2⟩ := hp w h1 h2
        have hk := keep_listen (s := s.use (s.owner d)) hf (s.owner d) c g2
        refine ⟨c, hk.2.trans g1, ?_⟩
        show set _ d _ c = _
        rw [set_apply, if_neg]
        · exact hk.1
        · rintro rfl; exact hw g1.symm
    · cases h
  case handle d =>
    split at h
    · rename_i hd; cases h
      exact pending_keep hp w h1 h2 fun c hc => ⟨keep_set (by rw [hd.2]; simp) c hc, rfl⟩
    · cases h
  case await d =>
    split at h
    · rename_i hd; cases h
      exact pending_keep hp w h1 h2 fun c hc => ⟨keep_set (by rw [hd.2]; simp) c hc, rfl⟩
    · cases h
  case finish d keep =>
    split at h
    · rename_i hd; cases h
      exact pending_keep hp w h1 h2 fun c hc => ⟨keep_set (s := s.use _) (by show s.status d ≠ _; rw [hd.2]; simp) c hc, rfl⟩
    · cases h
  case drop d =>
    split at h
    · rename_i hd; cases h
      exact pending_keep hp w h1 h2 fun c hc => ⟨keep_set (by rw [hd.2]; simp) c hc, rfl⟩
    · cases h

theorem pending {W : List Nat} {ok : St → Nat → Act → Prop} {s : St} (hr : Reach W ok s) : Pending s := by
  induction hr with
  | init => intro v h; cases h
  | step hr' _ hs ih => exact pending_step (fresh hr') ih hs

/- Schedules that can be checked. -/

theorem stopRound_idle {s s' : St} {t v i : Nat} {g : Bool} (h : s.stopRound t v g = some s') (hi : i ≠ t)
    (hp : s.pc i = .idle) : s'.pc i = .idle := by
  simp only [St.stopRound] at h
  split at h
  · cases h; simp only [set_apply]; rw [if_neg hi]; exact hp
  · split at h
    · cases h
    · cases h
      simp only [set_apply]
      rw [if_neg hi]
      by_cases hu : s.users - 1 = 0 <;> simp [notifyStopped, notifyUsers, hu, hp]

theorem idle_step {W : List Nat} {s s' : St} {t i : Nat} {a : Act} (hit : i ≠ t) (hp : s.pc i = .idle)
    (h : s.step W t a = some s') : s'.pc i = .idle := by
  cases a <;> simp only [St.step] at h
  case go =>
    simp only [St.go] at h
    split at h
    · cases h
    · cases h; simp only [set_apply]; rw [if_neg hit]; exact hp
    · cases h; simp only [set_apply]; rw [if_neg hit]; exact hp
    · split at h <;> cases h; simp only [set_apply]; rw [if_neg hit]; exact hp
    · split at h <;> cases h; simp only [set_apply]; rw [if_neg hit]; exact hp
    · exact stopRound_idle h hit hp
    · cases h; unfold St.joinRound; split <;> (simp only [set_apply]; rw [if_neg hit]; exact hp)
    · split at h
      · cases h
      · cases h; unfold St.shutRound; split <;> (simp only [set_apply]; rw [if_neg hit]; exact hp)
    · split at h <;> cases h; simp only [set_apply]; rw [if_neg hit]; exact hp
  case start v =>
    split at h
    · split at h
      · cases h; exact hp
      · cases h; simp only [set_apply]; rw [if_neg hit]; exact hp
    · cases h
  case stop v =>
    split at h
    · split at h
      · exact stopRound_idle h hit hp
      · cases h; exact hp
    · cases h
  case join v =>
    split at h
    · cases h; unfold St.joinRound; split <;> (simp only [set_apply]; rw [if_neg hit]; exact hp)
    · cases h
  case destroy v =>
    split at h
    · split at h
      · exact stopRound_idle h hit hp
      · cases h; exact hp
    · cases h
  case startup => split at h <;> cases h; exact hp
  case shutdown =>
    split at h
    · split at h
      · cases h; unfold St.shutRound; split <;> (simp only [set_apply]; rw [if_neg hit]; exact hp)
      · cases h; simp only [set_apply]; rw [if_neg hit]; exact hp
    · cases h
  case accept d ok =>
    split at h
    · cases h; show ((s.use _).listen _).pc i = _; rw [(listen_eq _ _).1]; exact hp
    · cases h
  case handle d => split at h <;> cases h; exact hp
  case await d => split at h <;> cases h; exact hp
  case finish d keep => split at h <;> cases h; exact hp
  case drop d => split at h <;> cases h; exact hp

/-- `Careful`, looking at the given threads only. -/
def carefulAt (T : List Nat) (s : St) : Act → Bool
  | .start v => !s.gone v && T.all (fun i => starts (s.pc i) != some v && stops (s.pc i) != some v && !shuts (s.pc i)) &&
      decide (v < 2 ^ 32 - 1)
  | .stop v => !s.gone v && T.all (fun i => starts (s.pc i) != some v && stops (s.pc i) != some v)
  | .join v => !s.gone v && T.all (fun i => destroys (s.pc i) != some v)
  | .destroy v => !s.gone v &&
      T.all (fun i => starts (s.pc i) != some v && stops (s.pc i) != some v && joins (s.pc i) != some v)
  | .shutdown => T.all (fun i => starts (s.pc i) == none)
  | _ => true

theorem careful_of {T : List Nat} {s : St} {t : Nat} {a : Act} (hT : ∀ i, i ∉ T → s.pc i = .idle)
    (h : carefulAt T s a = true) : Careful s t a := by
  have hall : ∀ (p : Pc → Bool), p .idle = true → T.all (fun i => p (s.pc i)) = true → ∀ i, p (s.pc i) = true := by
    intro p h0 h1 i
    by_cases hi : i ∈ T
    · exact (List.all_eq_true.1 h1) i hi
    · rw [hT i hi]; exact h0
  cases a with
  | start v =>
    simp only [carefulAt, Bool.and_eq_true, Bool.not_eq_true', decide_eq_true_eq] at h
    have := hall (fun p => starts p != some v && stops p != some v && !shuts p) rfl h.1.2
    simp only [Bool.and_eq_true, bne_iff_ne, Bool.not_eq_true'] at this
    exact ⟨h.1.1, fun i => (this i).1, fun i => (this i).2, h.2⟩
  | stop v =>
    simp only [carefulAt, Bool.and_eq_true, Bool.not_eq_true'] at h
    have := hall (fun p => starts p != some v && stops p != some v) rfl h.2
    simp only [Bool.and_eq_true, bne_iff_ne] at this
    exact ⟨h.1, this⟩
  | join v =>
    simp only [carefulAt, Bool.and_eq_true, Bool.not_eq_true'] at h
    have := hall (fun p => destroys p != some v) rfl h.2
    simp only [bne_iff_ne] at this
    exact ⟨h.1, this⟩
  | destroy v =>
    simp only [carefulAt, Bool.and_eq_true, Bool.not_eq_true'] at h
    have := hall (fun p => starts p != some v && stops p != some v && joins p != some v) rfl h.2
    simp only [Bool.and_eq_true, bne_iff_ne] at this
    exact ⟨h.1, fun i => (this i).1, fun i => (this i).2⟩
  | shutdown =>
    have := hall (fun p => starts p == none) rfl h
    simpa [Careful] using this
  | _ => trivial

/-- A schedule whose steps are all careful. -/
def carefulRun (W T : List Nat) (s : St) : List (Nat × Act) → Option St
  | [] => some s
  | (t, a) :: rest =>
    if carefulAt T s a && T.contains t then
      match s.step W t a with
      | none => none
      | some s' => carefulRun W T s' rest
    else none

theorem reach_careful {W T : List Nat} (as : List (Nat × Act)) : ∀ {s s' : St}, Reach W Careful s →
    (∀ i, i ∉ T → s.pc i = .idle) → carefulRun W T s as = some s' → Reach W Careful s' ∧ ∀ i, i ∉ T → s'.pc i = .idle := by
  induction as with
  | nil => intro s s' hr hT h; simp only [carefulRun, Option.some.injEq] at h; subst h; exact ⟨hr, hT⟩
  | cons x as ih =>
    intro s s' hr hT h
    obtain ⟨t, a⟩ := x
    simp only [carefulRun] at h
    split at h
    · rename_i hc
      simp only [Bool.and_eq_true, List.contains_iff_mem] at hc
      split at h
      · cases h
      · rename_i s1 hs
        refine ih (hr.step (careful_of hT hc.1) hs) ?_ h
        intro i hi
        exact idle_step (by rintro rfl; exact hi hc.2) (hT i hi) hs
    · cases h

/-- A state reached by a careful schedule, known by what it shows. -/
theorem careful_state {W T : List Nat} {as : List (Nat × Act)} {α : Type} {f : St → α} {x : α}
    (h : (carefulRun W T {} as).map f = some x) : ∃ s, Reach W Careful s ∧ (∀ i, i ∉ T → s.pc i = .idle) ∧ f s = x := by
  obtain ⟨s, hs, he⟩ := Option.map_eq_some_iff.1 h
  obtain ⟨h1, h2⟩ := reach_careful as .init (fun _ _ => rfl) hs
  exact ⟨s, h1, h2, he⟩

theorem idle_run {W : List Nat} {i : Nat} (as : List (Nat × Act)) : ∀ {s s' : St}, s.pc i = .idle →
    i ∉ as.map Prod.fst → s.run W as = some s' → s'.pc i = .idle := by
  induction as with
  | nil => intro s s' h0 _ h; simp only [St.run, Option.some.injEq] at h; subst h; exact h0
  | cons x as ih =>
    intro s s' h0 hi h
    obtain ⟨t, a⟩ := x
    simp only [St.run] at h
    split at h
    · cases h
    · simp only [List.map_cons, List.mem_cons, not_or] at hi
      exact ih (idle_step hi.1 h0 (by assumption)) hi.2 h

/-- A state reached by a schedule, known by what it shows. -/
theorem any_state {W : List Nat} {as : List (Nat × Act)} {α : Type} {f : St → α} {x : α}
    (h : (({} : St).run W as).map f = some x) : ∃ s, Reach W Any s ∧ (∀ i, i ∉ as.map Prod.fst → s.pc i = .idle) ∧ f s = x := by
  obtain ⟨s, hs, he⟩ := Option.map_eq_some_iff.1 h
  exact ⟨s, reach_run .init (fun _ _ _ _ => trivial) hs, fun i hi => idle_run as rfl hi hs, he⟩

end Verif.ServerLife
