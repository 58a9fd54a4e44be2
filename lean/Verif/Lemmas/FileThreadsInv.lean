import Verif.Lemmas.FileThreads
/-
The invariants hold in each run.
-/
namespace Verif.FileThreads
open Verif.Spec.FileThreads

theorem set_self (s : St) (i : Nat) (r : Shared × Call) : (s.set i r).calls i = some r.2 := by simp [St.set]

theorem set_other (s : St) {i k : Nat} (h : k ≠ i) (r : Shared × Call) : (s.set i r).calls k = s.calls k := by
  simp [St.set, h]

theorem set_sh (s : St) (i : Nat) (r : Shared × Call) : (s.set i r).sh = r.1 := rfl

theorem inv1_eff {s : St} {i : Nat} {c c' : Call} {sh' : Shared} (hi : Inv1 s) (hc : s.calls i = some c)
    (h : Eff i s.sh c sh' c') : Inv1 (s.set i (sh', c')) := by
  obtain ⟨h1, h2, h3, h4, h5, h6, h7⟩ := hi
  obtain ⟨e1, _, _, e2, e3, e4, e5, e6, e7, e8, e9, e10, e11⟩ := h
  constructor
  · rw [set_sh, e1]; exact h1
  · intro k d hk hp
    by_cases hki : k = i
    · subst hki; rw [set_self] at hk; cases hk
      exact ⟨e2.1 hp, e5 hp⟩
    · rw [set_other s hki] at hk
      obtain ⟨hl, he⟩ := h2 k d hk hp
      rw [set_sh, e4 k hki hl]
      exact ⟨(e3 k hki).2 hl, he⟩
  · intro k hl
    by_cases hki : k = i
    · subst hki; exact ⟨c', set_self .., e2.2 hl⟩
    · rw [set_other s hki]; exact h3 k ((e3 k hki).1 hl)
  · intro e' b he hb
    show b < sh'.heap.length
    rcases e7 e' b he hb with ⟨e, h, h'⟩ | ⟨_, h, _⟩ | ⟨_, h, _⟩
    · exact Nat.lt_of_lt_of_le (h4 e b h h') e6
    · exact Nat.lt_of_lt_of_le (h5 i c b hc h) e6
    · exact h
  · intro k d b hk hb
    show b < sh'.heap.length
    by_cases hki : k = i
    · subst hki; rw [set_self] at hk; cases hk
      rcases e8 b hb with h | ⟨e, h, h', _⟩ | ⟨_, h, _⟩
      · exact Nat.lt_of_lt_of_le (h5 k c b hc h) e6
      · exact Nat.lt_of_lt_of_le (h4 e b h h') e6
      · exact h
    · rw [set_other s hki] at hk
      exact Nat.lt_of_lt_of_le (h5 k d b hk hb) e6
  · intro k d hk hp
    by_cases hki : k = i
    · subst hki; rw [set_self] at hk; cases hk
      obtain ⟨hb, hen⟩ := e9 hp
      refine ⟨_, hb, ?_, ?_⟩
      · intro e he hx
        exact Nat.lt_irrefl _ (h4 e _ (hen ▸ he) hx)
      · intro k' d' hkk hd hx
        rw [set_other s hkk] at hd
        exact Nat.lt_irrefl _ (h5 k' d' _ hd hx)
    · rw [set_other s hki] at hk
      obtain ⟨b, hb, he, ho⟩ := h6 k d hk hp
      refine ⟨b, hb, ?_, ?_⟩
      · intro e' he' hx
        rcases e7 e' b he' hx with ⟨e, h, h'⟩ | ⟨_, h, _⟩ | ⟨h, _⟩
        · exact he e h h'
        · exact ho i c (Ne.symm hki) hc h
        · exact absurd (h5 k d b hk hb) (by omega)
      · intro k' d' hkk hd hx
        by_cases hk' : k' = i
        · subst hk'; rw [set_self] at hd; cases hd
          rcases e8 b hx with h | ⟨e, h, h', _⟩ | ⟨h, _⟩
          · exact ho k' c hkk hc h
          · exact he e h h'
          · exact absurd (h5 k d b hk hb) (by omega)
        · rw [set_other s hk'] at hd
          exact ho k' d' hkk hd hx
  · intro k d hk hp
    by_cases hki : k = i
    · subst hki; rw [set_self] at hk; cases hk
      obtain ⟨hf, e', he, hb⟩ := e10 hp
      refine ⟨e', _, he, hb, ?_⟩
      intro k' d' hd hx
      by_cases hk' : k' = k
      · subst hk'; rw [set_self] at hd; cases hd
        exact Nat.lt_irrefl _ (h5 k' c _ hc (hf ▸ hx))
      · rw [set_other s hk'] at hd
        exact Nat.lt_irrefl _ (h5 k' d' _ hd hx)
    · rw [set_other s hki] at hk
      obtain ⟨e, b, he, hb, ho⟩ := h7 k d hk hp
      have hl := (h2 k d hk (fillsEntry_holds hp)).1
      refine ⟨e, b, (e4 k hki hl).trans he, hb, ?_⟩
      intro k' d' hd hx
      by_cases hk' : k' = i
      · subst hk'; rw [set_self] at hd; cases hd
        rcases e8 b hx with h | ⟨_, _, _, h, _⟩ | ⟨h, _⟩
        · exact ho k' c hc h
        · rw [hl] at h; exact hki (by simpa using h)
        · exact absurd (h4 e b he hb) (by omega)
      · rw [set_other s hk'] at hd
        exact ho k' d' hd hx

theorem inv1_steps {cfg : Cfg} {s s' : St} {x : Act} (hi : Inv1 s) (h : Steps cfg s x s') : Inv1 s' := by
  cases h with
  | @call i req hn =>
    obtain ⟨h1, h2, h3, h4, h5, h6, h7⟩ := hi
    constructor
    · exact h1
    all_goals simp only [St.set]; grind [holds, fillsOwn, fillsEntry]
  | own hc ho => exact inv1_eff hi hc (eff_own hi hc ho)
  | fail hc hp => exact inv1_eff hi hc (eff_throw hi hc (.inr (.inr hp)))
  | change =>
    obtain ⟨h1, h2, h3, h4, h5, h6, h7⟩ := hi
    exact ⟨by simp, h2, h3, h4, h5, h6, h7⟩
  | clear hl =>
    obtain ⟨h1, h2, h3, h4, h5, h6, h7⟩ := hi
    constructor
    · exact h1
    all_goals simp only; grind [holds, fillsOwn, fillsEntry, fillsEntry_holds]

theorem inv1_start (cfg : Cfg) (v : Option Version) : Inv1 { sh := scanned cfg v } := by
  unfold scanned
  split
  · exact ⟨by simp, fun _ _ h => by simp at h, fun _ h => by simp at h, fun _ _ h => by simp at h,
      fun _ _ _ h => by simp at h, fun _ _ h => by simp at h, fun _ _ h => by simp at h⟩
  · (repeat' split) <;>
    exact ⟨by simp, fun _ _ h => by simp at h, fun _ h => by simp at h,
      fun e b h hb => by cases h <;> simp_all,
      fun _ _ _ h => by simp at h, fun _ _ h => by simp at h, fun _ _ h => by simp at h⟩

theorem inv1_run {cfg : Cfg} {v : Option Version} {tr : List Act} {s : St} (h : run cfg v tr = some s) : Inv1 s :=
  run_induct (P := fun _ s => Inv1 s) (inv1_start cfg v)
    (fun _ _ _ _ _ hi hs => inv1_steps hi (steps_of (fun i c hc hp => (hi.lockOf i c hc hp).2) hs)) h

/-- The steps of a run. -/
theorem run_steps {cfg : Cfg} {v : Option Version} {tr : List Act} {s s' : St} {x : Act} (h : run cfg v tr = some s)
    (hs : s.step (started cfg) x = some s') : Steps (started cfg) s x s' :=
  steps_of (fun i c hc hp => ((inv1_run h).lockOf i c hc hp).2) hs

end Verif.FileThreads
