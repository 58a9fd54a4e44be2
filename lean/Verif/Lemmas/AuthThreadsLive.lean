import Verif.Lemmas.AuthThreadsWhy
namespace Verif.AuthThreads
open SMap Auth Server Users Spec.Paths Spec.Dispatch Spec.Auth Spec.AuthThreads
/-
Sessions stay; calls end.
-/

theorem snoc_eq_mid {tr a b : List Act} {x y : Act} (h : tr ++ [x] = a ++ y :: b) (hne : x ≠ y) :
    ∃ b', b = b' ++ [x] ∧ tr = a ++ y :: b' := by
  induction b using List.reverseRecOn with
  | nil =>
    have := List.append_inj' h rfl
    exact absurd (List.cons.inj this.2).1 hne
  | append_singleton b z _ =>
    have h' : tr ++ [x] = (a ++ y :: b) ++ [z] := by rw [h]; simp
    obtain ⟨h1, h2⟩ := List.append_inj' h' rfl
    cases h2
    exact ⟨b, rfl, h1⟩

theorem elapsed_le (a b : List Act) : elapsed a ≤ elapsed (a ++ b) := by rw [elapsed_append]; omega

/-! ### Readings of the clock -/

def Pc.now : Pc → Option Nat
  | .cleanup n | .expire n | .lookup n | .getUser n .. | .store n .. | .insert n _ => some n
  | _ => none

theorem first_now (cfg : Cfg) (req : Msg) : (first cfg req).now = none := by
  unfold first
  split
  · rfl
  · dsimp only
    split
    · rfl
    · split
      · rfl
      · split <;> rfl

theorem expired_now (cfg : Cfg) (req : Msg) (t n : Nat) (h : (expired cfg req t).now = some n) : n = t := by
  unfold expired at h
  split at h
  · split at h
    · cases h
    · cases h; rfl
  · split at h
    · cases h
    · cases h; rfl

theorem own_now {cfg : Cfg} {i : Nat} {sh : Shared} {req : Msg} {pc : Pc} {sh' : Shared} {pc' : Pc} {n : Nat}
    (h : own cfg i sh req pc = some (sh', pc')) (hn : pc'.now = some n) : pc.now = some n ∨ n = sh.clock := by
  cases pc with
  | empty =>
    simp only [own, Option.some.injEq, Prod.mk.injEq] at h; obtain ⟨rfl, rfl⟩ := h
    split at hn <;> cases hn
  | lists =>
    simp only [own, Option.some.injEq, Prod.mk.injEq] at h; obtain ⟨rfl, rfl⟩ := h
    unfold needed at hn
    split at hn
    · split at hn
      · cases hn
      · split at hn <;> cases hn
    · cases hn
  | clock =>
    simp only [own, Option.some.injEq, Prod.mk.injEq] at h; obtain ⟨rfl, rfl⟩ := h
    cases hn; exact .inr rfl
  | cleanup t =>
    simp only [own, Option.some.injEq, Prod.mk.injEq] at h; obtain ⟨rfl, rfl⟩ := h
    split at hn
    · exact .inl hn
    · cases expired_now _ _ _ _ hn; exact .inl rfl
  | expire t =>
    simp only [own] at h
    split at h
    · cases h
    · simp only [Option.some.injEq, Prod.mk.injEq] at h; obtain ⟨rfl, rfl⟩ := h
      cases expired_now _ _ _ _ hn; exact .inl rfl
  | lookup t =>
    simp only [own] at h
    split at h
    · cases h
    · simp only [Option.some.injEq] at h
      unfold lookUp at h
      split at h
      · split at h
        · cases h; cases hn
        · split at h
          · cases h; cases hn
          · split at h
            · cases h; cases hn
            · cases h; exact .inl hn
      · dsimp only at h
        split at h
        · cases h; cases hn
        · cases h; cases hn
  | getUser now cred name pw =>
    simp only [own] at h
    split at h
    · simp only [Option.some.injEq, Prod.mk.injEq] at h; obtain ⟨rfl, rfl⟩ := h; cases hn
    · simp only [Option.some.injEq, Prod.mk.injEq] at h; obtain ⟨rfl, rfl⟩ := h; exact .inl hn
  | store now cred name =>
    simp only [own, Option.some.injEq, Prod.mk.injEq] at h; obtain ⟨rfl, rfl⟩ := h; cases hn
  | login =>
    simp only [own] at h
    split at h <;>
    · simp only [Option.some.injEq, Prod.mk.injEq] at h; obtain ⟨rfl, rfl⟩ := h; cases hn
  | draw acc => simp only [own, Option.some.injEq, Prod.mk.injEq] at h; obtain ⟨rfl, rfl⟩ := h; cases hn
  | drawn acc pos =>
    simp only [own, Option.some.injEq, Prod.mk.injEq] at h; obtain ⟨rfl, rfl⟩ := h
    split at hn <;> cases hn
  | loginClock c =>
    simp only [own, Option.some.injEq, Prod.mk.injEq] at h; obtain ⟨rfl, rfl⟩ := h
    cases hn; exact .inr rfl
  | insert now c =>
    simp only [own] at h
    split at h
    · cases h
    · simp only [Option.some.injEq, Prod.mk.injEq] at h; obtain ⟨rfl, rfl⟩ := h; cases hn
  | logout =>
    simp only [own] at h
    split at h
    · cases h
    · simp only [Option.some.injEq, Prod.mk.injEq] at h; obtain ⟨rfl, rfl⟩ := h; cases hn
  | done v => cases h
  | returned v => cases h

/-- The clock readings of a call are later than its beginning and not in the future. -/
def Timed (t0 : Nat) (tr : List Act) (s : TSt) : Prop :=
  ∀ i req pc n, s.calls i = some (req, pc) → pc.now = some n →
    n ≤ t0 + elapsed tr ∧ ∀ a b, tr = a ++ .call i req :: b → t0 + elapsed a ≤ n

theorem timed {cfg : Cfg} {t0 : Nat} {tr : List Act} {s : TSt} (h : run cfg t0 tr = some s) : Timed t0 tr s := by
  refine run_induct (P := Timed t0) nofun ?_ h
  clear h tr s
  intro tr s x s' hr ht hx i req pc n hi hn
  have hb := base hr
  have old : s.calls i = some (req, pc) → (∀ r, x ≠ .call i r) →
      n ≤ t0 + elapsed (tr ++ [x]) ∧ ∀ a b, tr ++ [x] = a ++ .call i req :: b → t0 + elapsed a ≤ n := by
    intro hc hx
    obtain ⟨h1, h2⟩ := ht i req pc n hc hn
    refine ⟨by have := elapsed_le tr [x]; omega, fun a b hab => ?_⟩
    obtain ⟨b', _, h⟩ := snoc_eq_mid hab (hx req)
    exact h2 a b' h
  cases steps_of hx with
  | call hc =>
    rename_i k req'
    by_cases hik : i = k
    · subst hik; rw [set_self] at hi; cases hi; rw [first_now] at hn; cases hn
    · rw [set_other _ _ _ hik] at hi
      exact old hi fun r h => by cases h; exact hik rfl
  | step hc ho =>
    rename_i k req' pc0 sh pc'
    by_cases hik : i = k
    · subst hik; rw [set_self] at hi; cases hi
      rcases own_now ho hn with h | h
      · obtain ⟨h1, h2⟩ := ht i req pc0 n hc h
        refine ⟨by have := elapsed_le tr [.step i]; omega, fun a b hab => ?_⟩
        obtain ⟨b', _, h⟩ := snoc_eq_mid hab nofun
        exact h2 a b' h
      · have e : elapsed (tr ++ [.step i]) = elapsed tr := by rw [elapsed_append]; simp [elapsed]
        rw [h, hb.clock]
        refine ⟨by omega, fun a b hab => ?_⟩
        have := elapsed_le a (.call i req :: b)
        rw [← hab, e] at this
        omega
    · rw [set_other _ _ _ hik] at hi
      exact old hi nofun
  | ret hc =>
    rename_i k req' v
    by_cases hik : i = k
    · subst hik; rw [set_self] at hi; cases hi; cases hn
    · rw [set_other _ _ _ hik] at hi
      exact old hi nofun
  | users => exact old hi nofun
  | restrict => exact old hi nofun
  | permit => exact old hi nofun
  | tick => exact old hi nofun

/-! ### Sessions stay -/

/-- Where the entries of the cache of a `cookie_auth` come from. -/
theorem own_stamp {cfg : Cfg} {o : Opts} (hk : cfg.kind = .cookie o) {i : Nat} {sh : Shared} {req : Msg} {pc : Pc}
    {sh' : Shared} {pc' : Pc} (h : own cfg i sh req pc = some (sh', pc')) (hs : Sorted sh.auth.cache)
    (hnb : pc.holds = false) :
    ∀ x ∈ sh'.auth.cache, x ∈ sh.auth.cache ∨ (pc = .lookup x.2.1 ∧ x.1 = sessionCookie cfg.env req) ∨
      (pc = .insert x.2.1 x.1 ∧ pc' = .done (.loggedIn x.1)) := by
  intro x hx
  cases pc with
  | lookup now =>
    simp only [own] at h
    split at h
    · cases h
    · simp only [Option.some.injEq] at h
      unfold lookUp at h
      rw [hk] at h
      dsimp only at h
      split at h
      · cases h
        rcases mem_assign hx with rfl | hx
        · exact .inr (.inl ⟨rfl, rfl⟩)
        · exact .inl hx
      · cases h; exact .inl hx
  | insert now c =>
    simp only [own] at h
    split at h
    · cases h
    · simp only [Option.some.injEq, Prod.mk.injEq] at h; obtain ⟨rfl, rfl⟩ := h
      rcases mem_insert hs hx with rfl | hx
      · exact .inr (.inr ⟨rfl, rfl⟩)
      · exact .inl hx
  | expire now =>
    simp only [own] at h
    split at h
    · cases h
    · simp only [Option.some.injEq, Prod.mk.injEq] at h; obtain ⟨rfl, rfl⟩ := h
      exact .inl (List.mem_filter.1 hx).1
  | logout =>
    simp only [own] at h
    split at h
    · cases h
    · simp only [Option.some.injEq, Prod.mk.injEq] at h; obtain ⟨rfl, rfl⟩ := h
      exact .inl (List.mem_filter.1 hx).1
  | login =>
    simp only [own] at h
    split at h <;>
    · simp only [Option.some.injEq, Prod.mk.injEq] at h; obtain ⟨rfl, rfl⟩ := h; exact .inl hx
  | empty => simp only [own, Option.some.injEq, Prod.mk.injEq] at h; obtain ⟨rfl, rfl⟩ := h; exact .inl hx
  | lists => simp only [own, Option.some.injEq, Prod.mk.injEq] at h; obtain ⟨rfl, rfl⟩ := h; exact .inl hx
  | clock => simp only [own, Option.some.injEq, Prod.mk.injEq] at h; obtain ⟨rfl, rfl⟩ := h; exact .inl hx
  | cleanup => simp only [own, Option.some.injEq, Prod.mk.injEq] at h; obtain ⟨rfl, rfl⟩ := h; exact .inl hx
  | draw => simp only [own, Option.some.injEq, Prod.mk.injEq] at h; obtain ⟨rfl, rfl⟩ := h; exact .inl hx
  | drawn => simp only [own, Option.some.injEq, Prod.mk.injEq] at h; obtain ⟨rfl, rfl⟩ := h; exact .inl hx
  | loginClock => simp only [own, Option.some.injEq, Prod.mk.injEq] at h; obtain ⟨rfl, rfl⟩ := h; exact .inl hx
  | getUser => cases hnb
  | store => cases hnb
  | done => cases h
  | returned => cases h

/-- A session is removed only by a logout or by the expiry pass. -/
theorem own_kept {cfg : Cfg} {i : Nat} {sh : Shared} {req : Msg} {pc : Pc} {sh' : Shared} {pc' : Pc}
    (h : own cfg i sh req pc = some (sh', pc')) (hs : Sorted sh.auth.cache) {c : Bytes} {t : Nat} {nm : Bytes}
    (hc : (c, (t, nm)) ∈ sh.auth.cache) (hlo : pc = .logout → sessionCookie cfg.env req ≠ c)
    (hex : ∀ now, pc = .expire now → now ≤ t + cfg.limit) : ∃ t' nm', (c, (t', nm')) ∈ sh'.auth.cache := by
  have hl := (lookup_eq_some hs).2 hc
  have assigned : ∀ (k : Bytes) (v : Nat × Bytes), ∃ t' nm', (c, (t', nm')) ∈ sh.auth.cache.assign k v := by
    intro k v
    have := lookup_assign (m := sh.auth.cache) k c v
    by_cases hck : c = k
    · subst hck
      rw [if_pos rfl, hl] at this
      exact ⟨v.1, v.2, (lookup_eq_some (sorted_assign hs _ _)).1 this⟩
    · rw [if_neg hck, hl] at this
      exact ⟨_, _, (lookup_eq_some (sorted_assign hs _ _)).1 this⟩
  have inserted : ∀ (k : Bytes) (v : Nat × Bytes), ∃ t' nm', (c, (t', nm')) ∈ sh.auth.cache.insert k v := by
    intro k v
    have := lookup_insert hs k c v
    by_cases hck : c = k
    · subst hck
      rw [if_pos rfl, hl] at this
      exact ⟨_, _, (lookup_eq_some (sorted_insert hs _ _)).1 this⟩
    · rw [if_neg hck, hl] at this
      exact ⟨_, _, (lookup_eq_some (sorted_insert hs _ _)).1 this⟩
  cases pc with
  | lookup now =>
    simp only [own] at h
    split at h
    · cases h
    · simp only [Option.some.injEq] at h
      unfold lookUp at h
      split at h
      · split at h
        · cases h; exact ⟨_, _, hc⟩
        · split at h
          · cases h; exact assigned _ _
          · split at h
            · cases h; exact ⟨_, _, hc⟩
            · cases h; exact ⟨_, _, hc⟩
      · dsimp only at h
        split at h
        · cases h; exact assigned _ _
        · cases h; exact ⟨_, _, hc⟩
  | insert now c =>
    simp only [own] at h
    split at h
    · cases h
    · simp only [Option.some.injEq, Prod.mk.injEq] at h; obtain ⟨rfl, rfl⟩ := h
      exact inserted _ _
  | expire now =>
    simp only [own] at h
    split at h
    · cases h
    · simp only [Option.some.injEq, Prod.mk.injEq] at h; obtain ⟨rfl, rfl⟩ := h
      refine ⟨t, nm, List.mem_filter.2 ⟨hc, ?_⟩⟩
      have := hex now rfl
      simp; omega
  | logout =>
    simp only [own] at h
    split at h
    · cases h
    · simp only [Option.some.injEq, Prod.mk.injEq] at h; obtain ⟨rfl, rfl⟩ := h
      have := lookup_erase (m := sh.auth.cache) (sessionCookie cfg.env req) c
      rw [if_neg (hlo rfl).symm, hl] at this
      exact ⟨_, _, (lookup_eq_some (sorted_erase hs _)).1 this⟩
  | login =>
    simp only [own] at h
    split at h <;>
    · simp only [Option.some.injEq, Prod.mk.injEq] at h; obtain ⟨rfl, rfl⟩ := h; exact ⟨_, _, hc⟩
  | getUser =>
    simp only [own] at h
    split at h <;>
    · simp only [Option.some.injEq, Prod.mk.injEq] at h; obtain ⟨rfl, rfl⟩ := h; exact ⟨_, _, hc⟩
  | store =>
    simp only [own, Option.some.injEq, Prod.mk.injEq] at h; obtain ⟨rfl, rfl⟩ := h; exact inserted _ _
  | empty => simp only [own, Option.some.injEq, Prod.mk.injEq] at h; obtain ⟨rfl, rfl⟩ := h; exact ⟨_, _, hc⟩
  | lists => simp only [own, Option.some.injEq, Prod.mk.injEq] at h; obtain ⟨rfl, rfl⟩ := h; exact ⟨_, _, hc⟩
  | clock => simp only [own, Option.some.injEq, Prod.mk.injEq] at h; obtain ⟨rfl, rfl⟩ := h; exact ⟨_, _, hc⟩
  | cleanup => simp only [own, Option.some.injEq, Prod.mk.injEq] at h; obtain ⟨rfl, rfl⟩ := h; exact ⟨_, _, hc⟩
  | draw => simp only [own, Option.some.injEq, Prod.mk.injEq] at h; obtain ⟨rfl, rfl⟩ := h; exact ⟨_, _, hc⟩
  | drawn => simp only [own, Option.some.injEq, Prod.mk.injEq] at h; obtain ⟨rfl, rfl⟩ := h; exact ⟨_, _, hc⟩
  | loginClock => simp only [own, Option.some.injEq, Prod.mk.injEq] at h; obtain ⟨rfl, rfl⟩ := h; exact ⟨_, _, hc⟩
  | done => cases h
  | returned => cases h

/-- A step that decides a login to be answered with a cookie enters the cookie. -/
theorem own_entered {cfg : Cfg} {i : Nat} {sh : Shared} {req : Msg} {pc : Pc} {sh' : Shared} {c : Bytes}
    (h : own cfg i sh req pc = some (sh', .done (.loggedIn c))) (hs : Sorted sh.auth.cache) :
    ∃ t' nm', (c, (t', nm')) ∈ sh'.auth.cache := by
  have hr : ∀ o, cookieRefuse o ≠ .loggedIn c := by intro o; unfold cookieRefuse; split <;> nofun
  cases pc with
  | lookup now =>
    simp only [own] at h
    split at h
    · cases h
    · simp only [Option.some.injEq] at h
      unfold lookUp at h
      split at h
      · split at h
        · cases h
        · split at h
          · cases h
          · split at h <;> cases h
      · dsimp only at h
        split at h
        · cases h
        · simp only [Prod.mk.injEq, Pc.done.injEq] at h; exact absurd h.2 (hr _)
  | insert now c' =>
    simp only [own] at h
    split at h
    · cases h
    · simp only [Option.some.injEq, Prod.mk.injEq, Pc.done.injEq, Verdict.loggedIn.injEq] at h; obtain ⟨rfl, rfl⟩ := h
      have := lookup_insert hs c' c' (now, req.queries.get cfg.env.ord (b! "user"))
      rw [if_pos rfl] at this
      cases hl : sh.auth.cache.lookup c' with
      | none =>
        rw [hl] at this
        exact ⟨_, _, (lookup_eq_some (sorted_insert hs _ _)).1 this⟩
      | some v =>
        rw [hl] at this
        exact ⟨_, _, (lookup_eq_some (sorted_insert hs _ _)).1 this⟩
  | cleanup t =>
    simp only [own, Option.some.injEq, Prod.mk.injEq] at h
    obtain ⟨_, h⟩ := h
    split at h
    · cases h
    · unfold expired at h
      split at h
      · split at h <;> cases h
      · split at h
        · simp only [Pc.done.injEq] at h; exact absurd h (hr _)
        · cases h
  | expire now =>
    simp only [own] at h
    split at h
    · cases h
    · simp only [Option.some.injEq, Prod.mk.injEq] at h
      obtain ⟨_, h⟩ := h
      unfold expired at h
      split at h
      · split at h <;> cases h
      · split at h
        · simp only [Pc.done.injEq] at h; exact absurd h (hr _)
        · cases h
  | lists =>
    simp only [own, Option.some.injEq, Prod.mk.injEq] at h
    obtain ⟨_, h⟩ := h
    split at h
    · unfold needed at h
      split at h
      · cases h
      · split at h <;> cases h
    · cases h
  | empty =>
    simp only [own, Option.some.injEq, Prod.mk.injEq] at h
    obtain ⟨_, h⟩ := h
    split at h <;> cases h
  | login =>
    simp only [own] at h
    split at h
    · simp only [Option.some.injEq, Prod.mk.injEq, Pc.done.injEq] at h
      obtain ⟨_, h⟩ := h
      unfold refusal at h
      split at h
      · cases h
      · exact absurd h (hr _)
    · cases h
  | getUser =>
    simp only [own] at h
    split at h <;> cases h
  | store => cases h
  | clock => cases h
  | draw => cases h
  | drawn =>
    simp only [own, Option.some.injEq, Prod.mk.injEq] at h
    obtain ⟨_, h⟩ := h
    split at h <;> cases h
  | loginClock => cases h
  | logout =>
    simp only [own] at h
    split at h <;> cases h
  | done => cases h
  | returned => cases h

/-- The session that login `j` was given, while nobody logs it out and it has not expired. -/
theorem session_kept {cfg : Cfg} {o : Opts} (hk : cfg.kind = .cookie o) {t0 : Nat} {a : List Act} {j : Nat} {lreq : Msg}
    {c : Bytes} (hguess : ∀ k kreq, .call k kreq ∈ a → sessionCookie cfg.env kreq ≠ c) (b : List Act) :
    ∀ s, run cfg t0 (a ++ .call j lreq :: b) = some s →
      (∀ k kreq, .call k kreq ∈ a ++ .call j lreq :: b → ¬LogsOut cfg.env o kreq c) →
      elapsed (a ++ .call j lreq :: b) ≤ elapsed a + 3600 →
      (∀ j', verdict s j' = some (.loggedIn c) → j' = j) →
      (verdict s j = some (.loggedIn c) → ∃ t nm, (c, (t, nm)) ∈ s.sh.auth.cache) ∧
      ∀ t nm, (c, (t, nm)) ∈ s.sh.auth.cache → t0 + elapsed a ≤ t := by
  induction b using List.reverseRecOn with
  | nil =>
    intro s hr _ _ huniq
    obtain ⟨s0, h0, h1⟩ := (run_snoc ..).1 hr
    cases steps_of h1 with
    | call hc =>
      have hv : verdict (s0.set j (lreq, first cfg lreq) s0.sh) j ≠ some (.loggedIn c) := by
        intro hv
        rw [verdict_eq (set_self ..)] at hv
        rcases hv with hv | hv
        · unfold first at hv
          rw [hk] at hv
          dsimp only at hv
          split at hv
          · cases hv
          · split at hv
            · cases hv
            · split at hv <;> cases hv
        · exact (first_holds cfg lreq).2 _ hv
      refine ⟨fun h => absurd h hv, fun t nm hx => ?_⟩
      have hE := (all hr).cache _ hx
      unfold Entry at hE
      rw [hk] at hE
      obtain ⟨j', _, _, _, _, _, _, _, h5, _⟩ := hE
      rw [huniq j' h5] at h5
      exact absurd h5 hv
  | append_singleton b x ih =>
    intro s' hr hlo hel huniq
    have hassoc : a ++ .call j lreq :: (b ++ [x]) = (a ++ .call j lreq :: b) ++ [x] := by simp
    rw [hassoc] at hr hlo hel
    obtain ⟨s, h0, h1⟩ := (run_snoc ..).1 hr
    have st := steps_of h1
    have he := ext_step st
    have hel' : elapsed (a ++ .call j lreq :: b) ≤ elapsed a + 3600 := by
      have := elapsed_le (a ++ .call j lreq :: b) [x]; omega
    obtain ⟨i1, i2⟩ := ih s h0 (fun k kreq h => hlo k kreq (List.mem_append_left _ h)) hel'
      (fun j' h => huniq j' (he _ _ h))
    have hb := base h0
    have ht := timed h0
    have ha := all h0
    have same : s'.sh.auth.cache = s.sh.auth.cache → (verdict s' j = some (.loggedIn c) → verdict s j = some (.loggedIn c)) →
        (verdict s' j = some (.loggedIn c) → ∃ t nm, (c, (t, nm)) ∈ s'.sh.auth.cache) ∧
        ∀ t nm, (c, (t, nm)) ∈ s'.sh.auth.cache → t0 + elapsed a ≤ t := by
      intro h h'
      rw [h]
      exact ⟨fun hv => i1 (h' hv), i2⟩
    cases st with
    | call hc =>
      rename_i k req
      refine same rfl fun hv => ?_
      have hjk : j ≠ k := by
        rintro rfl
        exact (hb.uncalled j hc).1 ⟨lreq, by simp⟩
      unfold verdict at hv ⊢
      rwa [set_other _ _ _ hjk] at hv
    | ret hc =>
      rename_i k req v
      refine same rfl fun hv => ?_
      by_cases hjk : j = k
      · subst hjk
        rw [verdict_eq (set_self ..)] at hv
        rcases hv with hv | hv
        · cases hv
        · cases hv; exact (verdict_eq hc _).2 (.inl rfl)
      · unfold verdict at hv ⊢
        rwa [set_other _ _ _ hjk] at hv
    | users => exact same rfl id
    | restrict => exact same rfl id
    | permit => exact same rfl id
    | tick => exact same rfl id
    | step hc ho =>
      rename_i k req pc sh pc'
      have hcall := ((hb.called k _ _ hc).1 req).2 rfl
      have hnb : pc.holds = false := by
        have hf := ha.facts k _ _ hc
        cases pc with
        | getUser => have := hf.1; rw [hk] at this; cases this
        | store => have := hf.1; rw [hk] at this; cases this
        | _ => rfl
      have hf := ha.facts k _ _ hc
      constructor
      · intro hv
        have kept : verdict s j = some (.loggedIn c) → ∃ t nm, (c, (t, nm)) ∈ sh.auth.cache := by
          intro h
          obtain ⟨t, nm, hm⟩ := i1 h
          refine own_kept ho hb.sorted hm ?_ ?_
          · rintro rfl hcc
            obtain ⟨o', hk', h'⟩ := hf
            rw [hk] at hk'; cases hk'
            exact hlo k req (List.mem_append_left _ hcall) (hcc ▸ h')
          · rintro now rfl
            have h3 := (ht k req _ now hc rfl).1
            have h4 := i2 t nm hm
            have : cfg.limit = 3600 := by unfold Cfg.limit; rw [hk]; rfl
            omega
        by_cases hjk : j = k
        · subst hjk
          rw [verdict_eq (set_self ..)] at hv
          rcases hv with rfl | rfl
          · exact own_entered ho hb.sorted
          · exact absurd rfl ((own_keeps ho).2.2.2.2.1 _)
        · apply kept
          unfold verdict at hv ⊢
          rwa [set_other _ _ _ hjk] at hv
      · intro t nm hm
        rcases own_stamp hk ho hb.sorted hnb _ hm with h | ⟨hp, hcc⟩ | ⟨hp, hp'⟩
        · exact i2 t nm h
        · subst hp
          have hmem : .call k req ∈ a ++ .call j lreq :: b := hcall
          rcases List.mem_append.1 hmem with h | h
          · exact absurd hcc.symm (hguess k req h)
          · obtain ⟨u, v, huv⟩ := List.append_of_mem h
            have := (ht k req _ t hc rfl).2 (a ++ u) v (by rw [huv]; simp)
            have := elapsed_le a u
            omega
        · subst hp
          have hkj : k = j := huniq k ((verdict_eq (set_self ..) _).2 (.inl hp'))
          subst hkj
          have hreq : lreq = req := ((hb.called k _ _ hc).1 lreq).1 (by simp)
          subst hreq
          exact (ht k lreq _ t hc rfl).2 a b rfl

/-! ### Refusals -/

/-- A request is refused for its cookie: at a moment of the call there was no such session. -/
theorem refused_moment {cfg : Cfg} {o : Opts} (hk : cfg.kind = .cookie o) {t0 : Nat} {tr : List Act} {s : TSt}
    (h : run cfg t0 tr = some s) {v : Verdict} (r1 : v ≠ .open_)
    (r2 : ∀ n, v ≠ .user n) (r4 : v ≠ .loggedOut) : ∀ i req, (∃ pc, s.calls i = some (req, pc)) → Plain cfg req →
      verdict s i = some v → sessionCookie cfg.env req = [] ∨
      During tr i fun m => ∃ sm, run cfg t0 m = some sm ∧ sm.sh.auth.cache.lookup (sessionCookie cfg.env req) = none := by
  refine run_induct (P := fun tr s => ∀ i req, (∃ pc, s.calls i = some (req, pc)) → Plain cfg req →
      verdict s i = some v → sessionCookie cfg.env req = [] ∨
      During tr i fun m => ∃ sm, run cfg t0 m = some sm ∧ sm.sh.auth.cache.lookup (sessionCookie cfg.env req) = none) ?_ ?_ h
  · rintro i req ⟨_, h⟩; cases h
  · clear h tr s
    intro tr s x s' hr ih hx i req hi hp hv
    have hb := base hr
    have old : (∃ pc, s.calls i = some (req, pc)) → verdict s i = some v →
        sessionCookie cfg.env req = [] ∨ During (tr ++ [x]) i fun m => ∃ sm, run cfg t0 m = some sm ∧
          sm.sh.auth.cache.lookup (sessionCookie cfg.env req) = none :=
      fun h1 h2 => (ih i req h1 hp h2).imp id (·.append _)
    obtain ⟨pc1, hi⟩ := hi
    cases steps_of hx with
    | call hc =>
      rename_i k req'
      by_cases hik : i = k
      · subst hik
        rw [set_self] at hi; cases hi
        rw [verdict_eq (set_self ..)] at hv
        rcases hv with hv | hv
        · unfold first at hv
          rw [hk] at hv
          dsimp only at hv
          split at hv
          · cases hv
          · split at hv
            · cases hv
            · split at hv
              · simp only [Pc.done.injEq] at hv; exact absurd hv.symm r4
              · cases hv
        · exact absurd hv ((first_holds cfg _).2 _)
      · rw [set_other _ _ _ hik] at hi
        exact old ⟨_, hi⟩ (by unfold verdict at hv ⊢; rwa [set_other _ _ _ hik] at hv)
    | ret hc =>
      rename_i k req' w
      by_cases hik : i = k
      · subst hik
        rw [set_self] at hi; cases hi
        rw [verdict_eq (set_self ..)] at hv
        rcases hv with hv | hv
        · cases hv
        · cases hv; exact old ⟨_, hc⟩ ((verdict_eq hc _).2 (.inl rfl))
      · rw [set_other _ _ _ hik] at hi
        exact old ⟨_, hi⟩ (by unfold verdict at hv ⊢; rwa [set_other _ _ _ hik] at hv)
    | users => exact old ⟨_, hi⟩ hv
    | restrict => exact old ⟨_, hi⟩ hv
    | permit => exact old ⟨_, hi⟩ hv
    | tick => exact old ⟨_, hi⟩ hv
    | step hc ho =>
      rename_i k req' pc sh pc'
      by_cases hik : i = k
      · subst hik
        rw [set_self] at hi; cases hi
        rw [verdict_eq (set_self ..)] at hv
        rcases hv with rfl | rfl
        swap
        · exact absurd rfl ((own_keeps ho).2.2.2.2.1 _)
        have hf := (all hr).facts i _ _ hc
        have hcalled : Called tr i := ⟨req, ((hb.called i _ _ hc).1 req).2 rfl⟩
        have hnr : ¬Returned tr i := fun ⟨v, hv⟩ => (own_keeps ho).2.2.2.2.2.1 v (((hb.called i _ _ hc).2 v).1 hv)
        have exp : ∀ t, expired cfg req t = .done v → sessionCookie cfg.env req = [] := by
          intro t h
          unfold expired at h
          rw [hk] at h
          dsimp only at h
          split at h
          next hem => simpa using hem
          · cases h
        have nolog : ∀ o' nm, cfg.kind = .cookie o' → ¬During tr i (fun a => LogsIn cfg.env o' (admin a) req nm) := by
          rintro o' nm hk' ⟨_, _, _, _, _, h⟩
          exact (hp o' hk').1 h.1
        cases pc with
        | lookup now =>
          simp only [own] at ho
          split at ho
          · cases ho
          · simp only [Option.some.injEq] at ho
            unfold lookUp at ho
            rw [hk] at ho
            dsimp only at ho
            split at ho
            · simp only [Prod.mk.injEq, Pc.done.injEq] at ho; exact absurd ho.2.symm (r2 _)
            next hl => exact .inr ((During.now hcalled hnr ⟨s, hr, hl⟩).append _)
        | empty =>
          simp only [own, Option.some.injEq, Prod.mk.injEq] at ho
          obtain ⟨_, ho⟩ := ho
          split at ho
          · simp only [Pc.done.injEq] at ho; exact absurd ho.symm r1
          · cases ho
        | lists =>
          simp only [own, Option.some.injEq, Prod.mk.injEq] at ho
          obtain ⟨_, ho⟩ := ho
          split at ho
          · unfold needed at ho
            rw [hk] at ho
            dsimp only at ho
            split at ho
            · simp only [Pc.done.injEq] at ho; exact absurd ho.symm r1
            · cases ho
          · simp only [Pc.done.injEq] at ho; exact absurd ho.symm r1
        | clock => cases ho
        | cleanup t =>
          simp only [own, Option.some.injEq, Prod.mk.injEq] at ho
          obtain ⟨_, ho⟩ := ho
          split at ho
          · cases ho
          · exact .inl (exp t ho)
        | expire t =>
          simp only [own] at ho
          split at ho
          · cases ho
          · simp only [Option.some.injEq, Prod.mk.injEq] at ho
            exact .inl (exp t ho.2)
        | getUser => have := hf.1; rw [hk] at this; cases this
        | store => have := hf.1; rw [hk] at this; cases this
        | login => obtain ⟨o', hk', hl⟩ := hf; exact absurd hl (hp o' hk').1
        | draw => obtain ⟨o', hk', hl⟩ := hf; exact absurd hl (nolog _ _ hk')
        | drawn => obtain ⟨o', hk', hl⟩ := hf; exact absurd hl (nolog _ _ hk')
        | loginClock => obtain ⟨o', hk', hl⟩ := hf; exact absurd hl (nolog _ _ hk')
        | insert => obtain ⟨o', hk', hl⟩ := hf; exact absurd hl (nolog _ _ hk')
        | logout => obtain ⟨o', hk', hl⟩ := hf; exact absurd hl.1 (hp o' hk').2
        | done => cases ho
        | returned => cases ho
      · rw [set_other _ _ _ hik] at hi
        exact old ⟨_, hi⟩ (by unfold verdict at hv ⊢; rwa [set_other _ _ _ hik] at hv)

/-! ### Calls end -/

/-- The most steps a call can still make. -/
def Pc.rank : Pc → Nat
  | .done _ | .returned _ => 0
  | .store .. => 1
  | .getUser .. => 2
  | .lookup _ => 3
  | .expire _ => 4
  | .cleanup _ => 5
  | .clock => 6
  | .lists => 7
  | .empty => 8
  | .logout => 1
  | .insert .. => 1
  | .loginClock _ => 2
  | .drawn acc _ => 2 * (20 - acc.length) + 3
  | .draw acc => 2 * (20 - acc.length) + 4
  | .login => 45

theorem expired_rank (cfg : Cfg) (req : Msg) (t : Nat) : (expired cfg req t).rank ≤ 3 := by
  unfold expired
  split
  · split <;> simp [Pc.rank]
  · split <;> simp [Pc.rank]

theorem own_rank {cfg : Cfg} {i : Nat} {sh : Shared} {req : Msg} {pc : Pc} {sh' : Shared} {pc' : Pc}
    (h : own cfg i sh req pc = some (sh', pc')) : pc'.rank < pc.rank := by
  cases pc with
  | empty =>
    simp only [own, Option.some.injEq, Prod.mk.injEq] at h; obtain ⟨rfl, rfl⟩ := h
    split <;> simp [Pc.rank]
  | lists =>
    simp only [own, Option.some.injEq, Prod.mk.injEq] at h; obtain ⟨rfl, rfl⟩ := h
    split
    · unfold needed
      split
      · simp [Pc.rank]
      · split <;> simp [Pc.rank]
    · simp [Pc.rank]
  | clock =>
    simp only [own, Option.some.injEq, Prod.mk.injEq] at h; obtain ⟨rfl, rfl⟩ := h
    simp [Pc.rank]
  | cleanup t =>
    simp only [own, Option.some.injEq, Prod.mk.injEq] at h; obtain ⟨rfl, rfl⟩ := h
    have := expired_rank cfg req t
    split
    · simp [Pc.rank]
    · exact Nat.lt_of_le_of_lt this (by simp [Pc.rank])
  | expire t =>
    simp only [own] at h
    split at h
    · cases h
    · simp only [Option.some.injEq, Prod.mk.injEq] at h; obtain ⟨rfl, rfl⟩ := h
      exact Nat.lt_of_le_of_lt (expired_rank cfg req t) (by simp [Pc.rank])
  | lookup t =>
    simp only [own] at h
    split at h
    · cases h
    · simp only [Option.some.injEq] at h
      unfold lookUp at h
      split at h
      · split at h
        · cases h; simp [Pc.rank]
        · split at h
          · cases h; simp [Pc.rank]
          · split at h <;> (cases h; simp [Pc.rank])
      · dsimp only at h
        split at h <;> (cases h; simp [Pc.rank])
  | getUser now cred name pw =>
    simp only [own] at h
    split at h <;> (simp only [Option.some.injEq, Prod.mk.injEq] at h; obtain ⟨rfl, rfl⟩ := h; simp [Pc.rank])
  | store now cred name =>
    simp only [own, Option.some.injEq, Prod.mk.injEq] at h; obtain ⟨rfl, rfl⟩ := h; simp [Pc.rank]
  | login =>
    simp only [own] at h
    split at h <;> (simp only [Option.some.injEq, Prod.mk.injEq] at h; obtain ⟨rfl, rfl⟩ := h; simp [Pc.rank])
  | draw acc => simp only [own, Option.some.injEq, Prod.mk.injEq] at h; obtain ⟨rfl, rfl⟩ := h; simp [Pc.rank]
  | drawn acc pos =>
    simp only [own, Option.some.injEq, Prod.mk.injEq] at h; obtain ⟨rfl, rfl⟩ := h
    split
    next hl =>
      simp only [Pc.rank, List.length_append, List.length_cons, List.length_nil, COOKIE_BYTES] at hl ⊢
      omega
    · simp only [Pc.rank]; omega
  | loginClock c =>
    simp only [own, Option.some.injEq, Prod.mk.injEq] at h; obtain ⟨rfl, rfl⟩ := h; simp [Pc.rank]
  | insert now c =>
    simp only [own] at h
    split at h
    · cases h
    · simp only [Option.some.injEq, Prod.mk.injEq] at h; obtain ⟨rfl, rfl⟩ := h; simp [Pc.rank]
  | logout =>
    simp only [own] at h
    split at h
    · cases h
    · simp only [Option.some.injEq, Prod.mk.injEq] at h; obtain ⟨rfl, rfl⟩ := h; simp [Pc.rank]
  | done v => cases h
  | returned v => cases h

theorem first_rank (cfg : Cfg) (req : Msg) : (first cfg req).rank ≤ 45 := by
  unfold first
  split
  · simp [Pc.rank]
  · dsimp only
    split
    · simp [Pc.rank]
    · split
      · simp [Pc.rank]
      · split <;> simp [Pc.rank]

/-- What a call does next depends only on the mutex being free. -/
theorem own_enabled (cfg : Cfg) (i : Nat) (sh : Shared) (req : Msg) (pc : Pc)
    (h : pc.holds = true ∨ sh.lock = none) :
    (∃ v, pc = .done v ∨ pc = .returned v) ∨ (own cfg i sh req pc).isSome = true := by
  cases pc with
  | done v => exact .inl ⟨v, .inl rfl⟩
  | returned v => exact .inl ⟨v, .inr rfl⟩
  | expire => right; rcases h with h | h; · cases h
              simp [own, h]
  | lookup => right; rcases h with h | h; · cases h
              simp [own, h]
  | insert => right; rcases h with h | h; · cases h
              simp [own, h]
  | logout => right; rcases h with h | h; · cases h
              simp [own, h]
  | getUser => right; simp only [own]; split <;> rfl
  | login => right; simp only [own]; split <;> rfl
  | empty => exact .inr rfl
  | lists => exact .inr rfl
  | clock => exact .inr rfl
  | cleanup => exact .inr rfl
  | store => exact .inr rfl
  | draw => exact .inr rfl
  | drawn => exact .inr rfl
  | loginClock => exact .inr rfl

end Verif.AuthThreads
