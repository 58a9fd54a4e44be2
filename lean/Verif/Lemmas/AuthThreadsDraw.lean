import Verif.Lemmas.AuthThreadsLive
namespace Verif.AuthThreads
open SMap Auth Server Users Spec.Paths Spec.Dispatch Spec.Auth Spec.AuthThreads
/-
The random bytes that logins draw, and the number of steps of a call.
-/

theorem block_succ (gen : Nat → UInt8) (p n : Nat) : block gen p (n + 1) = block gen p n ++ [gen (p + n)] := by
  unfold block; rw [List.range_succ, List.map_append]; rfl

@[simp] theorem block_length (gen : Nat → UInt8) (p n : Nat) : (block gen p n).length = n := by simp [block]

/-- The bytes a call has drawn: `n` from number `p` on. -/
def Drew (cfg : Cfg) (rng p n : Nat) : Pc → Prop
  | .draw acc => acc = block cfg.gen p n ∧ n < 20 ∧ p + n = rng
  | .drawn acc pos => acc = block cfg.gen p n ∧ n < 20 ∧ p + n = rng ∧ pos = rng
  | .loginClock c | .insert _ c | .done (.loggedIn c) | .returned (.loggedIn c) =>
    n = 20 ∧ c = Base64.encode (block cfg.gen p 20) ∧ p + 20 ≤ rng
  | _ => n = 0 ∧ p = 0

/-- Whether a call is drawing or has drawn bytes. -/
def Pc.drew : Pc → Bool
  | .draw _ | .drawn .. | .loginClock _ | .insert .. | .done (.loggedIn _) | .returned (.loggedIn _) => true
  | _ => false

/-- Whether a call is drawing bytes. -/
def Pc.drawing : Pc → Bool
  | .draw _ | .drawn .. => true
  | _ => false

theorem Drew.le {cfg : Cfg} {rng p n : Nat} {pc : Pc} (h : Drew cfg rng p n pc) : p + n ≤ rng := by
  unfold Drew at h
  split at h <;> omega

theorem Drew.rng {cfg : Cfg} {rng rng' p n : Nat} {pc : Pc} (h : Drew cfg rng p n pc) (hr : rng ≤ rng')
    (hd : pc.drawing = false) : Drew cfg rng' p n pc := by
  unfold Drew at h ⊢
  split at h
  · cases hd
  · cases hd
  · exact ⟨h.1, h.2.1, by omega⟩
  · exact ⟨h.1, h.2.1, by omega⟩
  · exact ⟨h.1, h.2.1, by omega⟩
  · exact ⟨h.1, h.2.1, by omega⟩
  · exact h

theorem Drew.full {cfg : Cfg} {rng p n : Nat} {pc : Pc} (h : Drew cfg rng p n pc) (hd : pc.drawing = false)
    (hw : pc.drew = true) : n = 20 := by
  unfold Drew at h
  split at h
  · cases hd
  · cases hd
  · exact h.1
  · exact h.1
  · exact h.1
  · exact h.1
  · rename_i h1 h2 h3 h4 h5 h6
    unfold Pc.drew at hw
    split at hw
    · exact absurd rfl (h1 _)
    · exact absurd rfl (h2 _ _)
    · exact absurd rfl (h3 _)
    · exact absurd rfl (h4 _ _)
    · exact absurd rfl (h5 _)
    · exact absurd rfl (h6 _)
    · cases hw

theorem Drew.none {cfg : Cfg} {rng p n : Nat} {pc : Pc} (h : Drew cfg rng p n pc) (hw : pc.drew = false) :
    n = 0 ∧ p = 0 := by
  unfold Drew at h
  split at h
  · cases hw
  · cases hw
  · cases hw
  · cases hw
  · cases hw
  · cases hw
  · exact h

theorem drew_none {cfg : Cfg} {rng : Nat} {pc : Pc} (hw : pc.drew = false) : Drew cfg rng 0 0 pc := by
  unfold Drew
  split
  · cases hw
  · cases hw
  · cases hw
  · cases hw
  · cases hw
  · cases hw
  · exact ⟨rfl, rfl⟩

theorem cookieRefuse_drew (o : Opts) : (Pc.done (cookieRefuse o)).drew = false := by
  unfold cookieRefuse; split <;> rfl

theorem refusal_drew (cfg : Cfg) : (Pc.done (refusal cfg)).drew = false := by
  unfold refusal
  split
  · rfl
  · exact cookieRefuse_drew _

theorem expired_drew (cfg : Cfg) (req : Msg) (t : Nat) : (expired cfg req t).drew = false := by
  unfold expired
  split
  · split <;> rfl
  · split
    · exact cookieRefuse_drew _
    · rfl

theorem first_drew (cfg : Cfg) (req : Msg) : (first cfg req).drew = false := by
  unfold first
  split
  · rfl
  · dsimp only
    split
    · rfl
    · split
      · rfl
      · split <;> rfl

theorem drew_of_drawing {pc : Pc} (h : pc.drawing = true) : pc.drew = true := by
  cases pc <;> first | rfl | cases h

/-- What a step does to the bytes drawn. -/
theorem own_draw {cfg : Cfg} {i : Nat} {sh : Shared} {req : Msg} {pc : Pc} {sh' : Shared} {pc' : Pc} {p n : Nat}
    (h : own cfg i sh req pc = some (sh', pc')) (hd : Drew cfg sh.rng p n pc) :
    (pc.drawing = false ∧ pc'.drew = false ∧ pc.drew = false ∧ sh'.rng = sh.rng) ∨
    (pc = .login ∧ pc' = .draw [] ∧ sh'.rng = sh.rng) ∨
    (pc.drew = true ∧ sh'.rng = sh.rng ∧ Drew cfg sh'.rng p n pc') ∨
    (pc.drawing = true ∧ sh'.rng = sh.rng + 1 ∧ Drew cfg sh'.rng p (n + 1) pc') := by
  cases pc with
  | empty =>
    simp only [own, Option.some.injEq, Prod.mk.injEq] at h; obtain ⟨rfl, rfl⟩ := h
    left; refine ⟨rfl, ?_, rfl, rfl⟩; split <;> rfl
  | lists =>
    simp only [own, Option.some.injEq, Prod.mk.injEq] at h; obtain ⟨rfl, rfl⟩ := h
    left; refine ⟨rfl, ?_, rfl, rfl⟩
    split
    · unfold needed
      split
      · rfl
      · split <;> rfl
    · rfl
  | clock =>
    simp only [own, Option.some.injEq, Prod.mk.injEq] at h; obtain ⟨rfl, rfl⟩ := h
    exact .inl ⟨rfl, rfl, rfl, rfl⟩
  | cleanup t =>
    simp only [own, Option.some.injEq, Prod.mk.injEq] at h; obtain ⟨rfl, rfl⟩ := h
    left; refine ⟨rfl, ?_, rfl, rfl⟩
    split
    · rfl
    · exact expired_drew ..
  | expire t =>
    simp only [own] at h
    split at h
    · cases h
    · simp only [Option.some.injEq, Prod.mk.injEq] at h; obtain ⟨rfl, rfl⟩ := h
      exact .inl ⟨rfl, expired_drew .., rfl, rfl⟩
  | lookup t =>
    simp only [own] at h
    split at h
    · cases h
    · simp only [Option.some.injEq] at h
      left
      unfold lookUp at h
      split at h
      · split at h
        · cases h; exact ⟨rfl, rfl, rfl, rfl⟩
        · split at h
          · cases h; exact ⟨rfl, rfl, rfl, rfl⟩
          · split at h <;> (cases h; exact ⟨rfl, rfl, rfl, rfl⟩)
      · dsimp only at h
        split at h
        · cases h; exact ⟨rfl, rfl, rfl, rfl⟩
        · cases h; exact ⟨rfl, cookieRefuse_drew _, rfl, rfl⟩
  | getUser now cred name pw =>
    simp only [own] at h
    left
    split at h <;> (simp only [Option.some.injEq, Prod.mk.injEq] at h; obtain ⟨rfl, rfl⟩ := h; exact ⟨rfl, rfl, rfl, rfl⟩)
  | store now cred name =>
    simp only [own, Option.some.injEq, Prod.mk.injEq] at h; obtain ⟨rfl, rfl⟩ := h
    exact .inl ⟨rfl, rfl, rfl, rfl⟩
  | login =>
    simp only [own] at h
    split at h
    · simp only [Option.some.injEq, Prod.mk.injEq] at h; obtain ⟨rfl, rfl⟩ := h
      exact .inl ⟨rfl, refusal_drew _, rfl, rfl⟩
    · simp only [Option.some.injEq, Prod.mk.injEq] at h; obtain ⟨rfl, rfl⟩ := h
      exact .inr (.inl ⟨rfl, rfl, rfl⟩)
  | draw acc =>
    simp only [own, Option.some.injEq, Prod.mk.injEq] at h; obtain ⟨rfl, rfl⟩ := h
    exact .inr (.inr (.inl ⟨rfl, rfl, hd.1, hd.2.1, hd.2.2, rfl⟩))
  | drawn acc pos =>
    simp only [own, Option.some.injEq, Prod.mk.injEq] at h; obtain ⟨rfl, rfl⟩ := h
    obtain ⟨rfl, h1, h2, rfl⟩ := hd
    refine .inr (.inr (.inr ⟨rfl, rfl, ?_⟩))
    have hb : block cfg.gen p n ++ [cfg.gen sh.rng] = block cfg.gen p (n + 1) := by rw [block_succ, h2]
    rw [hb]
    split
    next hl =>
      rw [block_length] at hl
      exact ⟨rfl, hl, by simp only; omega⟩
    next hl =>
      rw [block_length] at hl
      have : n + 1 = 20 := by unfold COOKIE_BYTES at hl; omega
      refine ⟨this, by rw [this], by simp only; omega⟩
  | loginClock c =>
    simp only [own, Option.some.injEq, Prod.mk.injEq] at h; obtain ⟨rfl, rfl⟩ := h
    exact .inr (.inr (.inl ⟨rfl, rfl, hd⟩))
  | insert now c =>
    simp only [own] at h
    split at h
    · cases h
    · simp only [Option.some.injEq, Prod.mk.injEq] at h; obtain ⟨rfl, rfl⟩ := h
      exact .inr (.inr (.inl ⟨rfl, rfl, hd⟩))
  | logout =>
    simp only [own] at h
    split at h
    · cases h
    · simp only [Option.some.injEq, Prod.mk.injEq] at h; obtain ⟨rfl, rfl⟩ := h
      exact .inl ⟨rfl, rfl, rfl, rfl⟩
  | done v => cases h
  | returned v => cases h

def drewAt (s : TSt) (i : Nat) : Prop := ∃ req pc, s.calls i = some (req, pc) ∧ pc.drew = true

/-- Calls have drawn disjoint blocks. -/
def Disjoint' (cfg : Cfg) (s : TSt) : Prop :=
  ∃ P N : Nat → Nat, (∀ i req pc, s.calls i = some (req, pc) → Drew cfg s.sh.rng (P i) (N i) pc) ∧
    ∀ i k, i ≠ k → drewAt s i → drewAt s k → P i + N i ≤ P k ∨ P k + N k ≤ P i

theorem logging_of {cfg : Cfg} {t0 : Nat} {tr : List Act} {s : TSt} (h : run cfg t0 tr = some s) {i : Nat} {req : Msg}
    {pc : Pc} (hc : s.calls i = some (req, pc)) (hd : pc.drawing = true ∨ pc = .login) : Logging cfg tr i := by
  have hb := base h
  have hf := (all h).facts i _ _ hc
  have hm : .call i req ∈ tr := ((hb.called i _ _ hc).1 req).2 rfl
  have hn : (∀ v, pc ≠ .returned v) → ¬Returned tr i := fun h ⟨v, hv⟩ => h v (((hb.called i _ _ hc).2 v).1 hv)
  cases pc with
  | draw acc =>
    obtain ⟨o, hk, _, _, _, _, _, hl⟩ := hf
    exact ⟨o, req, hk, hm, hl.1, hn nofun⟩
  | drawn acc pos =>
    obtain ⟨o, hk, _, _, _, _, _, hl⟩ := hf
    exact ⟨o, req, hk, hm, hl.1, hn nofun⟩
  | login =>
    obtain ⟨o, hk, hl⟩ := hf
    exact ⟨o, req, hk, hm, hl, hn nofun⟩
  | _ => rcases hd with hd | hd <;> cases hd

theorem disjoint {cfg : Cfg} {t0 : Nat} {tr : List Act} {s : TSt} (h : run cfg t0 tr = some s) :
    OneLogin cfg tr → Disjoint' cfg s := by
  refine run_induct (P := fun tr s => OneLogin cfg tr → Disjoint' cfg s) ?_ ?_ h
  · exact fun _ => ⟨fun _ => 0, fun _ => 0, nofun, fun _ _ _ ⟨_, _, h, _⟩ => by cases h⟩
  clear h tr s
  intro tr s x s' hr ih hx hone
  have h1 : OneLogin cfg tr := fun a b hab => hone a (b ++ [x]) (by rw [hab, List.append_assoc])
  obtain ⟨P, N, hD, hP⟩ := ih h1
  have single : ∀ i k req pc req' pc', s.calls i = some (req, pc) → s.calls k = some (req', pc') →
      (pc.drawing = true ∨ pc = .login) → (pc'.drawing = true ∨ pc' = .login) → i = k :=
    fun i k _ _ _ _ hi hk h2 h3 => h1 tr [] (by simp) i k (logging_of hr hi h2) (logging_of hr hk h3)
  cases steps_of hx with
  | call hc =>
    rename_i i req
    refine ⟨fun k => if k = i then 0 else P k, fun k => if k = i then 0 else N k, ?_, ?_⟩
    · intro k r pc hk
      by_cases hki : k = i
      · subst hki; rw [set_self] at hk; cases hk
        simp only [if_true]; exact drew_none (first_drew ..)
      · simp only [hki, if_false]; rw [set_other _ _ _ hki] at hk; exact hD _ _ _ hk
    · rintro a b hab ⟨ra, pa, ha, ha'⟩ ⟨rb, pb, hb, hb'⟩
      have na : a ≠ i := by
        rintro rfl; rw [set_self] at ha; cases ha; rw [first_drew] at ha'; cases ha'
      have nb : b ≠ i := by
        rintro rfl; rw [set_self] at hb; cases hb; rw [first_drew] at hb'; cases hb'
      simp only [na, nb, if_false]
      rw [set_other _ _ _ na] at ha; rw [set_other _ _ _ nb] at hb
      exact hP a b hab ⟨_, _, ha, ha'⟩ ⟨_, _, hb, hb'⟩
  | ret hc =>
    rename_i i req v
    have hdv : ∀ p n, Drew cfg s.sh.rng p n (.done v) → Drew cfg s.sh.rng p n (.returned v) := by
      intro p n h; cases v <;> exact h
    have hdr : (Pc.returned v).drew = (Pc.done v).drew := by cases v <;> rfl
    have back : ∀ a, drewAt (s.set i (req, .returned v) s.sh) a → drewAt s a := by
      rintro a ⟨r, pc, ha, ha'⟩
      by_cases hai : a = i
      · subst hai; rw [set_self] at ha; cases ha; exact ⟨_, _, hc, by rw [← hdr]; exact ha'⟩
      · rw [set_other _ _ _ hai] at ha; exact ⟨_, _, ha, ha'⟩
    refine ⟨P, N, ?_, fun a b hab ha hb => hP a b hab (back a ha) (back b hb)⟩
    intro k r pc hk
    by_cases hki : k = i
    · subst hki; rw [set_self] at hk; cases hk
      exact hdv _ _ (hD _ _ _ hc)
    · rw [set_other _ _ _ hki] at hk; exact hD _ _ _ hk
  | users => exact ⟨P, N, hD, hP⟩
  | restrict => exact ⟨P, N, hD, hP⟩
  | permit => exact ⟨P, N, hD, hP⟩
  | tick => exact ⟨P, N, hD, hP⟩
  | step hc ho =>
    rename_i i req pc sh pc'
    have hdi := hD i _ _ hc
    rcases own_draw ho hdi with ⟨_, d2, d3, d4⟩ | ⟨rfl, rfl, d3⟩ | ⟨d1, d2, d3⟩ | ⟨d1, d2, d3⟩
    · refine ⟨P, N, ?_, ?_⟩
      · intro k r pc1 hk
        rw [set_sh, d4]
        by_cases hki : k = i
        · subst hki; rw [set_self] at hk; cases hk
          obtain ⟨e1, e2⟩ := hdi.none d3
          rw [e1, e2]; exact drew_none d2
        · rw [set_other _ _ _ hki] at hk; exact hD _ _ _ hk
      · rintro a b hab ⟨ra, pa, ha, ha'⟩ ⟨rb, pb, hb, hb'⟩
        have na : a ≠ i := by
          rintro rfl; rw [set_self] at ha; cases ha; rw [d2] at ha'; cases ha'
        have nb : b ≠ i := by
          rintro rfl; rw [set_self] at hb; cases hb; rw [d2] at hb'; cases hb'
        rw [set_other _ _ _ na] at ha; rw [set_other _ _ _ nb] at hb
        exact hP a b hab ⟨_, _, ha, ha'⟩ ⟨_, _, hb, hb'⟩
    · refine ⟨fun k => if k = i then s.sh.rng else P k, fun k => if k = i then 0 else N k, ?_, ?_⟩
      · intro k r pc1 hk
        rw [set_sh, d3]
        by_cases hki : k = i
        · subst hki; rw [set_self] at hk; cases hk
          simp only [if_true]; exact ⟨rfl, by omega, rfl⟩
        · simp only [hki, if_false]; rw [set_other _ _ _ hki] at hk; exact hD _ _ _ hk
      · rintro a b hab ⟨ra, pa, ha, ha'⟩ ⟨rb, pb, hb, hb'⟩
        by_cases na : a = i
        · subst na
          have nb : b ≠ a := fun h => hab h.symm
          rw [set_other _ _ _ nb] at hb
          simp only [if_true, nb, if_false]
          exact .inr (hD b _ _ hb).le
        · rw [set_other _ _ _ na] at ha
          by_cases nb : b = i
          · subst nb
            simp only [if_true, na, if_false]
            exact .inl (hD a _ _ ha).le
          · rw [set_other _ _ _ nb] at hb
            simp only [na, nb, if_false]
            exact hP a b hab ⟨_, _, ha, ha'⟩ ⟨_, _, hb, hb'⟩
    · refine ⟨P, N, ?_, ?_⟩
      · intro k r pc1 hk
        rw [set_sh]
        by_cases hki : k = i
        · subst hki; rw [set_self] at hk; cases hk; exact d3
        · rw [set_other _ _ _ hki] at hk; rw [d2]; exact hD _ _ _ hk
      · have back : ∀ a, drewAt (s.set i (req, pc') sh) a → drewAt s a := by
          rintro a ⟨r, pc, ha, ha'⟩
          by_cases hai : a = i
          · subst hai; exact ⟨_, _, hc, d1⟩
          · rw [set_other _ _ _ hai] at ha; exact ⟨_, _, ha, ha'⟩
        exact fun a b hab ha hb => hP a b hab (back a ha) (back b hb)
    · have others : ∀ k r pc1, k ≠ i → s.calls k = some (r, pc1) → pc1.drawing = false := by
        intro k r pc1 hki hk
        by_contra hcon
        exact hki (single k i _ _ _ _ hk hc (.inl (by simpa using hcon)) (.inl d1))
      have below : ∀ k r pc1, k ≠ i → s.calls k = some (r, pc1) → pc1.drew = true → P k + N k ≤ P i := by
        intro k r pc1 hki hk hw
        rcases hP k i hki ⟨_, _, hk, hw⟩ ⟨_, _, hc, drew_of_drawing d1⟩ with h | h
        · exact h
        · have e1 := (hD k _ _ hk).le
          have e2 := (hD k _ _ hk).full (others k _ _ hki hk) hw
          have e3 : P i + N i = s.sh.rng := by
            cases pc with
            | draw => exact hdi.2.2
            | drawn => exact hdi.2.2.1
            | _ => cases d1
          omega
      refine ⟨P, fun k => if k = i then N k + 1 else N k, ?_, ?_⟩
      · intro k r pc1 hk
        rw [set_sh]
        by_cases hki : k = i
        · subst hki; rw [set_self] at hk; cases hk
          simp only [if_true]; exact d3
        · simp only [hki, if_false]; rw [set_other _ _ _ hki] at hk; exact (hD _ _ _ hk).rng (by omega) (others k _ _ hki hk)
      · rintro a b hab ⟨ra, pa, ha, ha'⟩ ⟨rb, pb, hb, hb'⟩
        by_cases na : a = i
        · subst na
          have nb : b ≠ a := fun h => hab h.symm
          rw [set_other _ _ _ nb] at hb
          simp only [if_true, nb, if_false]
          exact .inr (below b _ _ nb hb hb')
        · rw [set_other _ _ _ na] at ha
          by_cases nb : b = i
          · subst nb
            simp only [if_true, na, if_false]
            exact .inl (below a _ _ na ha ha')
          · rw [set_other _ _ _ nb] at hb
            simp only [na, nb, if_false]
            exact hP a b hab ⟨_, _, ha, ha'⟩ ⟨_, _, hb, hb'⟩

/-! ### Steps of a call -/

theorem stepsOf_snoc (tr : List Act) (x : Act) (i : Nat) :
    stepsOf (tr ++ [x]) i = stepsOf tr i + (match x with | .step k => if k = i then 1 else 0 | _ => 0) := by
  unfold stepsOf
  rw [List.filter_append, List.length_append]
  congr 1
  cases x with
  | step k => by_cases h : k = i <;> simp [h]
  | _ => rfl

theorem steps_bound {cfg : Cfg} {t0 : Nat} {tr : List Act} {s : TSt} (h : run cfg t0 tr = some s) :
    ∀ i, (s.calls i = none → stepsOf tr i = 0) ∧ ∀ req pc, s.calls i = some (req, pc) → stepsOf tr i + pc.rank ≤ 45 := by
  refine run_induct (P := fun tr s => ∀ i, (s.calls i = none → stepsOf tr i = 0) ∧
    ∀ req pc, s.calls i = some (req, pc) → stepsOf tr i + pc.rank ≤ 45) (fun i => ⟨fun _ => rfl, nofun⟩) ?_ h
  clear h tr s
  intro tr s x s' hr ih hx i
  rw [stepsOf_snoc]
  cases steps_of hx with
  | call hc =>
    rename_i k req
    by_cases hik : i = k
    · subst hik
      rw [set_self, (ih i).1 hc]
      refine ⟨nofun, fun r pc h => ?_⟩
      cases h
      simpa using first_rank cfg req
    · rw [set_other _ _ _ hik]; exact ih i
  | ret hc =>
    rename_i k req v
    by_cases hik : i = k
    · subst hik
      rw [set_self]
      refine ⟨nofun, fun r pc h => ?_⟩
      cases h
      simpa [Pc.rank] using (ih i).2 _ _ hc
    · rw [set_other _ _ _ hik]; exact ih i
  | users => exact ih i
  | restrict => exact ih i
  | permit => exact ih i
  | tick => exact ih i
  | step hc ho =>
    rename_i k req pc sh pc'
    by_cases hik : i = k
    · subst hik
      rw [set_self]
      refine ⟨nofun, fun r pc1 h => ?_⟩
      cases h
      have e1 := (ih i).2 _ _ hc
      have e2 := own_rank ho
      simp only [if_true]; omega
    · rw [set_other _ _ _ hik]
      simp only [show k ≠ i from fun h => hik h.symm, if_false]
      exact ih i

end Verif.AuthThreads
