import Verif.Lemmas.AuthThreads
namespace Verif.AuthThreads
open SMap Auth Server Users Spec.Paths Spec.Dispatch Spec.Auth Spec.AuthThreads
/-
Why calls are decided the way they are.
-/

theorem _root_.Verif.Spec.AuthThreads.Asked.append {cfg : Cfg} {tr : List Act} {i : Nat} {req : Msg} (h : Asked cfg tr i req) (b : List Act) :
    Asked cfg (tr ++ b) i req := ⟨h.1, h.2.1, h.2.2.1.append b, h.2.2.2.append b⟩

theorem users_eq {cfg : Cfg} {t0 : Nat} {tr : List Act} {s : TSt} (hb : Base cfg t0 tr s) :
    s.sh.auth.users = usersOf cfg.env (admin tr) := by
  rw [hb.users, after_users keeps_idle]

theorem usersExist_iff {cfg : Cfg} {t0 : Nat} {tr : List Act} {s : TSt} (hb : Base cfg t0 tr s) :
    isEmpty s.sh.auth.users = false ↔ UsersExist cfg.env (admin tr) := by
  rw [isEmpty_users, users_eq hb]; rfl

theorem need_split (users : Manager) (p : Paths) (req : Msg) :
    needAuthentication users p req = (!isEmpty users && needLists p req) := by
  unfold needAuthentication needLists
  cases isEmpty users <;> simp

theorem listsAsk_iff {cfg : Cfg} {t0 : Nat} {tr : List Act} {s : TSt} (hb : Base cfg t0 tr s) (req : Msg) :
    needLists s.sh.auth.paths req = true ↔ ListsAsk (admin tr) req := by
  obtain ⟨h1, h2, h3, h4⟩ := after_paths (b := cfg.env.build) keeps_idle 0 (admin tr)
  rw [← hb.paths] at h1 h2 h3 h4
  have h := needAuthentication_iff [([], ({} : User))] _ h1 h2 req
  rw [need_split] at h
  have he : isEmpty [([], ({} : User))] = false := rfl
  rw [he, Bool.not_false, Bool.true_and] at h
  rw [h]
  have hu : ∃ n, (getUser [([], ({} : User))] n).isSome = true := ⟨[], rfl⟩
  unfold ListsAsk
  constructor
  · rintro ⟨_, ⟨x, hx, hc⟩, d⟩
    exact ⟨⟨x.1, (h3 x).1 hx, hc⟩, fun p hp => d (p, ()) ((h4 (p, ())).2 hp)⟩
  · rintro ⟨⟨p, hp, hc⟩, d⟩
    exact ⟨hu, ⟨(p, ()), (h3 (p, ())).2 hp, hc⟩, fun x hx => d x.1 ((h4 x).1 hx)⟩

/-- A call that presented the credentials found them correct. -/
def Verified (cfg : Cfg) (tr : List Act) (cred name : Bytes) : Prop :=
  ∃ j jreq, .call j jreq ∈ tr ∧ Presents cfg.env jreq cred ∧ During tr j fun a => Correct cfg.env (admin a) cred name

/-- A session is live at moment `a`: a login made it at an earlier moment, and every logout that has returned had begun
    before that moment. -/
def Live (cfg : Cfg) (o : Opts) (a : List Act) (s : TSt) (c name : Bytes) : Prop :=
  ∃ j lreq a1 a2, a = a1 ++ a2 ∧ .call j lreq ∈ a1 ∧ During a1 j (fun m => LogsIn cfg.env o (admin m) lreq name) ∧
    ¬Returned a1 j ∧ verdict s j = some (.loggedIn c) ∧
    ∀ k kreq, .call k kreq ∈ a → LogsOut cfg.env o kreq c → Returned a k → Called a1 k

/-- Why a call is decided. -/
def Why (cfg : Cfg) (tr : List Act) (s : TSt) (i : Nat) (req : Msg) : Verdict → Prop
  | .open_ => Plain cfg req ∧ (During tr i (fun a => ¬Needs cfg.env (admin a) req) ∨ LoginPage cfg req)
  | .user name => Asked cfg tr i req ∧ match cfg.kind with
    | .basic => ∃ cred, Presents cfg.env req cred ∧ Verified cfg tr cred name
    | .cookie o => sessionCookie cfg.env req ≠ [] ∧ During tr i fun a => Live cfg o a s (sessionCookie cfg.env req) name
  | .loggedIn _ => ∃ o, cfg.kind = .cookie o ∧ ∃ name, During tr i fun a => LogsIn cfg.env o (admin a) req name
  | .loggedOut => ∃ o, cfg.kind = .cookie o ∧ noSlash req.resource = o.logout ∧ noSlash req.resource ≠ o.login
  | _ => match cfg.kind with
    | .basic => Asked cfg tr i req ∧ ((∀ cred, ¬Presents cfg.env req cred) ∨
        ∃ cred, Presents cfg.env req cred ∧ During tr i fun a => ∀ name, ¬Correct cfg.env (admin a) cred name)
    | .cookie o => Asked cfg tr i req ∨
        (noSlash req.resource = o.login ∧ During tr i fun a => ∀ name, ¬LogsIn cfg.env o (admin a) req name)

/-- What is known of a call. -/
def Facts (cfg : Cfg) (tr : List Act) (s : TSt) (i : Nat) (req : Msg) : Pc → Prop
  | .empty => Plain cfg req
  | .lists => Plain cfg req ∧ During tr i fun a => UsersExist cfg.env (admin a)
  | .clock | .cleanup _ | .expire _ => Asked cfg tr i req
  | .lookup _ => Asked cfg tr i req ∧ match cfg.kind with
    | .basic => ∃ cred, Presents cfg.env req cred
    | .cookie _ => sessionCookie cfg.env req ≠ []
  | .getUser _ cred name pw => cfg.kind = .basic ∧ Asked cfg tr i req ∧ Presents cfg.env req cred ∧
      parseCredentials cfg.env cred = some (name, pw)
  | .store _ cred name => cfg.kind = .basic ∧ Asked cfg tr i req ∧ Presents cfg.env req cred ∧
      During tr i fun a => Correct cfg.env (admin a) cred name
  | .login => ∃ o, cfg.kind = .cookie o ∧ noSlash req.resource = o.login
  | .draw _ | .drawn _ _ | .loginClock _ | .insert _ _ => ∃ o, cfg.kind = .cookie o ∧
      During tr i fun a => LogsIn cfg.env o (admin a) req (req.queries.get cfg.env.ord (b! "user"))
  | .logout => ∃ o, cfg.kind = .cookie o ∧ LogsOut cfg.env o req (sessionCookie cfg.env req)
  | .done v => Why cfg tr s i req v
  | .returned v => Why cfg tr s i req v

def Ext (s s' : TSt) : Prop := ∀ j v, verdict s j = some v → verdict s' j = some v

theorem Live.ext {cfg : Cfg} {o : Opts} {a : List Act} {s s' : TSt} {c name : Bytes} (h : Live cfg o a s c name)
    (he : Ext s s') : Live cfg o a s' c name := by
  obtain ⟨j, lreq, a1, a2, h1, h2, h3, h4, h5, h6⟩ := h
  exact ⟨j, lreq, a1, a2, h1, h2, h3, h4, he _ _ h5, h6⟩

theorem Verified.append {cfg : Cfg} {tr : List Act} {cred name : Bytes} (h : Verified cfg tr cred name) (b : List Act) :
    Verified cfg (tr ++ b) cred name := by
  obtain ⟨j, jreq, h1, h2, h3⟩ := h
  exact ⟨j, jreq, List.mem_append_left _ h1, h2, h3.append b⟩

theorem Why.mono {cfg : Cfg} {tr : List Act} {s s' : TSt} {i : Nat} {req : Msg} {v : Verdict} (h : Why cfg tr s i req v)
    (b : List Act) (he : Ext s s') : Why cfg (tr ++ b) s' i req v := by
  have refused : (match cfg.kind with
      | .basic => Asked cfg tr i req ∧ ((∀ cred, ¬Presents cfg.env req cred) ∨
          ∃ cred, Presents cfg.env req cred ∧ During tr i fun a => ∀ name, ¬Correct cfg.env (admin a) cred name)
      | .cookie o => Asked cfg tr i req ∨
          (noSlash req.resource = o.login ∧ During tr i fun a => ∀ name, ¬LogsIn cfg.env o (admin a) req name)) →
      (match cfg.kind with
      | .basic => Asked cfg (tr ++ b) i req ∧ ((∀ cred, ¬Presents cfg.env req cred) ∨
          ∃ cred, Presents cfg.env req cred ∧ During (tr ++ b) i fun a => ∀ name, ¬Correct cfg.env (admin a) cred name)
      | .cookie o => Asked cfg (tr ++ b) i req ∨
          (noSlash req.resource = o.login ∧ During (tr ++ b) i fun a => ∀ name, ¬LogsIn cfg.env o (admin a) req name)) := by
    cases cfg.kind with
    | basic =>
      rintro ⟨h1, h2⟩
      exact ⟨h1.append b, h2.imp id fun ⟨c, h3, h4⟩ => ⟨c, h3, h4.append b⟩⟩
    | cookie o => exact fun h => h.imp (·.append b) fun h => ⟨h.1, h.2.append b⟩
  cases v with
  | open_ => exact ⟨h.1, h.2.imp (·.append b) id⟩
  | user name =>
    obtain ⟨h1, h2⟩ := h
    refine ⟨h1.append b, ?_⟩
    cases hk : cfg.kind with
    | basic =>
      rw [hk] at h2
      obtain ⟨c, h3, h4⟩ := h2
      exact ⟨c, h3, h4.append b⟩
    | cookie o =>
      rw [hk] at h2
      exact ⟨h2.1, (h2.2.append b).imp fun a ha => ha.ext he⟩
  | unauthorized => exact refused h
  | redirectLogin => exact refused h
  | loggedIn c =>
    obtain ⟨o, h1, n, h2⟩ := h
    exact ⟨o, h1, n, h2.append b⟩
  | loggedOut => exact h

theorem Facts.mono {cfg : Cfg} {tr : List Act} {s s' : TSt} {i : Nat} {req : Msg} {pc : Pc} (h : Facts cfg tr s i req pc)
    (b : List Act) (he : Ext s s') : Facts cfg (tr ++ b) s' i req pc := by
  cases pc with
  | empty => exact h
  | lists => exact ⟨h.1, h.2.append b⟩
  | clock => exact Asked.append h b
  | cleanup => exact Asked.append h b
  | expire => exact Asked.append h b
  | lookup => exact ⟨h.1.append b, h.2⟩
  | getUser => exact ⟨h.1, h.2.1.append b, h.2.2⟩
  | store => exact ⟨h.1, h.2.1.append b, h.2.2.1, h.2.2.2.append b⟩
  | login => exact h
  | draw => obtain ⟨o, h1, h2⟩ := h; exact ⟨o, h1, h2.append b⟩
  | drawn => obtain ⟨o, h1, h2⟩ := h; exact ⟨o, h1, h2.append b⟩
  | loginClock => obtain ⟨o, h1, h2⟩ := h; exact ⟨o, h1, h2.append b⟩
  | insert => obtain ⟨o, h1, h2⟩ := h; exact ⟨o, h1, h2.append b⟩
  | logout => exact h
  | done => exact Why.mono h b he
  | returned => exact Why.mono h b he

theorem verdict_eq {s : TSt} {i : Nat} {req : Msg} {pc : Pc} (h : s.calls i = some (req, pc)) (v : Verdict) :
    verdict s i = some v ↔ pc = .done v ∨ pc = .returned v := by
  unfold verdict; rw [h]; cases pc <;> simp

theorem verdict_none {s : TSt} {i : Nat} (h : s.calls i = none) : verdict s i = none := by
  unfold verdict; rw [h]

theorem ext_step {cfg : Cfg} {s s' : TSt} {x : Act} (h : Steps cfg s x s') : Ext s s' := by
  intro j v hv
  cases h with
  | call hc =>
    rename_i i req
    by_cases hji : j = i
    · subst hji; rw [verdict_none hc] at hv; cases hv
    · unfold verdict at hv ⊢; rwa [set_other _ _ _ hji]
  | step hc ho =>
    rename_i i req pc sh pc'
    by_cases hji : j = i
    · subst hji
      rcases (verdict_eq hc v).1 hv with rfl | rfl <;> cases ho
    · unfold verdict at hv ⊢; rwa [set_other _ _ _ hji]
  | ret hc =>
    rename_i i req w
    by_cases hji : j = i
    · subst hji
      rcases (verdict_eq hc v).1 hv with h | h
      · cases h; exact (verdict_eq (set_self ..) v).2 (.inr rfl)
      · cases h
    · unfold verdict at hv ⊢; rwa [set_other _ _ _ hji]
  | users => exact hv
  | restrict => exact hv
  | permit => exact hv
  | tick => exact hv

/-- What is known of an entry of the cache. -/
def Entry (cfg : Cfg) (tr : List Act) (s : TSt) (c name : Bytes) : Prop :=
  match cfg.kind with
  | .basic => Verified cfg tr c name
  | .cookie o => ∃ j lreq a1 a2, tr = a1 ++ a2 ∧ .call j lreq ∈ a1 ∧
      During a1 j (fun m => LogsIn cfg.env o (admin m) lreq name) ∧ ¬Returned a1 j ∧ verdict s j = some (.loggedIn c) ∧
      ∀ k kreq, .call k kreq ∈ tr → LogsOut cfg.env o kreq c → verdict s k ≠ none → Called a1 k

structure All (cfg : Cfg) (tr : List Act) (s : TSt) : Prop where
  facts : ∀ i req pc, s.calls i = some (req, pc) → Facts cfg tr s i req pc
  cache : ∀ x ∈ s.sh.auth.cache, Entry cfg tr s x.1 x.2.2

theorem why_refuse {cfg : Cfg} {tr : List Act} {s : TSt} {i : Nat} {req : Msg} {o : Opts} (hk : cfg.kind = .cookie o)
    (h : Asked cfg tr i req ∨
        (noSlash req.resource = o.login ∧ During tr i fun a => ∀ name, ¬LogsIn cfg.env o (admin a) req name)) :
    Why cfg tr s i req (cookieRefuse o) := by
  unfold cookieRefuse
  split <;> (unfold Why; dsimp only; rw [hk]; exact h)

theorem why_unauthorized {cfg : Cfg} {tr : List Act} {s : TSt} {i : Nat} {req : Msg} (hk : cfg.kind = .basic)
    (ha : Asked cfg tr i req) (h : (∀ cred, ¬Presents cfg.env req cred) ∨
        ∃ cred, Presents cfg.env req cred ∧ During tr i fun a => ∀ name, ¬Correct cfg.env (admin a) cred name) :
    Why cfg tr s i req .unauthorized := by
  unfold Why; dsimp only; rw [hk]; exact ⟨ha, h⟩

theorem facts_expired {cfg : Cfg} {tr : List Act} {s : TSt} {i : Nat} {req : Msg} (h : Asked cfg tr i req) (now : Nat) :
    Facts cfg tr s i req (expired cfg req now) := by
  unfold expired
  split
  next hk =>
    split
    next hp =>
      exact why_unauthorized (s := s) hk h (.inl fun c hc => by rw [(presented_iff ..).2 hc] at hp; cases hp)
    next c hp =>
      refine ⟨h, ?_⟩
      rw [hk]; exact ⟨c, (presented_iff ..).1 hp⟩
  next o hk =>
    split
    · exact why_refuse hk (.inl h)
    next hc =>
      refine ⟨h, ?_⟩
      rw [hk]
      intro h0; rw [h0] at hc; exact hc rfl

theorem own_cache {cfg : Cfg} {i : Nat} {sh : Shared} {req : Msg} {pc : Pc} {sh' : Shared} {pc' : Pc}
    (h : own cfg i sh req pc = some (sh', pc')) (hs : Sorted sh.auth.cache) :
    ∀ x ∈ sh'.auth.cache, (∃ t, (x.1, (t, x.2.2)) ∈ sh.auth.cache ∧ (pc = .logout → x.1 ≠ sessionCookie cfg.env req)) ∨
      (∃ now, pc = .store now x.1 x.2.2 ∧ x.2.1 = now) ∨
      (∃ now, pc = .insert now x.1 ∧ x.2.2 = req.queries.get cfg.env.ord (b! "user") ∧ x.2.1 = now) := by
  have assigned : ∀ {k : Bytes} {t now : Nat} {name : Bytes}, sh.auth.cache.lookup k = some (t, name) →
      ∀ x ∈ sh.auth.cache.assign k (now, name), ∃ t, (x.1, (t, x.2.2)) ∈ sh.auth.cache := by
    intro k t now name hl x hx
    rcases mem_assign hx with rfl | hx
    · exact ⟨t, (lookup_eq_some hs).1 hl⟩
    · exact ⟨x.2.1, hx⟩
  intro x hx
  cases pc with
  | empty =>
    simp only [own, Option.some.injEq, Prod.mk.injEq] at h; obtain ⟨rfl, rfl⟩ := h
    exact .inl ⟨x.2.1, hx, nofun⟩
  | lists =>
    simp only [own, Option.some.injEq, Prod.mk.injEq] at h; obtain ⟨rfl, rfl⟩ := h
    exact .inl ⟨x.2.1, hx, nofun⟩
  | clock =>
    simp only [own, Option.some.injEq, Prod.mk.injEq] at h; obtain ⟨rfl, rfl⟩ := h
    exact .inl ⟨x.2.1, hx, nofun⟩
  | cleanup now =>
    simp only [own, Option.some.injEq, Prod.mk.injEq] at h; obtain ⟨rfl, rfl⟩ := h
    exact .inl ⟨x.2.1, hx, nofun⟩
  | expire now =>
    simp only [own] at h
    split at h
    · cases h
    · simp only [Option.some.injEq, Prod.mk.injEq] at h; obtain ⟨rfl, rfl⟩ := h
      exact .inl ⟨x.2.1, (List.mem_filter.1 hx).1, nofun⟩
  | lookup now =>
    simp only [own] at h
    split at h
    · cases h
    · simp only [Option.some.injEq] at h
      left
      have : ∃ t, (x.1, (t, x.2.2)) ∈ sh.auth.cache := by
        unfold lookUp at h
        split at h
        · split at h
          · cases h; exact ⟨_, hx⟩
          · split at h
            next hl => cases h; exact assigned hl x hx
            · split at h
              · cases h; exact ⟨_, hx⟩
              · cases h; exact ⟨_, hx⟩
        · dsimp only at h
          split at h
          next hl => cases h; exact assigned hl x hx
          · cases h; exact ⟨_, hx⟩
      exact ⟨this.choose, this.choose_spec, nofun⟩
  | getUser now cred name pw =>
    simp only [own] at h
    split at h <;>
    · simp only [Option.some.injEq, Prod.mk.injEq] at h; obtain ⟨rfl, rfl⟩ := h
      exact .inl ⟨x.2.1, hx, nofun⟩
  | store now cred name =>
    simp only [own, Option.some.injEq, Prod.mk.injEq] at h; obtain ⟨rfl, rfl⟩ := h
    rcases mem_insert hs hx with rfl | hx
    · exact .inr (.inl ⟨now, rfl, rfl⟩)
    · exact .inl ⟨x.2.1, hx, nofun⟩
  | login =>
    simp only [own] at h
    split at h <;>
    · simp only [Option.some.injEq, Prod.mk.injEq] at h; obtain ⟨rfl, rfl⟩ := h
      exact .inl ⟨x.2.1, hx, nofun⟩
  | draw acc =>
    simp only [own, Option.some.injEq, Prod.mk.injEq] at h; obtain ⟨rfl, rfl⟩ := h
    exact .inl ⟨x.2.1, hx, nofun⟩
  | drawn acc pos =>
    simp only [own, Option.some.injEq, Prod.mk.injEq] at h; obtain ⟨rfl, rfl⟩ := h
    exact .inl ⟨x.2.1, hx, nofun⟩
  | loginClock c =>
    simp only [own, Option.some.injEq, Prod.mk.injEq] at h; obtain ⟨rfl, rfl⟩ := h
    exact .inl ⟨x.2.1, hx, nofun⟩
  | insert now c =>
    simp only [own] at h
    split at h
    · cases h
    · simp only [Option.some.injEq, Prod.mk.injEq] at h; obtain ⟨rfl, rfl⟩ := h
      rcases mem_insert hs hx with rfl | hx
      · exact .inr (.inr ⟨now, rfl, rfl, rfl⟩)
      · exact .inl ⟨x.2.1, hx, nofun⟩
  | logout =>
    simp only [own] at h
    split at h
    · cases h
    · simp only [Option.some.injEq, Prod.mk.injEq] at h; obtain ⟨rfl, rfl⟩ := h
      have h1 := (lookup_eq_some (sorted_erase hs _)).2 (show (x.1, x.2) ∈ _ from hx)
      rw [lookup_erase] at h1
      split at h1
      · cases h1
      next hne => exact .inl ⟨x.2.1, (lookup_eq_some hs).1 h1, fun _ => hne⟩
  | done v => cases h
  | returned v => cases h

/-- A logout that is decided after a step was decided before it, unless the step is its own. -/
theorem entry_mono {cfg : Cfg} {t0 : Nat} {tr : List Act} {s s' : TSt} {x : Act} {c name : Bytes} (hb : Base cfg t0 tr s)
    (ha : All cfg tr s) (hE : Entry cfg tr s c name) (st : Steps cfg s x s')
    (hlog : ∀ i req, x = .step i → s.calls i = some (req, .logout) → sessionCookie cfg.env req ≠ c) :
    Entry cfg (tr ++ [x]) s' c name := by
  unfold Entry at hE ⊢
  cases hk : cfg.kind with
  | basic => rw [hk] at hE; exact hE.append _
  | cookie o =>
    rw [hk] at hE
    obtain ⟨j, lreq, a1, a2, h1, h2, h3, h4, h5, h6⟩ := hE
    refine ⟨j, lreq, a1, a2 ++ [x], by rw [h1, List.append_assoc], h2, h3, h4, ext_step st _ _ h5, ?_⟩
    intro k kreq hc hlo hv
    have old : ∀ i, k ≠ i → (∀ r, x ≠ .call k r) → s'.calls k = s.calls k → Called a1 k := by
      intro i hki hx hs
      rcases List.mem_append.1 hc with hc | hc
      · exact h6 k kreq hc hlo (by unfold verdict at hv ⊢; rwa [hs] at hv)
      · exact absurd (List.mem_singleton.1 hc).symm (hx kreq)
    cases st with
    | call hcall =>
      rename_i i req
      by_cases hki : k = i
      · subst hki
        have hreq : kreq = req := by
          rcases List.mem_append.1 hc with hc | hc
          · exact absurd ⟨kreq, hc⟩ (hb.uncalled k hcall).1
          · cases List.mem_singleton.1 hc; rfl
        subst hreq
        have hf : first cfg kreq = .logout := by
          obtain ⟨l1, l2, l3, l4⟩ := hlo
          unfold first
          rw [hk]
          dsimp only
          rw [stripSlash_eq, if_neg (fun h => h.2 l1), if_neg l2, if_neg]
          rw [l3]; intro h; exact l4 (by simpa using h)
        rw [hf] at hv
        exact absurd (by unfold verdict; rw [set_self]) hv
      · exact old i hki (fun r h => by cases h; exact hki rfl) (set_other _ _ _ hki)
    | step hcall ho =>
      rename_i i req pc sh pc'
      by_cases hki : k = i
      · subst hki
        have hreq : kreq = req := by
          rcases List.mem_append.1 hc with hc | hc
          · exact ((hb.called k _ _ hcall).1 kreq).1 hc
          · cases List.mem_singleton.1 hc
        subst hreq
        obtain ⟨l1, l2, l3, l4⟩ := hlo
        have plain : ¬Plain cfg kreq := fun h => (h o hk).2 l1
        have nolog : ∀ o' nm, cfg.kind = .cookie o' → ¬During tr k (fun a => LogsIn cfg.env o' (admin a) kreq nm) := by
          rintro o' nm hk' ⟨_, _, _, _, _, h⟩
          rw [hk] at hk'; cases hk'
          exact l2 h.1
        have hf := ha.facts k _ _ hcall
        cases pc with
        | empty => exact absurd hf plain
        | lists => exact absurd hf.1 plain
        | clock => exact absurd hf.1 plain
        | cleanup => exact absurd hf.1 plain
        | expire => exact absurd hf.1 plain
        | lookup => exact absurd hf.1.1 plain
        | getUser => exact absurd hf.2.1.1 plain
        | store => exact absurd hf.2.1.1 plain
        | login => obtain ⟨o', hk', h⟩ := hf; rw [hk] at hk'; cases hk'; exact absurd h l2
        | draw => obtain ⟨o', hk', h⟩ := hf; exact absurd h (nolog _ _ hk')
        | drawn => obtain ⟨o', hk', h⟩ := hf; exact absurd h (nolog _ _ hk')
        | loginClock => obtain ⟨o', hk', h⟩ := hf; exact absurd h (nolog _ _ hk')
        | insert => obtain ⟨o', hk', h⟩ := hf; exact absurd h (nolog _ _ hk')
        | logout => exact absurd l3 (hlog k kreq rfl hcall)
        | done => cases ho
        | returned => cases ho
      · exact old i hki nofun (set_other _ _ _ hki)
    | ret hcall =>
      rename_i i req v
      by_cases hki : k = i
      · subst hki
        rcases List.mem_append.1 hc with hc | hc
        · exact h6 k kreq hc hlo (by rw [(verdict_eq hcall v).2 (.inl rfl)]; nofun)
        · cases List.mem_singleton.1 hc
      · exact old i hki nofun (set_other _ _ _ hki)
    | users => exact old (k + 1) (by omega) nofun rfl
    | restrict => exact old (k + 1) (by omega) nofun rfl
    | permit => exact old (k + 1) (by omega) nofun rfl
    | tick => exact old (k + 1) (by omega) nofun rfl

/-- The facts about a call after its own step. -/
theorem facts_step {cfg : Cfg} {t0 : Nat} {tr : List Act} {s s' : TSt} {i : Nat} {req : Msg} {pc : Pc} {sh : Shared} {pc' : Pc}
    (hb : Base cfg t0 tr s) (ha : All cfg tr s) (hc : s.calls i = some (req, pc))
    (ho : own cfg i s.sh req pc = some (sh, pc')) (he : Ext s s') : Facts cfg (tr ++ [.step i]) s' i req pc' := by
  have hf := ha.facts i _ _ hc
  have hcalled : Called tr i := ⟨req, ((hb.called i _ _ hc).1 req).2 rfl⟩
  have hnr : ¬Returned tr i := fun ⟨v, hv⟩ => (own_keeps ho).2.2.2.2.2.1 v (((hb.called i _ _ hc).2 v).1 hv)
  have now : ∀ {P : List Act → Prop}, P tr → During (tr ++ [.step i]) i P := fun h => (During.now hcalled hnr h).append _
  cases pc with
  | empty =>
    simp only [own, Option.some.injEq, Prod.mk.injEq] at ho; obtain ⟨rfl, rfl⟩ := ho
    split
    next h => exact ⟨hf, .inl (now fun hn => by rw [(usersExist_iff hb).2 hn.1] at h; cases h)⟩
    next h => exact ⟨hf, now ((usersExist_iff hb).1 (by simpa using h))⟩
  | lists =>
    simp only [own, Option.some.injEq, Prod.mk.injEq] at ho; obtain ⟨rfl, rfl⟩ := ho
    split
    next h =>
      have hask := (listsAsk_iff hb req).1 h
      unfold needed
      split
      next hk =>
        exact ⟨hf.1, (fun ⟨o, h, _⟩ => by rw [hk] at h; cases h), hf.2.append _, now hask⟩
      next o hk =>
        split
        next hp =>
          simp only [Bool.and_eq_true, Bool.not_eq_true', beq_iff_eq] at hp
          exact ⟨hf.1, .inr ⟨o, hk, fun h => (by rw [h] at hp; cases hp.1), hp.2⟩⟩
        next hp =>
          refine ⟨hf.1, ?_, hf.2.append _, now hask⟩
          rintro ⟨o', h, h1, h2⟩
          rw [hk] at h; cases h
          apply hp
          simp only [Bool.and_eq_true, Bool.not_eq_true', beq_iff_eq]
          exact ⟨by simpa using h1, h2⟩
    next h => exact ⟨hf.1, .inl (now fun hn => h ((listsAsk_iff hb req).2 hn.2))⟩
  | clock =>
    simp only [own, Option.some.injEq, Prod.mk.injEq] at ho; obtain ⟨rfl, rfl⟩ := ho
    exact Asked.append hf _
  | cleanup t =>
    simp only [own, Option.some.injEq, Prod.mk.injEq] at ho; obtain ⟨rfl, rfl⟩ := ho
    split
    · exact Asked.append hf _
    · exact facts_expired (Asked.append hf _) t
  | expire t =>
    simp only [own] at ho
    split at ho
    · cases ho
    · simp only [Option.some.injEq, Prod.mk.injEq] at ho; obtain ⟨rfl, rfl⟩ := ho
      exact facts_expired (Asked.append hf _) t
  | lookup t =>
    obtain ⟨hask, hcred⟩ := hf
    simp only [own] at ho
    split at ho
    · cases ho
    · simp only [Option.some.injEq] at ho
      unfold lookUp at ho
      split at ho
      next hk =>
        rw [hk] at hcred
        obtain ⟨cred, hp⟩ := hcred
        rw [(presented_iff ..).2 hp] at ho
        dsimp only at ho
        split at ho
        next t' name hl =>
          cases ho
          have hE := ha.cache _ ((lookup_eq_some hb.sorted).1 hl)
          unfold Entry at hE
          rw [hk] at hE
          refine ⟨hask.append _, ?_⟩
          rw [hk]
          exact ⟨cred, hp, Verified.append hE _⟩
        · split at ho
          next hpc =>
            cases ho
            refine why_unauthorized (s := s') hk (hask.append _) (.inr ⟨cred, hp, now fun name hcor => ?_⟩)
            obtain ⟨pw, h, _⟩ := (correct_iff ..).1 hcor
            rw [hpc] at h; cases h
          next name pw hpc => cases ho; exact ⟨hk, hask.append _, hp, hpc⟩
      next o hk =>
        rw [hk] at hcred
        dsimp only at ho
        split at ho
        next t' name hl =>
          cases ho
          have hE := ha.cache _ ((lookup_eq_some hb.sorted).1 hl)
          unfold Entry at hE
          rw [hk] at hE
          obtain ⟨j, lreq, a1, a2, h1, h2, h3, h4, h5, h6⟩ := hE
          refine ⟨hask.append _, ?_⟩
          rw [hk]
          refine ⟨hcred, now ⟨j, lreq, a1, a2, h1, h2, h3, h4, he _ _ h5, fun k kreq hk1 hk2 hk3 => h6 k kreq hk1 hk2 ?_⟩⟩
          obtain ⟨v, hv⟩ := hk3
          cases hck : s.calls k with
          | none => exact absurd ⟨v, hv⟩ (hb.uncalled k hck).2
          | some p =>
            obtain ⟨r, pc⟩ := p
            rw [(verdict_eq hck v).2 (.inr (((hb.called k _ _ hck).2 v).1 hv))]
            nofun
        · cases ho
          exact why_refuse hk (.inl (hask.append _))
  | getUser t cred name pw =>
    obtain ⟨hk, hask, hp, hpc⟩ := hf
    simp only [own] at ho
    split at ho
    next hg =>
      simp only [Option.some.injEq, Prod.mk.injEq] at ho; obtain ⟨rfl, rfl⟩ := ho
      refine why_unauthorized (s := s') hk (hask.append _) (.inr ⟨cred, hp, now fun n hcor => ?_⟩)
      obtain ⟨pw', h, h'⟩ := (correct_iff ..).1 hcor
      rw [hpc] at h; cases h
      rw [← users_eq hb, hg] at h'; cases h'
    next hg =>
      simp only [Option.some.injEq, Prod.mk.injEq] at ho; obtain ⟨rfl, rfl⟩ := ho
      refine ⟨hk, hask.append _, hp, now ((correct_iff ..).2 ⟨pw, hpc, ?_⟩)⟩
      rw [← users_eq hb, hg]; rfl
  | store t cred name =>
    obtain ⟨hk, hask, hp, hcor⟩ := hf
    simp only [own, Option.some.injEq, Prod.mk.injEq] at ho; obtain ⟨rfl, rfl⟩ := ho
    refine ⟨hask.append _, ?_⟩
    rw [hk]
    exact ⟨cred, hp, i, req, List.mem_append_left _ (((hb.called i _ _ hc).1 req).2 rfl), hp, hcor.append _⟩
  | login =>
    obtain ⟨o, hk, hl⟩ := hf
    simp only [own] at ho
    split at ho
    next hg =>
      simp only [Option.some.injEq, Prod.mk.injEq] at ho; obtain ⟨rfl, rfl⟩ := ho
      unfold refusal
      rw [hk]
      refine why_refuse hk (.inr ⟨hl, now fun n hn => ?_⟩)
      obtain ⟨_, rfl, h⟩ := hn
      rw [← users_eq hb, hg] at h; cases h
    next hg =>
      simp only [Option.some.injEq, Prod.mk.injEq] at ho; obtain ⟨rfl, rfl⟩ := ho
      refine ⟨o, hk, now ⟨hl, rfl, ?_⟩⟩
      rw [← users_eq hb, hg]; rfl
  | draw acc =>
    simp only [own, Option.some.injEq, Prod.mk.injEq] at ho; obtain ⟨rfl, rfl⟩ := ho
    obtain ⟨o, hk, hl⟩ := hf
    exact ⟨o, hk, hl.append _⟩
  | drawn acc pos =>
    simp only [own, Option.some.injEq, Prod.mk.injEq] at ho; obtain ⟨rfl, rfl⟩ := ho
    obtain ⟨o, hk, hl⟩ := hf
    split <;> exact ⟨o, hk, hl.append _⟩
  | loginClock c =>
    simp only [own, Option.some.injEq, Prod.mk.injEq] at ho; obtain ⟨rfl, rfl⟩ := ho
    obtain ⟨o, hk, hl⟩ := hf
    exact ⟨o, hk, hl.append _⟩
  | insert t c =>
    obtain ⟨o, hk, hl⟩ := hf
    simp only [own] at ho
    split at ho
    · cases ho
    · simp only [Option.some.injEq, Prod.mk.injEq] at ho; obtain ⟨rfl, rfl⟩ := ho
      exact ⟨o, hk, _, hl.append _⟩
  | logout =>
    obtain ⟨o, hk, hl⟩ := hf
    simp only [own] at ho
    split at ho
    · cases ho
    · simp only [Option.some.injEq, Prod.mk.injEq] at ho; obtain ⟨rfl, rfl⟩ := ho
      exact ⟨o, hk, hl.1, hl.2.1⟩
  | done v => cases ho
  | returned v => cases ho

theorem facts_first {cfg : Cfg} {tr : List Act} {s : TSt} {i : Nat} (req : Msg) : Facts cfg tr s i req (first cfg req) := by
  unfold first
  split
  next hk => exact fun o h => by rw [hk] at h; cases h
  next o hk =>
    dsimp only
    rw [stripSlash_eq]
    split
    next h => exact fun o' h' => by rw [hk] at h'; cases h'; exact h
    next h =>
      split
      next hl => exact ⟨o, hk, hl⟩
      next hl =>
        have hlo : noSlash req.resource = o.logout := by
          by_cases h' : noSlash req.resource = o.logout
          · exact h'
          · exact absurd ⟨hl, h'⟩ h
        split
        · exact ⟨o, hk, hlo, hl⟩
        next hc => exact ⟨o, hk, hlo, hl, rfl, fun h => hc (by simp [h])⟩

theorem all {cfg : Cfg} {t0 : Nat} {tr : List Act} {s : TSt} (h : run cfg t0 tr = some s) : All cfg tr s := by
  refine run_induct (P := All cfg) ⟨nofun, nofun⟩ ?_ h
  clear h tr s
  intro tr s x s' hr ha hx
  have hb := base hr
  have st := steps_of hx
  have he := ext_step st
  constructor
  · intro k r pc hk
    have old : s'.calls k = s.calls k → Facts cfg (tr ++ [x]) s' k r pc := fun h =>
      (ha.facts k r pc (by rw [← h]; exact hk)).mono _ he
    cases st with
    | call hc =>
      rename_i i req
      by_cases hki : k = i
      · subst hki; rw [set_self] at hk; cases hk; exact facts_first _
      · exact old (set_other _ _ _ hki)
    | step hc ho =>
      rename_i i req pc0 sh pc'
      by_cases hki : k = i
      · subst hki; rw [set_self] at hk; cases hk; exact facts_step hb ha hc ho he
      · exact old (set_other _ _ _ hki)
    | ret hc =>
      rename_i i req v
      by_cases hki : k = i
      · subst hki; rw [set_self] at hk; cases hk
        exact Why.mono (ha.facts k _ _ hc) _ he
      · exact old (set_other _ _ _ hki)
    | users => exact old rfl
    | restrict => exact old rfl
    | permit => exact old rfl
    | tick => exact old rfl
  · intro y hy
    have old : (∃ t, (y.1, (t, y.2.2)) ∈ s.sh.auth.cache) →
        (∀ i req, x = .step i → s.calls i = some (req, .logout) → sessionCookie cfg.env req ≠ y.1) →
        Entry cfg (tr ++ [x]) s' y.1 y.2.2 := fun ⟨t, ht⟩ h => entry_mono hb ha (ha.cache (y.1, (t, y.2.2)) ht) st h
    have st' := st
    cases st with
    | call hc => exact old ⟨_, hy⟩ nofun
    | ret hc => exact old ⟨_, hy⟩ nofun
    | users => exact old ⟨_, hy⟩ nofun
    | restrict => exact old ⟨_, hy⟩ nofun
    | permit => exact old ⟨_, hy⟩ nofun
    | tick => exact old ⟨_, hy⟩ nofun
    | step hc ho =>
      rename_i i req pc sh pc'
      rcases own_cache ho hb.sorted y hy with ⟨t, ht, hl⟩ | ⟨now, hp, _⟩ | ⟨now, hp, hn, _⟩
      · refine old ⟨t, ht⟩ ?_
        intro i' req' hi' hc'
        cases hi'
        rw [hc] at hc'; cases hc'
        exact (hl rfl).symm
      · have hf := ha.facts i _ _ hc
        rw [hp] at hf
        obtain ⟨hk, _, hpr, hcor⟩ := hf
        unfold Entry
        rw [hk]
        exact ⟨i, req, List.mem_append_left _ (((hb.called i _ _ hc).1 req).2 rfl), hpr, hcor.append _⟩
      · have hf := ha.facts i _ _ hc
        rw [hp] at hf
        obtain ⟨o, hk, hcor⟩ := hf
        unfold Entry
        rw [hk]
        have hcall := ((hb.called i _ _ hc).1 req).2 rfl
        have hpc : pc' = .done (.loggedIn y.1) := by
          subst hp
          simp only [own] at ho
          split at ho
          · cases ho
          · simp only [Option.some.injEq, Prod.mk.injEq] at ho; exact ho.2.symm
        refine ⟨i, req, tr, [.step i], rfl, hcall, by rw [hn]; exact hcor, ?_, ?_, ?_⟩
        · rintro ⟨v, hv⟩
          exact (own_keeps ho).2.2.2.2.2.1 v (((hb.called i _ _ hc).2 v).1 hv)
        · exact (verdict_eq (set_self ..) _).2 (.inl hpc)
        · intro k kreq hk1 _ _
          rcases List.mem_append.1 hk1 with h | h
          · exact ⟨kreq, h⟩
          · cases List.mem_singleton.1 h

end Verif.AuthThreads
