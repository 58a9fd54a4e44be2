import Verif.Lemmas.AuthThreadsDraw
import Verif.Props.Auth
import Verif.Props.Base64
/-
C76: authentication of requests that several threads handle at once.
-/
namespace Verif.Props.AuthThreads
open Verif.AuthThreads Verif.Auth Verif.Server Verif.Users Verif.SMap Spec.Dispatch Spec.Auth Spec.AuthThreads

/-! ### What `verdict` means -/

/-- What a call returned is what it was decided to answer. -/
theorem returned_decided {cfg : Cfg} {t0 : Nat} {tr : List Act} {s : TSt} (h : run cfg t0 tr = some s) {i : Nat} {v : Verdict}
    (hr : .ret i v ∈ tr) : verdict s i = some v := by
  have hb := base h
  cases hc : s.calls i with
  | none => exact absurd ⟨v, hr⟩ (hb.uncalled i hc).2
  | some c => exact (verdict_eq (req := c.1) (pc := c.2) hc v).2 (.inr (((hb.called i c.1 c.2 hc).2 v).1 hr))

theorem ext_more {cfg : Cfg} {t0 : Nat} {tr : List Act} {s : TSt} (h : run cfg t0 tr = some s) (more : List Act) :
    ∀ s', run cfg t0 (tr ++ more) = some s' → Ext s s' := by
  induction more using List.reverseRecOn with
  | nil =>
    intro s' h'
    rw [List.append_nil, h] at h'
    cases h'
    exact fun _ _ hv => hv
  | append_singleton more x ih =>
    intro s' h'
    rw [← List.append_assoc] at h'
    obtain ⟨s1, h1, h2⟩ := (run_snoc ..).1 h'
    exact fun j v hv => ext_step (steps_of h2) j v (ih s1 h1 j v hv)

/-- A decided call returns what was decided, whatever the threads do. -/
theorem decided_returned {cfg : Cfg} {t0 : Nat} {tr more : List Act} {s s' : TSt} (h : run cfg t0 tr = some s)
    (h' : run cfg t0 (tr ++ more) = some s') {i : Nat} {v w : Verdict} (hv : verdict s i = some v)
    (hr : .ret i w ∈ tr ++ more) : w = v := by
  have h1 := returned_decided h' hr
  rw [ext_more h more s' h' i v hv] at h1
  cases h1; rfl

private theorem at_ret {cfg : Cfg} {t0 : Nat} {tr : List Act} {s' : TSt} {i : Nat} {v : Verdict} {req : Msg}
    (h : run cfg t0 (tr ++ [.ret i v]) = some s') (hc : .call i req ∈ tr) :
    ∃ s, run cfg t0 tr = some s ∧ s.calls i = some (req, .done v) ∧ Why cfg tr s i req v ∧ Ext s s' := by
  obtain ⟨s, h1, h2⟩ := (run_snoc ..).1 h
  have hb := base h1
  have he := ext_step (steps_of h2)
  cases steps_of h2 with
  | ret hd =>
    rename_i r
    have : req = r := ((hb.called i _ _ hd).1 req).1 hc
    subst this
    exact ⟨s, h1, hd, (all h1).facts i _ _ hd, he⟩

/-! ### Requests that are let through -/

/-- C76: a request is passed on without a user only if at some moment of the call it needed no authentication, or it is
    for the page that users are sent to for logging in. -/
theorem open_sound {cfg : Cfg} {t0 : Nat} {tr : List Act} {s : TSt} {i : Nat} {req : Msg}
    (h : run cfg t0 (tr ++ [.ret i .open_]) = some s) (hc : .call i req ∈ tr) :
    Plain cfg req ∧ (During tr i (fun a => ¬Needs cfg.env (admin a) req) ∨ LoginPage cfg req) := by
  obtain ⟨_, _, _, hw, _⟩ := at_ret h hc
  exact hw

/-- C76 for basic authentication: a request is passed on with a user only if it carries credentials for which the user
    and password were found correct while this or another call that carried them ran. -/
theorem basic_sound {cfg : Cfg} (hk : cfg.kind = .basic) {t0 : Nat} {tr : List Act} {s : TSt} {i : Nat} {req : Msg}
    {name : Bytes} (h : run cfg t0 (tr ++ [.ret i (.user name)]) = some s) (hc : .call i req ∈ tr) :
    Asked cfg tr i req ∧ ∃ cred, Presents cfg.env req cred ∧ ∃ j jreq, .call j jreq ∈ tr ∧ Presents cfg.env jreq cred ∧
      During tr j fun a => Correct cfg.env (admin a) cred name := by
  obtain ⟨s0, _, _, hw, _⟩ := at_ret h hc
  unfold Why at hw
  rw [hk] at hw
  exact hw

private theorem call_of_ret {cfg : Cfg} {t0 : Nat} {a b : List Act} {s : TSt} (h : run cfg t0 (a ++ b) = some s) {k : Nat}
    {req : Msg} (hc : .call k req ∈ a ++ b) (hr : Called a k ∨ Returned a k) : .call k req ∈ a := by
  obtain ⟨sa, ha⟩ := run_prefix h
  have hb := base ha
  cases hk : sa.calls k with
  | none => rcases hr with hr | hr
            · exact absurd hr (hb.uncalled k hk).1
            · exact absurd hr (hb.uncalled k hk).2
  | some c =>
    have h1 := ((hb.called k c.1 c.2 hk).1 c.1).2 rfl
    have hB := base h
    cases hK : s.calls k with
    | none => exact absurd ⟨req, hc⟩ (hB.uncalled k hK).1
    | some d =>
      have e1 := ((hB.called k d.1 d.2 hK).1 req).1 hc
      have e2 := ((hB.called k d.1 d.2 hK).1 c.1).1 (List.mem_append_left _ h1)
      rw [e1, ← e2]; exact h1

/-- C76 for cookie authentication: a request is passed on with a user only if its cookie is that of a session of this
    user. A login call that was decided to answer with this cookie found the user's password correct, and no call that
    logs the session out came between: began after that login had returned, and returned before the request began. -/
theorem session_sound {cfg : Cfg} {o : Opts} (hk : cfg.kind = .cookie o) {t0 : Nat} {tr : List Act} {s : TSt} {i : Nat}
    {req : Msg} {name : Bytes} (h : run cfg t0 (tr ++ [.ret i (.user name)]) = some s) (hc : .call i req ∈ tr) :
    Asked cfg tr i req ∧ sessionCookie cfg.env req ≠ [] ∧
    ∃ j lreq, .call j lreq ∈ tr ∧ During tr j (fun a => LogsIn cfg.env o (admin a) lreq name) ∧
      verdict s j = some (.loggedIn (sessionCookie cfg.env req)) ∧
      ∀ k kreq, .call k kreq ∈ tr → LogsOut cfg.env o kreq (sessionCookie cfg.env req) → Before tr k i → ¬Before tr j k := by
  obtain ⟨s0, hr, hd, hw, he⟩ := at_ret h hc
  unfold Why at hw
  rw [hk] at hw
  obtain ⟨h1, h2, a, b, rfl, hca, _, j, lreq, a1, a2, rfl, h4, h5, h6, h7, h8⟩ := hw
  refine ⟨h1, h2, j, lreq, ?_, (h5.append a2).append b, he _ _ h7, ?_⟩
  · simp [h4]
  · rintro k kreq hkc hout ⟨p, q, hpq, hpk, hpi⟩ ⟨p', q', hpq', hpj, hpk'⟩
    have hret : Returned (a1 ++ a2) k := by
      rcases moments hpq with ⟨e, he⟩ | ⟨e, he⟩
      · rw [he]; exact hpk.append e
      · exact absurd (he ▸ hca.append e) hpi
    have h9 := h8 k kreq (call_of_ret hr hkc (.inr hret)) hout hret
    rw [List.append_assoc] at hpq'
    rcases moments hpq' with ⟨e, he⟩ | ⟨e, he⟩
    · exact h6 (he ▸ hpj.append e)
    · exact hpk' (he ▸ h9.append e)

/-! ### Requests that are refused -/

/-- C76 for basic authentication: a request is refused only if it carries no credentials, or they were not correct at some
    moment of the call; and only if, at moments of the call, there were users and the lists asked for authentication. -/
theorem basic_refused {cfg : Cfg} (hk : cfg.kind = .basic) {t0 : Nat} {tr : List Act} {s : TSt} {i : Nat} {req : Msg}
    (h : run cfg t0 (tr ++ [.ret i .unauthorized]) = some s) (hc : .call i req ∈ tr) :
    Asked cfg tr i req ∧ ((∀ cred, ¬Presents cfg.env req cred) ∨
      ∃ cred, Presents cfg.env req cred ∧ During tr i fun a => ∀ name, ¬Correct cfg.env (admin a) cred name) := by
  obtain ⟨s0, _, _, hw, _⟩ := at_ret h hc
  unfold Why at hw
  dsimp only at hw
  rw [hk] at hw
  exact hw

/-- C76 for basic authentication: a request with credentials that are correct for the whole call is passed on. -/
theorem basic_accepted {cfg : Cfg} (hk : cfg.kind = .basic) {t0 : Nat} {tr : List Act} {s : TSt} {i : Nat} {req : Msg}
    {v : Verdict} (h : run cfg t0 (tr ++ [.ret i v]) = some s) (hc : .call i req ∈ tr) {cred : Bytes}
    (hp : Presents cfg.env req cred)
    (hgood : ¬During tr i fun a => ∀ name, ¬Correct cfg.env (admin a) cred name) : v.pass = true := by
  obtain ⟨s0, _, _, hw, _⟩ := at_ret h hc
  cases v with
  | open_ => rfl
  | user n => rfl
  | loggedIn c => obtain ⟨o, h1, _⟩ := hw; rw [hk] at h1; cases h1
  | loggedOut => obtain ⟨o, h1, _⟩ := hw; rw [hk] at h1; cases h1
  | unauthorized =>
    obtain ⟨_, h1 | ⟨cred', h1, h2⟩⟩ := basic_refused hk h hc
    · exact absurd hp (h1 cred)
    · have : cred' = cred := by
        have := h1.1.symm.trans hp.1
        exact List.append_cancel_left this
      subst this
      exact absurd h2 hgood
  | redirectLogin =>
    unfold Why at hw
    dsimp only at hw
    rw [hk] at hw
    obtain ⟨_, h1 | ⟨cred', h1, h2⟩⟩ := hw
    · exact absurd hp (h1 cred)
    · have : cred' = cred := by
        have := h1.1.symm.trans hp.1
        exact List.append_cancel_left this
      subst this
      exact absurd h2 hgood

/-- C76 in part: a session can be used. (Missing: without the condition that no other login was given the same cookie, see
    `concurrent_logins_share_session`.) A login that returned a cookie logged somebody in; a request with this cookie that begins
    later is passed on, without a user or as this one, if nobody logged the session out, no more than an hour has passed
    since the login began, no other login was given the same cookie, and nobody had used it before. -/
theorem session_usable_partial {cfg : Cfg} {o : Opts} (hk : cfg.kind = .cookie o) {t0 : Nat} {a b : List Act} {s : TSt} {i j : Nat}
    {req lreq : Msg} {c : Bytes} {v : Verdict}
    (h : run cfg t0 ((a ++ .call j lreq :: b) ++ [.ret i v]) = some s)
    (hlogin : .ret j (.loggedIn c) ∈ b) (hafter : Before (a ++ .call j lreq :: b) j i)
    (hreq : .call i req ∈ a ++ .call j lreq :: b) (hplain : Plain cfg req) (hcookie : sessionCookie cfg.env req = c)
    (hne : c ≠ []) (hguess : ∀ k kreq, .call k kreq ∈ a → sessionCookie cfg.env kreq ≠ c)
    (hout : ∀ k kreq, .call k kreq ∈ a ++ .call j lreq :: b → ¬LogsOut cfg.env o kreq c)
    (htime : elapsed b ≤ 3600) (hunique : ∀ j', verdict s j' = some (.loggedIn c) → j' = j) :
    v = .open_ ∨ ∃ name, v = .user name ∧ During (a ++ .call j lreq :: b) j fun m => LogsIn cfg.env o (admin m) lreq name := by
  subst hcookie
  obtain ⟨s0, hr, hd, hw, he⟩ := at_ret h hreq
  have hjl : .call j lreq ∈ a ++ .call j lreq :: b := by simp
  by_cases r1 : v = .open_
  · exact .inl r1
  by_cases r2 : ∃ n, v = .user n
  · obtain ⟨name, rfl⟩ := r2
    obtain ⟨_, _, j', lreq', h1, h2, h3, _⟩ := session_sound hk h hreq
    have := hunique j' h3
    subst this
    have hB := base hr
    have e : lreq' = lreq := by
      cases hK : s0.calls j' with
      | none => exact absurd ⟨lreq, hjl⟩ (hB.uncalled j' hK).1
      | some d => rw [((hB.called j' d.1 d.2 hK).1 lreq').1 h1, ((hB.called j' d.1 d.2 hK).1 lreq).1 hjl]
    subst e
    exact .inr ⟨name, rfl, h2⟩
  by_cases r4 : v = .loggedOut
  · subst r4
    obtain ⟨o', hk', h1, _⟩ := hw
    exact absurd h1 (hplain o' hk').2
  exfalso
  have hv : verdict s0 i = some v := (verdict_eq hd v).2 (.inl rfl)
  rcases refused_moment hk hr r1 (fun n hn => r2 ⟨n, hn⟩) r4 i req ⟨_, hd⟩ hplain hv with h1 | h1
  · exact hne h1
  obtain ⟨m, m', hm, hmi, _, sm, hsm, hnone⟩ := h1
  -- the login had returned at this moment
  obtain ⟨p, q, hpq, hpj, hpi⟩ := hafter
  have hmj : Returned m j := by
    rcases moments (hm.symm.trans hpq) with ⟨e, he⟩ | ⟨e, he⟩
    · rw [he]; exact hpj.append e
    · exact absurd (he ▸ hmi.append e) hpi
  have hrm : run cfg t0 (m ++ m') = some s0 := hm ▸ hr
  have hcj : .call j lreq ∈ m := call_of_ret hrm (hm ▸ hjl) (.inr hmj)
  have hmv : verdict sm j = some (.loggedIn (sessionCookie cfg.env req)) := by
    obtain ⟨w, hw⟩ := hmj
    have e1 := returned_decided hsm hw
    have e2 := returned_decided hr (i := j) (v := .loggedIn (sessionCookie cfg.env req)) (by simp [hlogin])
    have e3 := ext_more hsm m' s0 hrm j w e1
    rw [e2] at e3; cases e3; exact e1
  -- the moment is after the beginning of the login
  obtain ⟨b', hb'⟩ : ∃ b', m = a ++ .call j lreq :: b' := by
    rcases moments hm with ⟨e, he⟩ | ⟨e, he⟩
    · exfalso
      rw [he] at hr
      have hnot : ¬Called a j := by
        obtain ⟨sa, hsa⟩ : ∃ sa, run cfg t0 (a ++ [.call j lreq]) = some sa := by
          refine run_prefix (b := b) (s := s0) ?_
          rw [List.append_assoc]
          show run cfg t0 (a ++ .call j lreq :: b) = some s0
          rw [he]; exact hr
        obtain ⟨s1, hs1, hs2⟩ := (run_snoc ..).1 hsa
        cases steps_of hs2 with
        | call hc => exact ((base hs1).uncalled j hc).1
      exact hnot (he ▸ ⟨lreq, List.mem_append_left _ hcj⟩)
    · rcases e with _ | ⟨x, e⟩
      · exfalso
        have hnot : ¬Called a j := by
          obtain ⟨sa, hsa⟩ : ∃ sa, run cfg t0 (a ++ [.call j lreq]) = some sa := by
            refine run_prefix (b := b) (s := s0) ?_
            rw [List.append_assoc]
            exact hr
          obtain ⟨s1, hs1, hs2⟩ := (run_snoc ..).1 hsa
          cases steps_of hs2 with
          | call hc => exact ((base hs1).uncalled j hc).1
        rw [List.append_nil] at he
        exact hnot (he ▸ ⟨lreq, hcj⟩)
      · have := hm
        rw [he, List.append_assoc] at this
        have := List.append_cancel_left this
        simp only [List.cons_append, List.cons.injEq] at this
        exact ⟨e, by rw [he, ← this.1]⟩
  subst hb'
  have hsub : ∀ x, x ∈ a ++ .call j lreq :: b' → x ∈ a ++ .call j lreq :: b := fun x hx => by
    rw [hm]; exact List.mem_append_left _ hx
  have hel : elapsed (a ++ .call j lreq :: b') ≤ elapsed a + 3600 := by
    have e1 := elapsed_le (a ++ .call j lreq :: b') m'
    rw [← hm, elapsed_append a (.call j lreq :: b)] at e1
    have e2 : elapsed (.call j lreq :: b) = elapsed b := by simp [elapsed]
    omega
  obtain ⟨t, nm, hmem⟩ := (session_kept hk hguess b' sm hsm (fun k kreq hx => hout k kreq (hsub _ hx)) hel
    (fun j' hj' => hunique j' (he _ _ (ext_more hsm m' s0 hrm _ _ hj')))).1 hmv
  rw [(lookup_eq_some (base hsm).sorted).2 hmem] at hnone
  cases hnone

/-! ### Random cookies -/

/-- C76: if logins do not overlap, each answers with a cookie made of its own twenty of the bytes that were drawn from the
    generator. -/
theorem cookies_disjoint {cfg : Cfg} {t0 : Nat} {tr : List Act} {s : TSt} (h : run cfg t0 tr = some s)
    (hone : OneLogin cfg tr) : ∃ start : Nat → Nat, (∀ j c, verdict s j = some (.loggedIn c) →
        c = Base64.encode (block cfg.gen (start j) 20) ∧ start j + 20 ≤ s.sh.rng) ∧
      ∀ j k c d, j ≠ k → verdict s j = some (.loggedIn c) → verdict s k = some (.loggedIn d) →
        start j + 20 ≤ start k ∨ start k + 20 ≤ start j := by
  obtain ⟨P, N, hD, hP⟩ := disjoint h hone
  have key : ∀ j c, verdict s j = some (.loggedIn c) →
      drewAt s j ∧ N j = 20 ∧ c = Base64.encode (block cfg.gen (P j) 20) ∧ P j + 20 ≤ s.sh.rng := by
    intro j c hv
    cases hc : s.calls j with
    | none => rw [verdict_none hc] at hv; cases hv
    | some x =>
      have hd := hD j x.1 x.2 hc
      rcases (verdict_eq (req := x.1) (pc := x.2) hc _).1 hv with hx | hx
      · rw [hx] at hd; exact ⟨⟨x.1, x.2, hc, by rw [hx]; rfl⟩, hd.1, hd.2.1, hd.2.2⟩
      · rw [hx] at hd; exact ⟨⟨x.1, x.2, hc, by rw [hx]; rfl⟩, hd.1, hd.2.1, hd.2.2⟩
  refine ⟨P, fun j c hv => (key j c hv).2.2, fun j k c d hjk hj hk => ?_⟩
  obtain ⟨e1, e2, _⟩ := key j c hj
  obtain ⟨f1, f2, _⟩ := key k d hk
  have := hP j k hjk e1 f1
  rw [e2, f2] at this
  exact this

/-- C76 in part: (Missing: logins that overlap.) If logins do not overlap and the bytes drawn do not repeat twenty bytes, no two logins are given the same
    cookie. -/
theorem cookies_distinct_partial {cfg : Cfg} {t0 : Nat} {tr : List Act} {s : TSt} (h : run cfg t0 tr = some s)
    (hone : OneLogin cfg tr) (hgen : ∀ p q, p + 20 ≤ q → q + 20 ≤ s.sh.rng → block cfg.gen p 20 ≠ block cfg.gen q 20) {j k : Nat} {c : Bytes}
    (hj : verdict s j = some (.loggedIn c)) (hk : verdict s k = some (.loggedIn c)) : j = k := by
  obtain ⟨start, h1, h2⟩ := cookies_disjoint h hone
  by_contra hne
  have e : block cfg.gen (start j) 20 = block cfg.gen (start k) 20 := by
    exact Props.Base64.base64_encode_injective _ _ ((h1 j c hj).1.symm.trans (h1 k c hk).1)
  rcases h2 j k c c hne hj hk with h | h
  · exact hgen _ _ h (h1 k c hk).2 e
  · exact hgen _ _ h (h1 j c hj).2 e.symm

/-! ### Exclusion -/

/-- C76: between the moment at which a call finds that its credentials are not in the cache and the moment at which it has
    stored them, no other call changes the cache. -/
theorem cache_exclusive {cfg : Cfg} {t0 : Nat} {tr : List Act} {s s' : TSt} (h : run cfg t0 tr = some s) {i k : Nat} {req : Msg}
    {now : Nat} {cred name pw : Bytes}
    (hi : s.calls i = some (req, .getUser now cred name pw) ∨ s.calls i = some (req, .store now cred name))
    (hs : run cfg t0 (tr ++ [.step k]) = some s') (hne : k ≠ i) :
    s'.sh.auth.cache = s.sh.auth.cache := by
  have hb := base h
  have hl : s.sh.lock = some i := by
    rcases hi with hi | hi
    · exact (hb.lock i).2 ⟨_, _, hi, rfl⟩
    · exact (hb.lock i).2 ⟨_, _, hi, rfl⟩
  obtain ⟨s1, h1, h2⟩ := (run_snoc ..).1 hs
  rw [h] at h1
  cases h1
  simp only [St.step] at h2
  split at h2
  · exact nomatch h2
  · rename_i r pc hk
    split at h2
    · exact nomatch h2
    · rename_i sh pc' ho
      cases h2
      have hno : pc.holds = false := by
        by_contra hh
        have := (hb.lock k).2 ⟨_, _, hk, by simpa using hh⟩
        rw [hl] at this
        exact hne (Option.some.inj this).symm
      show sh.auth.cache = s.sh.auth.cache
      cases pc <;> simp only [own, hl, Option.isSome_some, if_true, Pc.holds] at ho hno <;>
        first
        | (cases hno; done)
        | (cases ho <;> rfl)
        | (split at ho <;> cases ho <;> rfl)

/-! ### Calls end -/

/-- C76: no deadlock. While a call has not returned, some call can make its next step or return. -/
theorem progress {cfg : Cfg} {t0 : Nat} {tr : List Act} {s : TSt} (h : run cfg t0 tr = some s) {i : Nat}
    (hc : Called tr i) (hr : ¬Returned tr i) :
    ∃ k x, (x = .step k ∨ ∃ v, x = .ret k v) ∧ (run cfg t0 (tr ++ [x])).isSome = true := by
  have hb := base h
  have moves : ∀ k req pc, s.calls k = some (req, pc) → (∀ v, pc ≠ .returned v) → (pc.holds = true ∨ s.sh.lock = none) →
      ∃ k x, (x = .step k ∨ ∃ v, x = .ret k v) ∧ (run cfg t0 (tr ++ [x])).isSome = true := by
    intro k req pc hk hnr hl
    rcases own_enabled cfg k s.sh req pc hl with ⟨v, rfl | rfl⟩ | he
    · refine ⟨k, .ret k v, .inr ⟨v, rfl⟩, ?_⟩
      rw [Option.isSome_iff_exists]
      exact ⟨_, (run_snoc ..).2 ⟨s, h, by simp only [St.step, hk, if_true]; rfl⟩⟩
    · exact absurd rfl (hnr v)
    · refine ⟨k, .step k, .inl rfl, ?_⟩
      obtain ⟨⟨sh, pc'⟩, ho⟩ := Option.isSome_iff_exists.1 he
      rw [Option.isSome_iff_exists]
      exact ⟨_, (run_snoc ..).2 ⟨s, h, by simp only [St.step, hk, ho]; rfl⟩⟩
  cases hci : s.calls i with
  | none => exact absurd hc (hb.uncalled i hci).1
  | some c =>
    cases hl : s.sh.lock with
    | none =>
      exact moves i c.1 c.2 hci (fun v hv => hr ⟨v, ((hb.called i c.1 c.2 hci).2 v).2 hv⟩) (.inr hl)
    | some k =>
      obtain ⟨req, pc, hk, hh⟩ := (hb.lock k).1 hl
      exact moves k req pc hk (fun v hv => by subst hv; cases hh) (.inl hh)

/-- C76: a call makes at most 45 steps, whatever the other threads do. -/
theorem steps_bounded {cfg : Cfg} {t0 : Nat} {tr : List Act} {s : TSt} (h : run cfg t0 tr = some s) (i : Nat) :
    stepsOf tr i ≤ 45 := by
  have := steps_bound h i
  cases hc : s.calls i with
  | none => rw [this.1 hc]; omega
  | some c => have := this.2 c.1 c.2 hc; omega

/-! ### Runs -/

/-- The generator of the examples counts. -/
def basicCfg : Cfg := { env := Props.Auth.env, kind := .basic, gen := fun n => UInt8.ofNat n }
def cookieCfg : Cfg := { env := Props.Auth.env, kind := .cookie {}, gen := fun n => UInt8.ofNat n }

def setup : List Act :=
  [.users (.add (b! "ann") (b! "x")), .users (.add (b! "bob") (b! "y")), .restrict (b! "/private/"), .permit (b! "/private/pub")]

/-- `n` steps of a call. -/
def steps (n i : Nat) : List Act := List.replicate n (.step i)

/-- What the calls are decided to answer, if the actions are possible in this order. -/
def verdicts (cfg : Cfg) (tr : List Act) (n : Nat) : Option (List (Option Verdict)) :=
  (run cfg 0 tr).map fun s => (List.range n).map (verdict s)

/-- Two calls with ann's credentials, one without any and one for a page that needs none, in turns; call 1 waits for the
    mutex while call 0 checks the password. -/
def fourCalls : List Act :=
  setup ++ [.call 0 Props.Auth.annReq, .call 1 Props.Auth.annReq, .call 2 (Props.Auth.get (b! "/private/a")),
    .call 3 (Props.Auth.get (b! "/private/pub"))] ++
    [.step 0, .step 1, .step 2, .step 3, .step 0, .step 3, .step 1, .step 2, .step 0, .step 0, .step 1, .step 2, .step 2, .step 1,
     .step 0, .step 0, .step 0, .step 1, .ret 1 (.user (b! "ann")), .ret 0 (.user (b! "ann")), .ret 2 .unauthorized]

example : verdicts basicCfg fourCalls 4 =
    some [some (.user (b! "ann")), some (.user (b! "ann")), some .unauthorized, some .open_] := by decide +kernel
example : (run basicCfg 0 (fourCalls ++ [.ret 3 .open_])).isSome = true := by decide +kernel
/-- While call 0 checks the password, another call begins and makes a step (`cache_exclusive`). -/
example : (run basicCfg 0 (fourCalls.take 23 ++ [.call 9 Props.Auth.annReq, .step 9])).map
    (fun s => (s.calls 0).map fun c => c.2.holds) = some (some true) := by decide +kernel
/-- While call 0 checks the password, call 1 can not look its credentials up. -/
example : run basicCfg 0 (fourCalls.take 23) ≠ none ∧ run basicCfg 0 (fourCalls.take 23 ++ [.step 1]) = none := by
  constructor
  · intro h
    have : (run basicCfg 0 (fourCalls.take 23)).isSome = true := by decide +kernel
    rw [h] at this; cases this
  · have : (run basicCfg 0 (fourCalls.take 23 ++ [.step 1])).isNone = true := by decide +kernel
    simpa using this

def annLogin : Msg := { Props.Auth.get (b! "/login") with queries := [(b! "user", b! "ann"), (b! "pass", b! "x")] }
def bobLogin : Msg := { Props.Auth.get (b! "/login") with queries := [(b! "user", b! "bob"), (b! "pass", b! "y")] }
def firstCookie : Bytes := Base64.encode (block cookieCfg.gen 0 20)
def secondCookie : Bytes := Base64.encode (block cookieCfg.gen 20 20)
def withCookie (c r : Bytes) : Msg := { Props.Auth.get r with cookies := [(b! "pion_session_id", c)] }

/-- ann logs in, then bob does; then both use their sessions at once, and bob logs out. -/
def twoSessions : List Act :=
  setup ++ .call 0 annLogin :: steps 43 0 ++ .ret 0 (.loggedIn firstCookie) :: .call 1 bobLogin :: steps 43 1 ++
    [.ret 1 (.loggedIn secondCookie), .tick 3600, .call 2 (withCookie firstCookie (b! "/private")),
     .call 3 (withCookie secondCookie (b! "/private"))] ++ steps 4 2 ++ steps 5 3 ++
    [.ret 3 (.user (b! "bob")), .call 4 (withCookie secondCookie (b! "/logout")), .step 4, .step 2, .ret 4 .loggedOut,
     .call 5 (withCookie secondCookie (b! "/private"))] ++ steps 5 5

example : verdicts cookieCfg twoSessions 6 = some [some (.loggedIn firstCookie), some (.loggedIn secondCookie),
    some (.user (b! "ann")), some (.user (b! "bob")), some .loggedOut, some .unauthorized] := by decide +kernel
example : stepsOf twoSessions 0 = 43 := by decide +kernel
example : elapsed twoSessions = 3600 := by decide +kernel

theorem decided_called {cfg : Cfg} {t0 : Nat} {tr : List Act} {s : TSt} (h : run cfg t0 tr = some s) {i : Nat} {v : Verdict}
    (hv : verdict s i = some v) : Called tr i := by
  cases hc : s.calls i with
  | none => rw [verdict_none hc] at hv; cases hv
  | some c => exact ⟨c.1, (((base h).called i c.1 c.2 hc).1 c.1).2 rfl⟩

/-- ann logs in and, an hour later, uses the session. -/
def annLater : List Act :=
  setup ++ .call 0 annLogin :: (steps 43 0 ++
    [.ret 0 (.loggedIn firstCookie), .tick 3600, .call 1 (withCookie firstCookie (b! "/private"))] ++ steps 5 1)

theorem called_later {j : Nat} (h : Called (annLater ++ [.ret 1 (.user (b! "ann"))]) j) : j = 0 ∨ j = 1 := by
  obtain ⟨r, h⟩ := h
  simp [annLater, setup, steps] at h
  rcases h with h | h
  · exact .inl h.1
  · exact .inr h.1

/-- The hypotheses of `session_usable_partial` hold of this run. -/
example : ∃ s, run cookieCfg 0 (annLater ++ [.ret 1 (.user (b! "ann"))]) = some s ∧
    Before annLater 0 1 ∧ sessionCookie cookieCfg.env (withCookie firstCookie (b! "/private")) = firstCookie ∧ firstCookie ≠ [] ∧
    elapsed annLater = 3600 ∧ ∀ j', verdict s j' = some (.loggedIn firstCookie) → j' = 0 := by
  have hs : (run cookieCfg 0 (annLater ++ [.ret 1 (.user (b! "ann"))])).isSome = true := by decide +kernel
  obtain ⟨s, hs⟩ := Option.isSome_iff_exists.1 hs
  refine ⟨s, hs, ⟨setup ++ .call 0 annLogin :: (steps 43 0 ++ [.ret 0 (.loggedIn firstCookie)]), _,
    by simp [annLater]; rfl, ⟨.loggedIn firstCookie, by simp⟩, ?_⟩, by decide +kernel, by decide +kernel, by decide +kernel, ?_⟩
  · rintro ⟨r, h⟩
    simp [setup, steps] at h
  · intro j' hj'
    rcases called_later (decided_called hs hj') with h | h
    · exact h
    · subst h
      rw [returned_decided hs (v := .user (b! "ann")) (by simp)] at hj'
      cases hj'

/-- The hypotheses of `cookies_distinct_partial` hold of a run with two logins. -/
example : ∃ s, run cookieCfg 0 (twoSessions.take 92) = some s ∧ s.sh.rng = 40 ∧
    ∀ p q, p + 20 ≤ q → q + 20 ≤ 40 → block cookieCfg.gen p 20 ≠ block cookieCfg.gen q 20 := by
  have hs : (run cookieCfg 0 (twoSessions.take 92)).isSome = true := by decide +kernel
  obtain ⟨s, hs⟩ := Option.isSome_iff_exists.1 hs
  refine ⟨s, hs, ?_, ?_⟩
  · have : (run cookieCfg 0 (twoSessions.take 92)).map (·.sh.rng) = some 40 := by decide +kernel
    rw [hs] at this; simpa using this
  · intro p q h1 h2
    have : p = 0 := by omega
    have : q = 20 := by omega
    subst p q
    decide +kernel

/-- Logins that follow each other do not overlap. -/
example : OneLogin cookieCfg [.call 0 annLogin, .ret 0 .open_, .call 1 bobLogin] := by
  have last : ∀ a b : List Act, [.call 0 annLogin, .ret 0 .open_, .call 1 bobLogin] = a ++ b → ∀ i, Logging cookieCfg a i →
      i = (if a.length = 3 then 1 else 0) := by
    rintro a b hab i ⟨_, r, _, h1, _, h2⟩
    rcases a with _ | ⟨x, _ | ⟨y, _ | ⟨z, _ | ⟨w, a⟩⟩⟩⟩
    · cases h1
    · simp at hab; obtain ⟨rfl, _⟩ := hab
      simp at h1; simp [h1.1]
    · simp at hab; obtain ⟨rfl, rfl, _⟩ := hab
      simp at h1; simp [h1.1]
    · simp at hab; obtain ⟨rfl, rfl, rfl, _⟩ := hab
      simp at h1
      rcases h1 with h | h
      · exact absurd ⟨.open_, by simp [h.1]⟩ h2
      · simp [h.1]
    · simp at hab
  intro a b hab i k hi hk
  rw [last a b hab i hi, last a b hab k hk]

/-! ### Findings -/

/-- ann and bob log in at once; each reads the state of the generator before the other writes it. -/
def bothLogIn : List Act :=
  setup ++ [.call 0 annLogin, .call 1 bobLogin, .step 0, .step 1] ++
    (List.replicate 20 [.step 0, .step 1, .step 0, .step 1]).flatten ++
    [.step 0, .step 1, .step 0, .step 1, .ret 0 (.loggedIn firstCookie), .ret 1 (.loggedIn firstCookie)]

/-- C76 fails as stated: the random number generator is used without a lock. Two logins at the same time can be given the
    same cookie, and then bob is ann. -/
theorem concurrent_logins_share_session :
    (run cookieCfg 0 (bothLogIn ++ .call 2 (withCookie firstCookie (b! "/private")) :: steps 5 2 ++
      [.ret 2 (.user (b! "ann"))])).isSome = true ∧
    .ret 1 (.loggedIn firstCookie) ∈ bothLogIn ∧ .call 1 bobLogin ∈ bothLogIn := by
  refine ⟨by decide +kernel, by simp [bothLogIn], by simp [bothLogIn]⟩

/-- C76: the generator is read by one thread while another may write it. -/
theorem generator_race : ∃ tr s, run cookieCfg 0 tr = some s ∧ Race cookieCfg s .generator := by
  have hs : (run cookieCfg 0 (bothLogIn.take 9)).isSome = true := by decide +kernel
  obtain ⟨s, hs⟩ := Option.isSome_iff_exists.1 hs
  refine ⟨_, s, hs, ?_⟩
  have h0 : s.calls 0 = some (annLogin, .drawn [] 0) := by
    have : (run cookieCfg 0 (bothLogIn.take 9)).bind (·.calls 0) = some (annLogin, .drawn [] 0) := by rfl
    rw [hs] at this; exact this
  have h1 : s.calls 1 = some (bobLogin, .draw []) := by
    have : (run cookieCfg 0 (bothLogIn.take 9)).bind (·.calls 1) = some (bobLogin, .draw []) := by rfl
    rw [hs] at this; exact this
  exact ⟨1, 0, _, _, _, _, by decide, h1, h0, rfl, rfl, false, false, false, rfl, rfl, by decide⟩

/-- Two requests, more than an hour after the last expiry pass. -/
def bothExpire : List Act :=
  setup ++ [.tick 4000, .call 0 (Props.Auth.get (b! "/private")), .call 1 (Props.Auth.get (b! "/private"))] ++ steps 4 0 ++ steps 3 1

/-- C76: the time of the last expiry pass is read by one thread while another may write it. -/
theorem cleanup_race : ∃ tr s, run cookieCfg 0 tr = some s ∧ Race cookieCfg s .cleanupTime := by
  have hs : (run cookieCfg 0 bothExpire).isSome = true := by decide +kernel
  obtain ⟨s, hs⟩ := Option.isSome_iff_exists.1 hs
  refine ⟨_, s, hs, ?_⟩
  have h0 : s.calls 0 = some (Props.Auth.get (b! "/private"), .expire 4000) := by
    have : (run cookieCfg 0 bothExpire).bind (·.calls 0) = some (Props.Auth.get (b! "/private"), .expire 4000) := by rfl
    rw [hs] at this; exact this
  have h1 : s.calls 1 = some (Props.Auth.get (b! "/private"), .cleanup 4000) := by
    have : (run cookieCfg 0 bothExpire).bind (·.calls 1) = some (Props.Auth.get (b! "/private"), .cleanup 4000) := by rfl
    rw [hs] at this; exact this
  have hl : s.sh.lock = none := by
    have : (run cookieCfg 0 bothExpire).map (·.sh.lock) = some none := by rfl
    rw [hs] at this; simpa using this
  refine ⟨1, 0, _, _, _, _, by decide, h1, h0, rfl, ?_, false, false, true, rfl, rfl, by decide⟩
  simp [own, hl]

/-- Whether there are users is asked before the lists are looked at: the only user is removed between, and then the path is
    restricted. -/
def neverNeeded : List Act :=
  [.users (.add (b! "ann") (b! "x")), .call 0 (Props.Auth.get (b! "/private")), .step 0, .users (.remove (b! "ann")),
   .restrict (b! "/private")] ++ steps 3 0

/-- C76 fails as stated: a request can be refused although at no moment of the call it needed authentication. -/
theorem refused_without_need :
    (run basicCfg 0 (neverNeeded ++ [.ret 0 .unauthorized])).isSome = true ∧
    ∀ a b, neverNeeded = a ++ b → ¬Needs basicCfg.env (admin a) (Props.Auth.get (b! "/private")) := by
  refine ⟨by decide +kernel, ?_⟩
  intro a b hab
  have ha : a = neverNeeded.take a.length := by rw [hab, List.take_left]
  have hlen : a.length ≤ 8 := by
    have := congrArg List.length hab
    rw [List.length_append] at this
    have e : neverNeeded.length = 8 := rfl
    omega
  rw [ha]
  have key : ∀ n ≤ 8, needAuthentication (basicAfter basicCfg.env 0 (admin (neverNeeded.take n))).users
      (basicAfter basicCfg.env 0 (admin (neverNeeded.take n))).paths (Props.Auth.get (b! "/private")) = false := by
    decide +kernel
  have := key _ hlen
  intro hn
  rw [← Props.Auth.needs_basic basicCfg.env 0] at hn
  rw [hn] at this
  cases this

end Verif.Props.AuthThreads
