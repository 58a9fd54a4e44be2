import Verif.Lemmas.Auth
import Verif.Props.Base64
namespace Verif.Auth
open SMap Server Users Spec.Paths Spec.Dispatch Spec.Auth

/-- What is known of a session in the cache: the request that created or refreshed it. -/
def CookieEntry (e : Env) (o : Opts) (W : Nat → Nat → Prop) (h : List Event) (c : Bytes) (t : Nat) (name : Bytes) : Prop :=
  ∃ h₁ rand req h₂, h = h₁ ++ .request t rand req :: h₂ ∧ NoLogout e o h₂ c ∧
    ((LogsIn e o h₁ req name ∧ Base64.encode rand = c) ∨
      (Protected e o h₁ req ∧ sessionCookie e req = c ∧ SessionOk e o W h₁ t c name))

theorem CookieEntry.ok {e : Env} {o : Opts} {W} {h : List Event} {c name : Bytes} {t now : Nat}
    (hb : CookieEntry e o W h c t name) (hw : W t now) : SessionOk e o W h now c name := by
  obtain ⟨h₁, rand, req, h₂, rfl, hn, ⟨a, rfl⟩ | ⟨a, b, d⟩⟩ := hb
  · exact .issued a hn hw
  · exact .used a b d hn hw

theorem CookieEntry.snoc {e : Env} {o : Opts} {W} {h : List Event} {c name : Bytes} {t : Nat}
    (hb : CookieEntry e o W h c t name) (ev : Event)
    (hl : ∀ now rand req, ev = .request now rand req → ¬LogsOut e o req c) :
    CookieEntry e o W (h ++ [ev]) c t name := by
  obtain ⟨h₁, rand, req, h₂, rfl, hn, a⟩ := hb
  refine ⟨h₁, rand, req, h₂ ++ [ev], by simp, ?_, a⟩
  intro now r q hm
  rcases List.mem_append.1 hm with hm | hm
  · exact hn now r q hm
  · exact hl now r q (List.mem_singleton.1 hm).symm

def CookieInv (e : Env) (o : Opts) (W : Nat → Nat → Prop) (s : St) (h : List Event) : Prop :=
  Sorted s.cache ∧ ∀ x ∈ s.cache, CookieEntry e o W h x.1 x.2.1 x.2.2

theorem processLogin_none {e : Env} {o : Opts} {now : Nat} {rand : Bytes} {s : St} {req : Msg} :
    processLogin e o now rand s req = none ↔
      noSlash req.resource ≠ o.login ∧ noSlash req.resource ≠ o.logout := by
  unfold processLogin
  simp only [stripSlash_eq]
  split
  next h => simp [h]
  next h =>
    simp only [h, iff_false]
    split
    · split <;> simp
    · simp

/-- One login or logout request. -/
theorem processLogin_inv {e : Env} {o : Opts} {W} {s : St} {h : List Event} (hi : CookieInv e o W s h)
    (hu : s.users = usersOf e h) {now : Nat} {rand : Bytes} {req : Msg} {v : Verdict} {s' : St}
    (hp : processLogin e o now rand s req = some (v, s')) :
    (∀ name, v ≠ .user name) ∧ v ≠ .open_ ∧ CookieInv e o W s' (h ++ [.request now rand req]) ∧
      ∀ x ∈ s'.cache, x ∈ s.cache ∨ x.2.1 = now := by
  unfold processLogin at hp
  simp only [stripSlash_eq] at hp
  have hrv : (∀ name, cookieRefuse o ≠ .user name) ∧ cookieRefuse o ≠ .open_ := by
    unfold cookieRefuse; split <;> simp
  split at hp
  · cases hp
  · split at hp
    next hlog =>
      have keep : CookieInv e o W s (h ++ [.request now rand req]) :=
        ⟨hi.1, fun x hx => (hi.2 x hx).snoc _ (fun _ _ q hq hlo => by cases hq; exact hlo.2.1 hlog)⟩
      split at hp
      · cases hp; exact ⟨hrv.1, hrv.2, keep, fun x hx => .inl hx⟩
      next u hg =>
        cases hp
        refine ⟨by simp, by simp, ⟨sorted_insert hi.1 _ _, fun x hx => ?_⟩, fun x hx => ?_⟩
        · rcases mem_insert hi.1 hx with rfl | hx
          · exact ⟨h, rand, req, [], rfl, fun _ _ _ hm => by simp at hm,
              .inl ⟨⟨hlog, rfl, by rw [← hu, hg]; rfl⟩, rfl⟩⟩
          · exact keep.2 x hx
        · rcases mem_insert hi.1 hx with rfl | hx
          · exact .inr rfl
          · exact .inl hx
    next hnl =>
      simp only [Option.some.injEq, Prod.mk.injEq] at hp
      obtain ⟨rfl, rfl⟩ := hp
      refine ⟨by simp, by simp, ?_, ?_⟩
      · by_cases hc : (sessionCookie e req).isEmpty
        · rw [if_pos hc]
          refine ⟨hi.1, fun x hx => (hi.2 x hx).snoc _ (fun _ _ q hq hlo => ?_)⟩
          cases hq
          exact hlo.2.2.2 (by rw [← hlo.2.2.1]; simpa using hc)
        · rw [if_neg hc]
          refine ⟨sorted_erase hi.1 _, fun x hx => ?_⟩
          have hx' := (List.mem_filter.1 hx)
          refine (hi.2 x hx'.1).snoc _ (fun _ _ q hq hlo => ?_)
          cases hq
          have := hx'.2
          simp [hlo.2.2.1] at this
      · intro x hx
        left
        split at hx
        · exact hx
        · exact (List.mem_filter.1 hx).1

theorem protected_no_logout {e : Env} {o : Opts} {req : Msg} {c : Bytes} (h : noSlash req.resource ≠ o.logout) :
    ¬LogsOut e o req c := fun hl => h hl.1

/-- The check of the session cookie. -/
theorem cookieCheck_inv {e : Env} {o : Opts} {W} {s : St} {h : List Event} (hi : CookieInv e o W s h)
    {now : Nat} {rand : Bytes} {req : Msg} (hp : Protected e o h req) (hW : ∀ x ∈ s.cache, W x.2.1 now) :
    (cookieCheck e o now s req).1 ≠ .open_ ∧
    (∀ name, (cookieCheck e o now s req).1 = .user name →
      sessionCookie e req ≠ [] ∧ SessionOk e o W h now (sessionCookie e req) name) ∧
    CookieInv e o W (cookieCheck e o now s req).2 (h ++ [.request now rand req]) ∧
    ∀ x ∈ (cookieCheck e o now s req).2.cache, x ∈ s.cache ∨ x.2.1 = now := by
  have keep : CookieInv e o W s (h ++ [.request now rand req]) :=
    ⟨hi.1, fun x hx => (hi.2 x hx).snoc _ (fun _ _ q hq => by cases hq; exact protected_no_logout hp.2.1)⟩
  have hrv : (∀ name, cookieRefuse o ≠ .user name) ∧ cookieRefuse o ≠ .open_ := by
    unfold cookieRefuse; split <;> simp
  unfold cookieCheck
  simp only
  split
  · exact ⟨hrv.2, fun n hn => absurd hn (hrv.1 n), keep, fun x hx => .inl hx⟩
  next hne =>
    cases hl : s.cache.lookup (sessionCookie e req) with
    | none => exact ⟨hrv.2, fun n hn => absurd hn (hrv.1 n), keep, fun x hx => .inl hx⟩
    | some p =>
      obtain ⟨t, name⟩ := p
      have hmem := (lookup_eq_some hi.1).1 hl
      have hok := (hi.2 _ hmem).ok (hW _ hmem)
      refine ⟨by simp, fun n hn => by cases hn; exact ⟨by simpa using hne, hok⟩, ⟨sorted_assign hi.1 _ _, fun x hx => ?_⟩,
        fun x hx => ?_⟩
      · rcases mem_assign hx with rfl | hx
        · exact ⟨h, rand, req, [], rfl, fun _ _ _ hm => by simp at hm, .inr ⟨hp, rfl, hok⟩⟩
        · exact keep.2 x hx
      · rcases mem_assign hx with rfl | hx
        · exact .inr rfl
        · exact .inl hx

/-- One request to a cookie authenticator. -/
theorem cookie_step {e : Env} {o : Opts} {W} {s : St} {h : List Event} (hi : CookieInv e o W s h)
    (hu : s.users = usersOf e h) {now : Nat} {rand : Bytes} {req : Msg}
    (hn : needAuthentication s.users s.paths req = true ↔ Needs e h req)
    (hW : ∀ x ∈ (expire COOKIE_EXPIRATION now s).cache, W x.2.1 now) :
    (∀ name, (cookie e o now rand s req).1 = .user name →
      Protected e o h req ∧ sessionCookie e req ≠ [] ∧ SessionOk e o W h now (sessionCookie e req) name) ∧
    ((cookie e o now rand s req).1 = .open_ → ¬Protected e o h req) ∧
    CookieInv e o W (cookie e o now rand s req).2 (h ++ [.request now rand req]) := by
  unfold cookie
  split
  next r hpl =>
    obtain ⟨v, s'⟩ := r
    obtain ⟨h1, h2, h3, _⟩ := processLogin_inv hi hu hpl
    exact ⟨fun n hv => absurd hv (h1 n), fun hv => absurd hv h2, h3⟩
  next hpl =>
    obtain ⟨hnl, hno⟩ := processLogin_none.1 hpl
    have keep : CookieInv e o W s (h ++ [.request now rand req]) :=
      ⟨hi.1, fun x hx => (hi.2 x hx).snoc _ (fun _ _ q hq => by cases hq; exact protected_no_logout hno)⟩
    split
    next hneed =>
      split
      next hr =>
        simp only [Bool.and_eq_true, Bool.not_eq_true', beq_iff_eq] at hr
        exact ⟨fun n hv => by simp at hv, fun _ hp => hp.2.2.2 ⟨by simpa using hr.1, hr.2⟩, keep⟩
      next hr =>
        have hP : Protected e o h req := by
          refine ⟨hnl, hno, hn.1 hneed, fun hc => hr ?_⟩
          simp only [Bool.and_eq_true, Bool.not_eq_true', beq_iff_eq]
          exact ⟨by simpa using hc.1, hc.2⟩
        have hi' : CookieInv e o W (expire COOKIE_EXPIRATION now s) h :=
          ⟨expire_sorted hi.1, fun x hx => hi.2 x (expire_cache_sub hx)⟩
        obtain ⟨h1, h2, h3, _⟩ := cookieCheck_inv (rand := rand) hi' hP hW
        exact ⟨fun n hv => ⟨hP, h2 n hv⟩, fun hv => absurd hv h1, h3⟩
    next hneed =>
      exact ⟨fun n hv => by simp at hv, fun _ hp => hneed (hn.2 hp.2.2.1), keep⟩

theorem cookieAfter_eq (e : Env) (o : Opts) (t0 : Nat) (h : List Event) :
    cookieAfter e o t0 h = after e.build (fun now rand => cookie e o now rand) t0 h := rfl

theorem cookie_inv_any (e : Env) (o : Opts) (t0 : Nat) (h : List Event) :
    CookieInv e o (fun _ _ => True) (cookieAfter e o t0 h) h := by
  rw [cookieAfter_eq]
  induction h using List.reverseRecOn with
  | nil => exact ⟨sorted_nil, fun x hx => by simp [after] at hx⟩
  | append_singleton h ev ih =>
    rw [after_snoc]
    cases ev with
    | request now rand req =>
      exact (cookie_step ih (after_users (keeps_cookie e o) t0 h) (needs_iff (keeps_cookie e o) t0 h req)
        (fun _ _ => trivial)).2.2
    | _ => exact ⟨ih.1, fun x hx => (ih.2 x hx).snoc _ (fun _ _ _ hq => by cases hq)⟩

/-- The cleanup time and the stamps after one request. -/
theorem cookie_stamps {e : Env} {o : Opts} {s : St} (hs : Sorted s.cache) {now : Nat} {rand : Bytes} {req : Msg}
    (h1 : ∀ x ∈ s.cache, s.cleanup ≤ x.2.1 + 3600) (h2 : s.cleanup ≤ now) :
    (∀ x ∈ (cookie e o now rand s req).2.cache, (cookie e o now rand s req).2.cleanup ≤ x.2.1 + 3600) ∧
      (cookie e o now rand s req).2.cleanup ≤ now := by
  have grow : ∀ (s s' : St), (∀ x ∈ s.cache, s.cleanup ≤ x.2.1 + 3600) → s.cleanup ≤ now → s'.cleanup = s.cleanup →
      (∀ x ∈ s'.cache, x ∈ s.cache ∨ x.2.1 = now) →
      (∀ x ∈ s'.cache, s'.cleanup ≤ x.2.1 + 3600) ∧ s'.cleanup ≤ now := by
    intro s s' h1 h2 hc hm
    rw [hc]
    refine ⟨fun x hx => ?_, h2⟩
    rcases hm x hx with hx | hx
    · exact h1 x hx
    · rw [hx]; omega
  unfold cookie
  split
  next r hpl =>
    obtain ⟨v, s'⟩ := r
    refine grow s s' h1 h2 (processLogin_keeps hpl).2.2 ?_
    unfold processLogin at hpl
    simp only at hpl
    split at hpl
    · cases hpl
    · split at hpl
      · split at hpl
        · cases hpl; exact fun x hx => .inl hx
        · cases hpl
          intro x hx
          rcases mem_insert hs hx with rfl | hx
          · exact .inr rfl
          · exact .inl hx
      · simp only [Option.some.injEq, Prod.mk.injEq] at hpl
        obtain ⟨rfl, rfl⟩ := hpl
        intro x hx
        left
        split at hx
        · exact hx
        · exact (List.mem_filter.1 hx).1
  · split
    · split
      · exact ⟨h1, h2⟩
      · have hrec := expire_recent (l := 3600) (now := now) h1 h2
        refine grow _ _ hrec.2.2 hrec.2.1 (cookieCheck_keeps ..).2.2 ?_
        unfold cookieCheck
        simp only
        split
        · exact fun x hx => .inl hx
        · split
          · intro x hx
            rcases mem_assign hx with rfl | hx
            · exact .inr rfl
            · exact .inl hx
          · exact fun x hx => .inl hx
    · exact ⟨h1, h2⟩

theorem cookie_inv_clock (e : Env) (o : Opts) (t0 : Nat) (h : List Event) (hc : ∃ now, Clock t0 h now) :
    CookieInv e o (Recent 3600) (cookieAfter e o t0 h) h ∧ Stamps 3600 t0 (cookieAfter e o t0 h) h := by
  rw [cookieAfter_eq]
  induction h using List.reverseRecOn with
  | nil =>
    refine ⟨⟨sorted_nil, fun x hx => by simp [after] at hx⟩, fun x hx => by simp [after] at hx, fun now hk => ?_⟩
    have := (List.pairwise_cons.1 hk).1 now (by simp [times])
    exact this
  | append_singleton h ev ih =>
    obtain ⟨m, hm⟩ := hc
    obtain ⟨hi, hs⟩ := ih ⟨m, Clock.prefix hm⟩
    rw [after_snoc]
    cases ev with
    | request now rand req =>
      have hup := Clock.upto hm
      have hrec := expire_recent (l := 3600) (now := now) hs.1 (hs.2 now hup.1)
      refine ⟨(cookie_step hi (after_users (keeps_cookie e o) t0 h) (needs_iff (keeps_cookie e o) t0 h req) ?_).2.2, ?_⟩
      · intro x hx
        have := hrec.2.2 x hx
        unfold Recent COOKIE_EXPIRATION at *
        omega
      · obtain ⟨h1, h2⟩ := cookie_stamps (e := e) (o := o) (rand := rand) (req := req) hi.1 hs.1 (hs.2 now hup.1)
        exact stamps_step h1 h2
    | _ => exact ⟨⟨hi.1, fun x hx => (hi.2 x hx).snoc _ (fun _ _ _ hq => by cases hq)⟩, stamps_step_users hs rfl rfl⟩

/-- The cookie of a session was drawn in the history. -/
theorem SessionOk.drawn {e : Env} {o : Opts} {W} {h : List Event} {now : Nat} {c name : Bytes}
    (hs : SessionOk e o W h now c name) : ∃ t r req, .request t r req ∈ h ∧ Base64.encode r = c := by
  induction hs with
  | issued => exact ⟨_, _, _, List.mem_append_right _ (List.mem_cons_self ..), rfl⟩
  | used _ _ _ _ _ ih =>
    obtain ⟨t, r, q, hm, he⟩ := ih
    exact ⟨t, r, q, List.mem_append_left _ hm, he⟩

/-- A live session stays in the cache until it expires or is logged out. -/
theorem session_kept {e : Env} {o : Opts} {c : Bytes} {t : Nat} {name : Bytes} {s : St} {now : Nat} {rand : Bytes}
    {req : Msg} (hs : Sorted s.cache) (hl : ∃ t', t ≤ t' ∧ s.cache.lookup c = some (t', name)) (h1 : t ≤ now)
    (h2 : now ≤ t + 3600) (hlo : ¬LogsOut e o req c) (hc : c ≠ []) :
    ∃ t', t ≤ t' ∧ (cookie e o now rand s req).2.cache.lookup c = some (t', name) := by
  obtain ⟨t', ht, hl⟩ := hl
  unfold cookie
  split
  next r hpl =>
    obtain ⟨v, s'⟩ := r
    unfold processLogin at hpl
    simp only [stripSlash_eq] at hpl
    split at hpl
    · cases hpl
    next hres =>
      split at hpl
      · split at hpl
        · cases hpl; exact ⟨t', ht, hl⟩
        · cases hpl
          refine ⟨t', ht, ?_⟩
          rw [lookup_insert hs]
          split
          next hk => rw [← hk, hl]; rfl
          · exact hl
      next hnl =>
        simp only [Option.some.injEq, Prod.mk.injEq] at hpl
        obtain ⟨rfl, rfl⟩ := hpl
        refine ⟨t', ht, ?_⟩
        by_cases he : (sessionCookie e req).isEmpty
        · rw [if_pos he]; exact hl
        · rw [if_neg he, lookup_erase, if_neg]
          · exact hl
          · intro hk
            have hlogout : noSlash req.resource = o.logout := by
              by_contra hno; exact hres ⟨hnl, hno⟩
            exact hlo ⟨hlogout, hnl, hk.symm, hc⟩
  · have hexp : (expire COOKIE_EXPIRATION now s).cache.lookup c = some (t', name) := by
      rw [lookup_eq_some (expire_sorted hs)]
      have hm := (lookup_eq_some hs).1 hl
      unfold expire
      split
      · refine List.mem_filter.2 ⟨hm, ?_⟩
        have hC : COOKIE_EXPIRATION = 3600 := rfl
        simp only [Bool.not_eq_true', decide_eq_false_iff_not]; omega
      · exact hm
    split
    · split
      · exact ⟨t', ht, hl⟩
      · unfold cookieCheck
        simp only
        split
        · exact ⟨t', ht, hexp⟩
        · split
          next t'' n hl' =>
            simp only [lookup_assign]
            by_cases hk : c = sessionCookie e req
            · rw [← hk, hexp] at hl'; cases hl'
              exact ⟨now, h1, by simp [← hk, hexp]⟩
            · exact ⟨t', ht, by simp [hk, hexp]⟩
          · exact ⟨t', ht, hexp⟩
    · exact ⟨t', ht, hl⟩

theorem cookie_sorted (e : Env) (o : Opts) (t0 : Nat) (h : List Event) : Sorted (cookieAfter e o t0 h).cache :=
  (cookie_inv_any e o t0 h).1

/-- A session in the cache after a request at `t` is in the cache as long as it is neither expired nor logged out. -/
theorem session_stays {e : Env} {o : Opts} {t0 : Nat} {h₁ h₂ : List Event} {t : Nat} {rand : Bytes} {req : Msg}
    {c name : Bytes} {now : Nat} (hc : c ≠ [])
    (h0 : ∃ t', t ≤ t' ∧ (cookieAfter e o t0 (h₁ ++ [.request t rand req])).cache.lookup c = some (t', name))
    (hno : NoLogout e o h₂ c)
    (hclock : Clock t0 (h₁ ++ .request t rand req :: h₂) now) (hnow : now ≤ t + 3600) :
    ∃ t', t ≤ t' ∧ (cookieAfter e o t0 (h₁ ++ .request t rand req :: h₂)).cache.lookup c = some (t', name) := by
  induction h₂ using List.reverseRecOn generalizing now with
  | nil => exact h0
  | append_singleton h₂ ev ih =>
    have hh : h₁ ++ .request t rand req :: (h₂ ++ [ev]) = (h₁ ++ .request t rand req :: h₂) ++ [ev] := by simp
    rw [hh] at hclock ⊢
    have hno' : NoLogout e o h₂ c := fun a b q hm => hno a b q (List.mem_append_left _ hm)
    have hih := ih hno' (Clock.prefix hclock) hnow
    rw [cookieAfter_eq, after_snoc]
    rw [cookieAfter_eq] at hih
    cases ev with
    | request now' rand' req' =>
      have hup := Clock.upto hclock
      have hs := cookie_sorted e o t0 (h₁ ++ .request t rand req :: h₂)
      have htn : t ≤ now' := by
        have hp := hup.1
        unfold Clock times at hp
        have hp := (List.pairwise_cons.1 hp).2
        have := (List.pairwise_append.1 hp).2.2 t (by simp) now' (by simp)
        exact this
      exact session_kept hs hih htn (by omega) (hno now' rand' req' (by simp)) hc
    | _ => exact hih

/-- The session created by a login with newly drawn bytes is in the cache as long as it is neither expired nor
    logged out. -/
theorem session_in_cache {e : Env} {o : Opts} {t0 : Nat} {h₁ h₂ : List Event} {t : Nat} {rand : Bytes} {req : Msg}
    {name : Bytes} {now : Nat} (hlog : LogsIn e o h₁ req name) (hr : rand ≠ [])
    (hfresh : ∀ t' req', .request t' rand req' ∉ h₁) (hno : NoLogout e o h₂ (Base64.encode rand))
    (hclock : Clock t0 (h₁ ++ .request t rand req :: h₂) now) (hnow : now ≤ t + 3600) :
    ∃ t', t ≤ t' ∧ (cookieAfter e o t0 (h₁ ++ .request t rand req :: h₂)).cache.lookup (Base64.encode rand) =
      some (t', name) := by
  have hc : Base64.encode rand ≠ [] := by
    intro h0
    exact hr (Props.Base64.base64_encode_injective rand [] (by rw [h0]; rfl))
  refine session_stays hc ⟨t, Nat.le_refl _, ?_⟩ hno hclock hnow
  rw [cookieAfter_eq, after_snoc]
  have hnone : (after e.build (fun now rand => cookie e o now rand) t0 h₁).cache.lookup (Base64.encode rand) = none := by
    cases hl : (after e.build (fun now rand => cookie e o now rand) t0 h₁).cache.lookup (Base64.encode rand) with
    | none => rfl
    | some p =>
      have hi := cookie_inv_any e o t0 h₁
      rw [cookieAfter_eq] at hi
      have := (hi.2 _ ((lookup_eq_some hi.1).1 hl)).ok (now := 0) trivial
      obtain ⟨t', r, q, hm, he⟩ := SessionOk.drawn this
      have := Props.Base64.base64_encode_injective r rand he
      subst this
      exact absurd hm (hfresh t' q)
  have hs := cookie_sorted e o t0 h₁
  rw [cookieAfter_eq] at hs
  obtain ⟨hres, huser, hpw⟩ := hlog
  have husers := after_users (keeps_cookie e o) (e := e) t0 h₁
  simp only [event]
  generalize after e.build (fun now rand => cookie e o now rand) t0 h₁ = s at hs hnone husers ⊢
  unfold cookie processLogin
  simp only [stripSlash_eq]
  rw [if_neg (by simp [hres]), if_pos hres]
  rw [husers, huser]
  obtain ⟨u, hu⟩ := Option.isSome_iff_exists.1 hpw
  rw [hu]
  simp only
  rw [lookup_insert hs, hnone]; simp

/-- A request accepted for a session leaves the session in the cache, with the time of the request. -/
theorem session_touched {e : Env} {o : Opts} {t0 : Nat} {h : List Event} {t : Nat} {rand : Bytes} {req : Msg}
    {name : Bytes} (hv : (cookie e o t rand (cookieAfter e o t0 h) req).1 = .user name) :
    sessionCookie e req ≠ [] ∧
    (cookieAfter e o t0 (h ++ [.request t rand req])).cache.lookup (sessionCookie e req) = some (t, name) := by
  rw [cookieAfter_eq] at hv
  rw [cookieAfter_eq, after_snoc]
  simp only [event]
  generalize after e.build (fun now rand => cookie e o now rand) t0 h = s at hv ⊢
  have hnv : cookieRefuse o ≠ .user name := by unfold cookieRefuse; split <;> simp
  unfold cookie at hv ⊢
  split at hv
  next r hpl =>
    obtain ⟨v, s'⟩ := r
    simp only at hv
    subst hv
    unfold processLogin at hpl
    simp only [stripSlash_eq] at hpl
    split at hpl
    · cases hpl
    · split at hpl
      · split at hpl
        · simp only [Option.some.injEq, Prod.mk.injEq] at hpl; exact absurd hpl.1 hnv
        · simp at hpl
      · simp at hpl
  next hpl =>
    split at hv
    next hn =>
      split at hv
      · cases hv
      next hr =>
        rw [if_pos hn, if_neg hr]
        unfold cookieCheck at hv ⊢
        simp only at hv ⊢
        split at hv
        · exact absurd hv hnv
        next he =>
          split at hv
          next t' n hl =>
            cases hv
            refine ⟨by simpa using he, ?_⟩
            rw [if_neg he]
            simp [lookup_assign, hl]
          · exact absurd hv hnv
    · cases hv

end Verif.Auth
