import Mathlib.Tactic.Common
import Verif.Spec.CookieAuth
import Verif.Props.Auth
/-
Lemmas for C88: an object with its generator, seen as the history of `Spec.Auth` with the bytes drawn.
-/
namespace Verif.Lemmas.CookieSession
open Verif.Auth hiding after
open Verif.CookieAuth Verif.Spec.CookieAuth Verif.Spec.Auth Verif.Spec.Paths Verif.Server

/-- The history with the bytes drawn. -/
def events (g : Gen) (e : Env) : Object → List Call → List Event
  | _, [] => []
  | a, .request now req :: cs =>
    .request now (if opened (handle g e now a req).1 then draw g a else []) req :: events g e (call g e a (.request now req)) cs
  | a, .users op :: cs => .users op :: events g e (call g e a (.users op)) cs
  | a, .restrict r :: cs => .restrict r :: events g e (call g e a (.restrict r)) cs
  | a, .permit r :: cs => .permit r :: events g e (call g e a (.permit r)) cs

theorem cookie_rand {e : Env} {o : Opts} {now : Nat} {rand : Bytes} {s : St} {req : Msg}
    (h : opened (cookie e o now rand s req).1 = false) (rand' : Bytes) :
    cookie e o now rand' s req = cookie e o now rand s req := by
  unfold cookie processLogin at h ⊢
  dsimp only at h ⊢
  by_cases h1 : stripSlash req.resource ≠ o.login ∧ stripSlash req.resource ≠ o.logout
  · rw [if_pos h1, if_pos h1]
  · rw [if_neg h1] at h ⊢
    rw [if_neg h1]
    by_cases h2 : stripSlash req.resource = o.login
    · rw [if_pos h2] at h ⊢
      rw [if_pos h2]
      cases hu : Users.getUserPw e.build s.users (req.queries.get e.ord (b! "user")) (req.queries.get e.ord (b! "pass")) with
      | none => rfl
      | some u => rw [hu] at h; cases h
    · rw [if_neg h2]
      rw [if_neg h2]

theorem call_same (g : Gen) (e : Env) (a : Object) (c : Call) : (call g e a c).opts = a.opts ∧ (call g e a c).seed = a.seed := by
  cases c <;> exact ⟨rfl, rfl⟩

theorem after_cons (g : Gen) (e : Env) (a : Object) (c : Call) (cs : List Call) :
    after g e a (c :: cs) = after g e (call g e a c) cs := rfl

theorem after_append (g : Gen) (e : Env) (a : Object) (cs ds : List Call) :
    after g e a (cs ++ ds) = after g e (after g e a cs) ds := by unfold after; rw [List.foldl_append]

theorem after_same (g : Gen) (e : Env) (cs : List Call) : ∀ a : Object,
    (after g e a cs).opts = a.opts ∧ (after g e a cs).seed = a.seed := by
  induction cs with
  | nil => intro a; exact ⟨rfl, rfl⟩
  | cons c cs ih =>
    intro a
    rw [after_cons]
    obtain ⟨h1, h2⟩ := ih (call g e a c)
    obtain ⟨h3, h4⟩ := call_same g e a c
    exact ⟨h1.trans h3, h2.trans h4⟩

theorem after_st (g : Gen) (e : Env) (cs : List Call) : ∀ a : Object, (after g e a cs).st =
    (events g e a cs).foldl (event e.build fun now rand => cookie e a.opts now rand) a.st := by
  induction cs with
  | nil => intro a; rfl
  | cons c cs ih =>
    intro a
    rw [after_cons, ih, (call_same g e a c).1]
    cases c with
    | request now req =>
      rw [events, List.foldl_cons]
      refine congrArg (fun s => List.foldl _ s _) ?_
      show (cookie e a.opts now (draw g a) a.st req).2 = (cookie e a.opts now _ a.st req).2
      split
      · rfl
      · rename_i h
        rw [cookie_rand (rand := draw g a) (Bool.eq_false_iff.2 h) []]
    | users op => rfl
    | restrict r => rfl
    | permit r => rfl

theorem events_append (g : Gen) (e : Env) (cs ds : List Call) : ∀ a : Object,
    events g e a (cs ++ ds) = events g e a cs ++ events g e (after g e a cs) ds := by
  induction cs with
  | nil => intro a; rfl
  | cons c cs ih =>
    intro a
    rw [List.cons_append, after_cons]
    cases c <;> simp only [events, List.cons_append, ih]

/-- The object is one of the histories of `Spec.Auth`. -/
theorem after_create (g : Gen) (e : Env) (now time : Nat) (o : Opts) (cs : List Call) :
    (after g e (create now time o) cs).st = cookieAfter e o now (events g e (create now time o) cs) := after_st g e cs _

/-! ### What does not depend on the bytes drawn -/

/-- Two histories that differ in the bytes drawn. -/
inductive Alike : List Event → List Event → Prop
  | nil : Alike [] []
  | request {t r r' req h h'} : Alike h h' → Alike (.request t r req :: h) (.request t r' req :: h')
  | same {x h h'} : Alike h h' → Alike (x :: h) (x :: h')

theorem alike_events (g : Gen) (e : Env) (cs : List Call) : ∀ a : Object, Alike (events g e a cs) (history cs) := by
  induction cs with
  | nil => intro a; exact .nil
  | cons c cs ih => intro a; cases c <;> first | exact .request (ih _) | exact .same (ih _)

theorem Alike.userOps {h h' : List Event} (a : Alike h h') : userOps h = userOps h' := by
  induction a with
  | nil => rfl
  | request _ ih => simpa [Spec.Auth.userOps] using ih
  | same _ ih => simp only [Spec.Auth.userOps, List.filterMap_cons] at ih ⊢; rw [ih]
theorem Alike.restricted {h h' : List Event} (a : Alike h h') : restricted h = restricted h' := by
  induction a with
  | nil => rfl
  | request _ ih => simpa [Spec.Auth.restricted] using ih
  | same _ ih => simp only [Spec.Auth.restricted, List.filterMap_cons] at ih ⊢; rw [ih]
theorem Alike.permitted {h h' : List Event} (a : Alike h h') : permitted h = permitted h' := by
  induction a with
  | nil => rfl
  | request _ ih => simpa [Spec.Auth.permitted] using ih
  | same _ ih => simp only [Spec.Auth.permitted, List.filterMap_cons] at ih ⊢; rw [ih]
theorem Alike.times {h h' : List Event} (a : Alike h h') : times h = times h' := by
  induction a with
  | nil => rfl
  | request _ ih => simpa [Spec.Auth.times] using ih
  | same _ ih => simp only [Spec.Auth.times, List.filterMap_cons] at ih ⊢; rw [ih]
theorem Alike.usersOf {h h' : List Event} (a : Alike h h') (e : Env) : usersOf e h = usersOf e h' := by
  unfold Spec.Auth.usersOf; rw [a.userOps]
theorem Alike.protected {h h' : List Event} (a : Alike h h') {e : Env} {o : Opts} {req : Msg} (hp : Protected e o h' req) :
    Protected e o h req := by
  obtain ⟨h1, h2, ⟨h3, h4, h5⟩, h6⟩ := hp
  exact ⟨h1, h2, ⟨by rw [a.usersOf]; exact h3, by rw [a.restricted]; exact h4, by rw [a.permitted]; exact h5⟩, h6⟩
theorem Alike.clock {h h' : List Event} (a : Alike h h') {t0 now : Nat} (hc : Clock t0 h' now) : Clock t0 h now := by
  unfold Clock; rw [a.times]; exact hc
theorem Alike.mem {h h' : List Event} (a : Alike h h') {t : Nat} {r : Bytes} {req : Msg} (hm : .request t r req ∈ h) :
    ∃ r', .request t r' req ∈ h' := by
  induction a with
  | nil => cases hm
  | @request t1 r1 r2 q h h' a ih =>
    rcases List.mem_cons.1 hm with hm | hm
    · cases hm; exact ⟨_, List.mem_cons_self⟩
    · obtain ⟨r', h⟩ := ih hm; exact ⟨r', List.mem_cons_of_mem _ h⟩
  | same a ih =>
    rcases List.mem_cons.1 hm with hm | hm
    · subst hm; exact ⟨_, List.mem_cons_self⟩
    · obtain ⟨r', h⟩ := ih hm; exact ⟨r', List.mem_cons_of_mem _ h⟩
theorem Alike.noLogout {h h' : List Event} (a : Alike h h') {e : Env} {o : Opts} {c : Bytes} (hn : NoLogout e o h' c) :
    NoLogout e o h c := by
  intro t r req hm
  obtain ⟨r', h⟩ := a.mem hm
  exact hn t r' req h

/-! ### The identifiers -/

theorem sessions_request (g : Gen) (e : Env) (a : Object) (now : Nat) (req : Msg) (cs : List Call) :
    sessions g e a (.request now req :: cs) =
      (if opened (handle g e now a req).1 then 1 else 0) + sessions g e (call g e a (.request now req)) cs := by
  unfold sessions
  rw [verdicts, List.filter_cons]
  split
  · rw [List.length_cons, Nat.add_comm]
  · rw [Nat.zero_add]

theorem after_drawn (g : Gen) (e : Env) (cs : List Call) : ∀ a : Object,
    (after g e a cs).drawn = a.drawn + 20 * sessions g e a cs := by
  induction cs with
  | nil => intro a; rfl
  | cons c cs ih =>
    intro a
    rw [after_cons, ih]
    cases c with
    | request now req =>
      rw [sessions_request]
      have : (call g e a (.request now req)).drawn = a.drawn + if opened (handle g e now a req).1 then 20 else 0 := rfl
      rw [this]
      split <;> omega
    | users op => rfl
    | restrict r => rfl
    | permit r => rfl

theorem draw_after (g : Gen) (e : Env) (now time : Nat) (o : Opts) (cs : List Call) :
    Base64.encode (draw g (after g e (create now time o) cs)) =
      identifier g time (sessions g e (create now time o) cs) := by
  unfold draw identifier
  rw [after_drawn, (after_same g e cs _).2]
  rfl

theorem draw_length (g : Gen) (a : Object) : (draw g a).length = 20 := by
  unfold draw; rw [List.length_map, List.length_range]; rfl

theorem draw_ne (g : Gen) (a : Object) : draw g a ≠ [] := by
  intro h; have := draw_length g a; rw [h] at this; cases this

theorem events_drawn (g : Gen) (e : Env) (cs : List Call) : ∀ (a : Object) (t : Nat) (r : Bytes) (req : Msg),
    .request t r req ∈ events g e a cs → r = [] ∨ ∃ k < sessions g e a cs,
      r = (List.range 20).map fun i => g a.seed (a.drawn + 20 * k + i) := by
  induction cs with
  | nil => intro a t r req h; cases h
  | cons c cs ih =>
    intro a t r req h
    cases c with
    | request now q =>
      rw [sessions_request]
      rw [events, List.mem_cons] at h
      rcases h with h | h
      · cases h
        by_cases ho : opened (handle g e t a req).1 = true
        · rw [if_pos ho, if_pos ho]
          exact .inr ⟨0, by omega, rfl⟩
        · rw [if_neg ho]; exact .inl rfl
      · rcases ih _ t r req h with h | ⟨k, hk, h⟩
        · exact .inl h
        · have hd : (call g e a (.request now q)).drawn = a.drawn + if opened (handle g e now a q).1 then 20 else 0 := rfl
          rw [hd, (call_same g e a _).2] at h
          right
          by_cases ho : opened (handle g e now a q).1 = true
          · rw [if_pos ho] at h ⊢
            refine ⟨k + 1, by omega, h.trans ?_⟩
            rw [show a.drawn + 20 + 20 * k = a.drawn + 20 * (k + 1) by omega]
          · rw [if_neg ho] at h ⊢
            exact ⟨k, by omega, h⟩
    | users op =>
      rw [events, List.mem_cons] at h
      exact ih _ t r req (h.resolve_left nofun)
    | restrict op =>
      rw [events, List.mem_cons] at h
      exact ih _ t r req (h.resolve_left nofun)
    | permit op =>
      rw [events, List.mem_cons] at h
      exact ih _ t r req (h.resolve_left nofun)

/-- Bytes that were drawn belong to a verdict. -/
theorem events_verdict (g : Gen) (e : Env) (cs : List Call) : ∀ (a : Object) (t : Nat) (r : Bytes) (req : Msg),
    .request t r req ∈ events g e a cs → r = [] ∨ .loggedIn (Base64.encode r) ∈ verdicts g e a cs := by
  induction cs with
  | nil => intro a t r req h; cases h
  | cons c cs ih =>
    intro a t r req h
    cases c with
    | request now q =>
      rw [events, List.mem_cons] at h
      rw [verdicts]
      rcases h with h | h
      · cases h
        by_cases ho : opened (handle g e t a req).1 = true
        · rw [if_pos ho]
          right
          rw [List.mem_cons]
          left
          cases hv : (handle g e t a req).1 with
          | loggedIn c =>
            have hv' : (cookie e a.opts t (draw g a) a.st req).1 = .loggedIn c := hv
            congr 1
            by_contra hne
            unfold cookie processLogin at hv'
            dsimp only at hv'
            have hrefuse : cookieRefuse a.opts ≠ .loggedIn c := by unfold cookieRefuse; split <;> simp
            split at hv'
            · rename_i x hx
              split at hx
              · cases hx
              · split at hx
                · split at hx
                  · cases hx; exact hrefuse hv'
                  · cases hx; cases hv'; exact hne rfl
                · cases hx; cases hv'
            · split at hv'
              · split at hv'
                · cases hv'
                · unfold cookieCheck at hv'
                  dsimp only at hv'
                  split at hv'
                  · exact hrefuse hv'
                  · split at hv'
                    · cases hv'
                    · exact hrefuse hv'
              · cases hv'
          | _ => rw [hv] at ho; cases ho
        · rw [if_neg ho]; exact .inl rfl
      · exact (ih _ t r req h).imp id fun h => List.mem_cons_of_mem _ h
    | users op =>
      rw [events, List.mem_cons] at h
      exact ih _ t r req (h.resolve_left nofun)
    | restrict op =>
      rw [events, List.mem_cons] at h
      exact ih _ t r req (h.resolve_left nofun)
    | permit op =>
      rw [events, List.mem_cons] at h
      exact ih _ t r req (h.resolve_left nofun)

/-! ### A session that was logged out -/

theorem session_after_logout {e : Env} {o : Opts} {W} {h : List Event} {now : Nat} {c name : Bytes}
    (hs : SessionOk e o W h now c name) : ∀ (h₁ h₂ : List Event) (t : Nat) (r : Bytes) (req : Msg),
    h = h₁ ++ .request t r req :: h₂ → LogsOut e o req c →
    ∃ t' r' req', .request t' r' req' ∈ h₂ ∧ Base64.encode r' = c := by
  induction hs with
  | @issued g₁ g₂ t0 rand q now name hl hn hW =>
    intro h₁ h₂ t r req heq hout
    rcases List.append_eq_append_iff.1 heq with ⟨k, hk1, hk2⟩ | ⟨k, hk1, hk2⟩
    · cases k with
      | nil =>
        simp only [List.nil_append, List.cons.injEq, Event.request.injEq] at hk2
        obtain ⟨⟨_, _, rfl⟩, _⟩ := hk2
        exact absurd hl.1 hout.2.1
      | cons x k =>
        simp only [List.cons_append, List.cons.injEq] at hk2
        obtain ⟨rfl, rfl⟩ := hk2
        exact absurd hout (hn t r req (by simp))
    · cases k with
      | nil =>
        simp only [List.nil_append, List.cons.injEq, Event.request.injEq] at hk2
        obtain ⟨⟨_, _, rfl⟩, _⟩ := hk2
        exact absurd hl.1 hout.2.1
      | cons x k =>
        simp only [List.cons_append, List.cons.injEq] at hk2
        obtain ⟨rfl, rfl⟩ := hk2
        exact ⟨t0, rand, q, by simp, rfl⟩
  | @used g₁ g₂ t0 rand q now c name hp hck hs hn hW ih =>
    intro h₁ h₂ t r req heq hout
    rcases List.append_eq_append_iff.1 heq with ⟨k, hk1, hk2⟩ | ⟨k, hk1, hk2⟩
    · cases k with
      | nil =>
        simp only [List.nil_append, List.cons.injEq, Event.request.injEq] at hk2
        obtain ⟨⟨_, _, rfl⟩, _⟩ := hk2
        exact absurd hout.1 hp.2.1
      | cons x k =>
        simp only [List.cons_append, List.cons.injEq] at hk2
        obtain ⟨rfl, rfl⟩ := hk2
        exact absurd hout (hn t r req (by simp))
    · cases k with
      | nil =>
        simp only [List.nil_append, List.cons.injEq, Event.request.injEq] at hk2
        obtain ⟨⟨_, _, rfl⟩, _⟩ := hk2
        exact absurd hout.1 hp.2.1
      | cons x k =>
        simp only [List.cons_append, List.cons.injEq] at hk2
        obtain ⟨rfl, rfl⟩ := hk2
        obtain ⟨t', r', q', hm, he⟩ := ih h₁ k t r req hk1 hout
        exact ⟨t', r', q', by simp [hm], he⟩

end Verif.Lemmas.CookieSession
