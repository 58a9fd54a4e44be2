import Verif.Lemmas.CookieSession
import Verif.Lemmas.FileSite
import Verif.Props.FileSite
import Verif.Spec.CookieSite
/-
Lemmas for C104.
-/
namespace Verif.Lemmas.CookieSite
open Verif.FileSite Verif.Spec.FileSite Verif.Spec.CookieSite Verif.Spec.Dispatch Verif.Spec.Auth Verif.Spec.CookieAuth Verif.Lemmas.CookieSession
open Verif.Server
open Verif.FileService (Fs)

/-! ### Steps -/

theorem go_runs (w : World) (s0 : Site) (steps : List Step) : Runs w s0 (states w s0 steps).reverse (go w s0 steps) := by
  have : ∀ (s : Site) (past : List Fs), Runs w s0 (s.fs :: past) s → Runs w s0 ((states w s steps).reverse ++ past) (go w s steps) := by
    induction steps with
    | nil => intro s past h; exact h
    | cons x xs ih =>
      intro s past h
      have e : (states w s (x :: xs)).reverse ++ past = (states w (step w s x) xs).reverse ++ (s.fs :: past) := by
        simp [states]
      rw [e]
      refine ih _ _ ?_
      cases x with
      | change fs => exact .change fs h
      | request now m lc => exact .request now m lc h
  simpa using this s0 [] .started

theorem request_guard (w : World) (s : Site) (now : Nat) (m : Msg) (lc : Writer.Lifecycle) :
    (s.request w now m lc).2.guard = s.guard.saw now m := by
  unfold Site.request
  simp only
  repeat' split
  all_goals rfl

theorem requests_append (a b : List Step) : requests (a ++ b) = requests a ++ requests b := by
  unfold requests; rw [List.filterMap_append]

theorem go_guard (w : World) (t0 : Nat) (steps : List Step) : ∀ (s : Site) (calls : List CookieAuth.Call), s.guard = .cookie t0 calls →
    (go w s steps).guard = .cookie t0 (calls ++ requests steps) := by
  induction steps with
  | nil => intro s calls h; rw [show requests [] = [] from rfl, List.append_nil]; exact h
  | cons x xs ih =>
    intro s calls h
    cases x with
    | change fs => exact ih _ calls h
    | request now m lc =>
      have := ih (s.request w now m lc).2 (calls ++ [.request now m]) (by rw [request_guard, h]; rfl)
      rw [List.append_assoc] at this
      exact this

/-- Who gets a request. -/
theorem cookie_receivers {w : World} {s : Site} {l : List Bytes} (hops : s.ops = l.map fun id => .addResource id id) {t0 : Nat}
    {calls : List CookieAuth.Call} (hg : s.guard = .cookie t0 calls) (now : Nat) (m : Msg) (hv : m.isValid = true) :
    s.receivers w now m = if (CookieAuth.handle w.gen w.auth now (sessionAuth w t0 calls) m).1.pass
      then dispatch (fun _ => .returns) (build s.ops).resources (noSlash m.resource) m else [.refused] := by
  have hred : redirects s.ops (noSlash m.resource) = none := by rw [hops]; exact redirects_loaded ..
  unfold Site.receivers
  rw [hg]
  dsimp only
  unfold handleRequest
  rw [if_neg (by simp [hv]), Props.BasicSession.loop_here hred]
  dsimp only
  by_cases hp : (CookieAuth.handle w.gen w.auth now (sessionAuth w t0 calls) m).1.pass = true
  · rw [if_pos hp, if_pos hp]
  · rw [if_neg hp, if_neg hp]

/-! ### What the authenticator knows -/

theorem history_users (w : World) (U P R : Bytes) (steps : List Step) :
    usersOf w.auth (history (setting U P R ++ requests steps)) = Users.run w.auth.build [.add U P] := by
  unfold usersOf
  have : userOps (history (setting U P R ++ requests steps)) = [.add U P] := by
    have h : ∀ steps : List Step, userOps (history (requests steps)) = [] := by
      intro steps
      induction steps with
      | nil => rfl
      | cons x xs ih => cases x <;> exact ih
    show Users.Op.add U P :: userOps (history (requests steps)) = _
    rw [h]
  rw [this]

theorem history_paths (U P R : Bytes) (steps : List Step) :
    restricted (history (setting U P R ++ requests steps)) = [noSlash R] ∧ permitted (history (setting U P R ++ requests steps)) = [] := by
  have h : ∀ steps : List Step, restricted (history (requests steps)) = [] ∧ permitted (history (requests steps)) = [] := by
    intro steps
    induction steps with
    | nil => exact ⟨rfl, rfl⟩
    | cons x xs ih => cases x <;> exact ih
  obtain ⟨h1, h2⟩ := h steps
  constructor
  · show noSlash R :: restricted (history (requests steps)) = _
    rw [h1]
  · exact h2

theorem history_clock (U P R : Bytes) {t0 now : Nat} {steps : List Step} (h : Forward t0 steps now) :
    Clock t0 (history (setting U P R ++ requests steps)) now := by
  have e : ∀ steps : List Step, times (history (requests steps)) =
      steps.filterMap (fun | .request t _ _ => some t | .change _ => none) := by
    intro steps
    induction steps with
    | nil => rfl
    | cons x xs ih =>
      cases x with
      | change fs => exact ih
      | request t m lc =>
        show t :: times (history (requests xs)) = _
        rw [ih]; rfl
  unfold Clock
  have : times (history (setting U P R ++ requests steps)) = times (history (requests steps)) := rfl
  rw [this, e]
  exact h

/-- A page the user must log in for. -/
theorem history_protected {w : World} (hb : Spec.Users.Digests w.auth.build) {U P R : Bytes} {steps : List Step} {m : Msg}
    (h1 : noSlash m.resource ≠ b! "/login") (h2 : noSlash m.resource ≠ b! "/logout") (hcov : Spec.Paths.Covers (noSlash R) (noSlash m.resource)) :
    Protected w.auth {} (history (setting U P R ++ requests steps)) m := by
  obtain ⟨e1, e2⟩ := history_paths U P R steps
  refine ⟨h1, h2, ⟨⟨U, ?_⟩, ⟨noSlash R, by rw [e1]; simp, hcov⟩, by rw [e2]; simp⟩, fun h => h.1 rfl⟩
  rw [history_users, Props.Users.get_user_iff_partial hb [.add U P] (by intro op h; cases List.mem_singleton.1 h; trivial)
    (by intro op h; cases List.mem_singleton.1 h; trivial)]
  show (if U = U ∧ _ then _ else _) ≠ none
  rw [if_pos ⟨rfl, rfl⟩]
  simp

theorem logs_in {w : World} (hb : Spec.Users.Digests w.auth.build) {U P R : Bytes} {steps : List Step} {m : Msg} {u : Bytes} :
    LogsIn w.auth {} (history (setting U P R ++ requests steps)) m u ↔ u = U ∧ Login w U P m := by
  unfold LogsIn Login Right
  rw [history_users, Props.FileSite.user_fits hb]
  constructor
  · rintro ⟨h1, h2, rfl, h4⟩; exact ⟨rfl, h1, h2, h4⟩
  · rintro ⟨rfl, h1, h2, h4⟩; exact ⟨h1, h2, rfl, h4⟩

theorem no_logout {w : World} {c : Bytes} {steps : List Step} (h : Stays w c steps) : NoLogout w.auth {} (history (requests steps)) c := by
  intro t rand req hm hl
  obtain ⟨x, hx, he⟩ := List.mem_map.1 hm
  obtain ⟨y, hy, hye⟩ := List.mem_filterMap.1 hx
  cases y with
  | change fs => cases hye
  | request now m lc =>
    cases hye
    simp only [Auth.Event.request.injEq] at he
    obtain ⟨rfl, -, rfl⟩ := he
    exact h _ _ _ hy ⟨hl.1, hl.2.2.1⟩

/-! ### Where a session comes from -/

/-- A live session began with a login. -/
theorem session_login {e : Auth.Env} {o : Auth.Opts} {W} {h : List Auth.Event} {now : Nat} {c name : Bytes} (hs : SessionOk e o W h now c name) :
    ∃ h₁ h₂ t rand req, h = h₁ ++ .request t rand req :: h₂ ∧ LogsIn e o h₁ req name ∧ c = Base64.encode rand ∧ NoLogout e o h₂ c := by
  induction hs with
  | @issued h₁ h₂ t rand req now name hl hn _ => exact ⟨h₁, h₂, t, rand, req, rfl, hl, rfl, hn⟩
  | @used h₁ h₂ t rand req now c name hp _ _ hn _ ih =>
    obtain ⟨g₁, g₂, t', rand', req', rfl, hl, hc, hg⟩ := ih
    refine ⟨g₁, g₂ ++ .request t rand req :: h₂, t', rand', req', by simp, hl, hc, ?_⟩
    intro t1 r1 q1 hm
    rcases List.mem_append.1 hm with hm | hm
    · exact hg _ _ _ hm
    · rcases List.mem_cons.1 hm with hm | hm
      · cases hm
        exact fun hx => hp.2.1 hx.1
      · exact hn _ _ _ hm

theorem events_split (g : CookieAuth.Gen) (e : Auth.Env) (calls : List CookieAuth.Call) : ∀ (a : CookieAuth.Object) (h₁ h₂ : List Auth.Event)
    (t : Nat) (rand : Bytes) (req : Msg), events g e a calls = h₁ ++ .request t rand req :: h₂ →
    ∃ c₁ c₂, calls = c₁ ++ .request t req :: c₂ ∧ events g e a c₁ = h₁ ∧
      rand = (if CookieAuth.opened (CookieAuth.handle g e t (CookieAuth.after g e a c₁) req).1 then CookieAuth.draw g (CookieAuth.after g e a c₁) else []) ∧
      events g e (CookieAuth.call g e (CookieAuth.after g e a c₁) (.request t req)) c₂ = h₂ := by
  induction calls with
  | nil => intro a h₁ h₂ t rand req h; exact absurd h (by simp [events])
  | cons c cs ih =>
    intro a h₁ h₂ t rand req h
    cases h₁ with
    | nil =>
      cases c with
      | request now q =>
        rw [events, List.nil_append, List.cons.injEq, Auth.Event.request.injEq] at h
        obtain ⟨⟨rfl, h3, rfl⟩, h2⟩ := h
        exact ⟨[], cs, rfl, rfl, h3.symm, h2⟩
      | _ => rw [events, List.nil_append, List.cons.injEq] at h; cases h.1
    | cons x h₁ =>
      cases c <;>
      · rw [events, List.cons_append, List.cons.injEq] at h
        obtain ⟨rfl, h⟩ := h
        obtain ⟨c₁, c₂, e1, e2, e3, e4⟩ := ih _ _ _ _ _ _ h
        exact ⟨_ :: c₁, c₂, by rw [e1]; rfl, by rw [events, e2], e3, e4⟩

theorem requests_split {steps : List Step} {c₁ c₂ : List CookieAuth.Call} {t : Nat} {req : Msg} (h : requests steps = c₁ ++ .request t req :: c₂) :
    ∃ before lc after, steps = before ++ .request t req lc :: after ∧ requests before = c₁ ∧ requests after = c₂ := by
  induction steps generalizing c₁ with
  | nil => cases c₁ <;> cases h
  | cons x xs ih =>
    cases x with
    | change fs =>
      obtain ⟨b, lc, a, rfl, h1, h2⟩ := ih (c₁ := c₁) h
      exact ⟨.change fs :: b, lc, a, rfl, h1, h2⟩
    | request now m lc =>
      have h' : CookieAuth.Call.request now m :: requests xs = c₁ ++ .request t req :: c₂ := h
      cases c₁ with
      | nil =>
        rw [List.nil_append, List.cons.injEq, CookieAuth.Call.request.injEq] at h'
        obtain ⟨⟨rfl, rfl⟩, h'⟩ := h'
        exact ⟨[], lc, xs, rfl, rfl, h'⟩
      | cons c c₁ =>
        rw [List.cons_append, List.cons.injEq] at h'
        obtain ⟨rfl, h'⟩ := h'
        obtain ⟨b, lc', a, rfl, h1, h2⟩ := ih h'
        exact ⟨.request now m lc :: b, lc', a, rfl, by rw [← h1]; rfl, h2⟩

/-- The authenticator keeps a session only for somebody who has logged in and not out. -/
theorem session_real {w : World} (hb : Spec.Users.Digests w.auth.build) {U P R : Bytes} {t0 : Nat} {steps : List Step} {now : Nat} {c name : Bytes}
    (hs : SessionOk w.auth {} (fun _ _ => True) (events w.gen w.auth (CookieAuth.create t0 t0 {}) (setting U P R ++ requests steps)) now c name) :
    Session w t0 U P R steps c := by
  obtain ⟨h₁, h₂, t, rand, req, heq, hl, rfl, hn⟩ := session_login hs
  obtain ⟨c₁, c₂, e1, e2, e3, e4⟩ := events_split _ _ _ _ _ _ _ _ _ heq
  obtain ⟨d, hd⟩ : ∃ d, c₁ = setting U P R ++ d := by
    cases c₁ with
    | nil => cases e1
    | cons a c₁ =>
      cases c₁ with
      | nil => cases e1
      | cons b c₁ =>
        unfold setting at e1
        rw [List.cons_append, List.cons_append, List.cons_append, List.cons_append, List.cons.injEq, List.cons.injEq] at e1
        exact ⟨c₁, by unfold setting; rw [e1.1, e1.2.1]; rfl⟩
  subst hd
  rw [List.append_assoc] at e1
  obtain ⟨before, lc, after, rfl, rfl, rfl⟩ := requests_split (List.append_cancel_left e1)
  have hlog : LogsIn w.auth {} (history (setting U P R ++ requests before)) req name := by
    rw [← e2] at hl
    obtain ⟨k1, k2, k3⟩ := hl
    exact ⟨k1, k2, by rw [← (alike_events w.gen w.auth _ (CookieAuth.create t0 t0 {})).usersOf]; exact k3⟩
  have hv : (CookieAuth.handle w.gen w.auth t (CookieAuth.after w.gen w.auth (CookieAuth.create t0 t0 {}) (setting U P R ++ requests before)) req).1 =
      .loggedIn (Base64.encode (CookieAuth.draw w.gen (CookieAuth.after w.gen w.auth (CookieAuth.create t0 t0 {}) (setting U P R ++ requests before)))) := by
    show (Auth.cookie w.auth _ t _ _ req).1 = _
    rw [(after_same w.gen w.auth _ _).1, after_create, e2]
    exact Props.Auth.login_answered w.auth {} t0 h₁ t _ req name hl
  rw [hv] at e3
  have e3 : rand = CookieAuth.draw w.gen (CookieAuth.after w.gen w.auth (CookieAuth.create t0 t0 {}) (setting U P R ++ requests before)) := e3
  refine ⟨before, t, req, lc, after, rfl, ((logs_in hb).1 hlog).2, ?_, ?_⟩
  · rw [e3, draw_after]; rfl
  · intro now' m lc' hm hout
    obtain ⟨rr, hmem⟩ : ∃ rr, .request now' rr m ∈ h₂ := by
      have hc : CookieAuth.Call.request now' m ∈ requests after := List.mem_filterMap.2 ⟨_, hm, rfl⟩
      obtain ⟨u, v, huv⟩ := List.append_of_mem hc
      rw [← e4, huv, events_append]
      exact ⟨_, List.mem_append_right _ List.mem_cons_self⟩
    refine hn _ _ _ hmem ⟨hout.1, ?_, hout.2, ?_⟩
    · rw [hout.1]; show b! "/logout" ≠ b! "/login"; decide
    · rw [e3]
      intro h0
      exact draw_ne w.gen _ (Props.Base64.base64_encode_injective _ [] (by rw [h0]; rfl))

end Verif.Lemmas.CookieSite
