import Verif.Lemmas.CookieAuth
import Verif.Props.Dispatch
import Verif.Props.Users
/-
C33 (which requests need authentication), C34 (basic authentication), C35 (cookie sessions) and, combined with
the server, C32 (a handler runs only for authenticated requests). All statements are about an authenticator after
an arbitrary history of requests, user changes and path registrations.
-/
namespace Verif.Props.Auth
open Verif.Auth Verif.Users Verif.Server Verif.Spec.Paths Verif.Spec.Dispatch Verif.Spec.Auth

/-! ### C33 -/

/-- C33: `need_authentication`, after any history, is exactly the specification. -/
theorem needs_basic (e : Env) (t0 : Nat) (h : List Event) (req : Msg) :
    needAuthentication (basicAfter e t0 h).users (basicAfter e t0 h).paths req = true ↔ Needs e h req :=
  needs_iff (keeps_basic e) t0 h req

theorem needs_cookie (e : Env) (o : Opts) (t0 : Nat) (h : List Event) (req : Msg) :
    needAuthentication (cookieAfter e o t0 h).users (cookieAfter e o t0 h).paths req = true ↔ Needs e h req :=
  needs_iff (keeps_cookie e o) t0 h req

/-- A build without SSL and a history that restricts "/private" except for "/private/pub". -/
def env : Env := { build := Props.Users.toy false }
def setup : List Event :=
  [.users (.add (b! "ann") (b! "x")), .users (.add (b! "bob") (b! "y")), .restrict (b! "/private/"), .permit (b! "/private/pub")]
def get (r : Bytes) : Msg := { resource := r, isValid := true }

example : Needs env setup (get (b! "/private/a")) := (needs_basic env 0 setup _).1 (by decide +kernel)
example : ¬Needs env setup (get (b! "/private/pub/a/")) := by rw [← needs_basic env 0]; decide +kernel
example : ¬Needs env setup (get (b! "/privates")) := by rw [← needs_basic env 0]; decide +kernel

/-! ### C34 -/

/-- C34: a request is passed on without a user iff it needs no authentication. -/
theorem basic_open_iff (e : Env) (t0 : Nat) (h : List Event) (now : Nat) (req : Msg) :
    (basic e now (basicAfter e t0 h) req).1 = .open_ ↔ ¬Needs e h req := by
  rw [← needs_basic e t0]
  unfold basic
  split
  next hn =>
    simp only [hn, not_true, iff_false]
    split
    · simp
    · unfold basicCheck
      split
      · simp
      · split
        · simp
        · split <;> simp
  next hn => simp [hn]

/-- C34, any clock: a protected request is accepted for a user only if it presents credentials that were correct
    at some time: now, or at an earlier protected request presenting the same credentials. -/
theorem basic_sound (e : Env) (t0 : Nat) (h : List Event) (now : Nat) (req : Msg) (name : Bytes)
    (hv : (basic e now (basicAfter e t0 h) req).1 = .user name) :
    Needs e h req ∧ ∃ cred, Presents e req cred ∧ BasicOk e (fun _ _ => True) h now cred name :=
  (basic_step (rand := []) (basic_inv_any e t0 h) (after_users (keeps_basic e) t0 h) (needs_basic e t0 h req)
    (fun _ _ => trivial)).1 name hv

/-- C34, clock not running backwards: in addition every link of the chain is at most 600 seconds long.
    Partial: the property promises the cache life time, 300 seconds, see `basic_twice_the_lifetime` and
    `basic_refreshed_for_ever`. -/
theorem basic_sound_time_partial (e : Env) (t0 : Nat) (h : List Event) (now : Nat) (hc : Clock t0 h now) (req : Msg)
    (name : Bytes) (hv : (basic e now (basicAfter e t0 h) req).1 = .user name) :
    Needs e h req ∧ ∃ cred, Presents e req cred ∧ BasicOk e (fun t now => now ≤ t + 600) h now cred name := by
  obtain ⟨hi, hs⟩ := basic_inv_clock e t0 h ⟨now, hc⟩
  refine (basic_step (rand := []) hi (after_users (keeps_basic e) t0 h) (needs_basic e t0 h req) ?_).1 name hv
  intro x hx
  have hrec := expire_recent (l := 300) (now := now) hs.1 (hs.2 now hc)
  have := hrec.2.2 x hx
  unfold Recent BASIC_EXPIRATION at *
  omega

/-- C34: correct credentials are accepted, for their user. -/
theorem basic_complete (e : Env) (t0 : Nat) (h : List Event) (now : Nat) (req : Msg) (cred name : Bytes)
    (hn : Needs e h req) (hp : Presents e req cred) (hcorrect : Correct e h cred name) :
    (basic e now (basicAfter e t0 h) req).1 = .user name := by
  obtain ⟨pw, hpc, hg⟩ := (correct_iff ..).1 hcorrect
  have hi := basic_inv_any e t0 h
  have hu := after_users (keeps_basic e) (e := e) t0 h
  rw [← basicAfter_eq] at hu
  unfold basic
  rw [if_pos ((needs_basic e t0 h req).2 hn), (presented_iff e req cred).2 hp]
  simp only
  unfold basicCheck
  cases hl : (expire BASIC_EXPIRATION now (basicAfter e t0 h)).cache.lookup cred with
  | none =>
    simp only [hpc]
    rw [expire_users, hu]
    obtain ⟨u, hgu⟩ := Option.isSome_iff_exists.1 hg
    rw [hgu]
  | some p =>
    obtain ⟨t, n⟩ := p
    have hmem := expire_cache_sub ((SMap.lookup_eq_some (expire_sorted hi.1)).1 hl)
    obtain ⟨pw', hpc'⟩ := BasicOk.name ((hi.2 _ hmem).ok (now := now) trivial)
    simp only at hpc'
    rw [hpc] at hpc'
    cases hpc'
    rfl

/-- C34: a protected request without a `Basic` Authorization header is answered 401. -/
theorem basic_no_credentials (e : Env) (t0 : Nat) (h : List Event) (now : Nat) (req : Msg) (hn : Needs e h req)
    (hp : ∀ cred, ¬Presents e req cred) : (basic e now (basicAfter e t0 h) req).1 = .unauthorized := by
  unfold basic
  rw [if_pos ((needs_basic e t0 h req).2 hn)]
  cases hpr : presented e req with
  | none => rfl
  | some c => exact absurd ((presented_iff e req c).1 hpr) (hp c)

/-- C34: a protected request with credentials that were never correct at a protected request is answered 401. -/
theorem basic_never_correct (e : Env) (t0 : Nat) (h : List Event) (now : Nat) (req : Msg) (hn : Needs e h req)
    (hp : ∀ cred name, Presents e req cred → ¬BasicOk e (fun _ _ => True) h now cred name) :
    (basic e now (basicAfter e t0 h) req).1 = .unauthorized := by
  cases hv : (basic e now (basicAfter e t0 h) req).1 with
  | unauthorized => rfl
  | open_ => exact absurd hn ((basic_open_iff e t0 h now req).1 hv)
  | user name =>
    obtain ⟨_, c, hc, hok⟩ := basic_sound e t0 h now req name hv
    exact absurd hok (hp c name hc)
  | redirectLogin => exact absurd hv (basic_verdicts e now _ req).1
  | loggedIn c => exact absurd hv ((basic_verdicts e now _ req).2.1 c)
  | loggedOut => exact absurd hv (basic_verdicts e now _ req).2.2
where
  /-- The verdicts of the cookie authenticator do not occur. -/
  basic_verdicts (e : Env) (now : Nat) (s : St) (req : Msg) :
      (basic e now s req).1 ≠ .redirectLogin ∧ (∀ c, (basic e now s req).1 ≠ .loggedIn c) ∧
        (basic e now s req).1 ≠ .loggedOut := by
    unfold basic
    split
    · simp only
      split
      · simp
      · unfold basicCheck
        split
        · simp
        · split
          · simp
          · split <;> simp
    · simp

/-- A request for "/private" with the credentials of ann ("ann:x"). -/
def annReq : Msg := { get (b! "/private") with headers := [(b! "Authorization", b! "Basic YW5uOng=")] }
def bobReq : Msg := { get (b! "/private") with headers := [(b! "Authorization", b! "Basic Ym9iOnk=")] }

example : Presents env annReq (b! "YW5uOng=") := ⟨by decide +kernel, by decide⟩
example : Correct env setup (b! "YW5uOng=") (b! "ann") :=
  ⟨b! "x", by decide +kernel, by decide, by decide, by decide +kernel⟩
example : (basic env 5 (basicAfter env 0 setup) annReq).1 = .user (b! "ann") := by decide +kernel
example : (basic env 5 (basicAfter env 0 setup) (get (b! "/private"))).1 = .unauthorized := by decide +kernel

/-- ann is checked at time 1 and then removed; bob makes a request at time 301. -/
def removed : List Event :=
  setup ++ [.request 1 [] annReq, .users (.remove (b! "ann")), .request 301 [] bobReq]

/-- C34 fails as stated: ann's credentials are accepted 600 seconds after the password was last compared, twice
    the life time of the cache, although the user does not exist any more. -/
theorem basic_twice_the_lifetime :
    Clock 0 removed 601 ∧ (getUser (usersOf env removed) (b! "ann")).isSome = false ∧
    (basic env 601 (basicAfter env 0 removed) annReq).1 = .user (b! "ann") := by
  refine ⟨by unfold Clock; decide +kernel, by decide +kernel, by decide +kernel⟩

/-- ann is removed at time 1 but comes back every 300 seconds. -/
def comesBack (n : Nat) : List Event :=
  setup ++ .request 0 [] annReq :: .users (.remove (b! "ann")) :: (List.range n).map fun i => .request (300 * (i + 1)) [] annReq

/-- C34 fails as stated: every use restarts the life time, so a removed user stays accepted (here: 50 minutes
    after the removal). -/
theorem basic_refreshed_for_ever :
    (basic env 3000 (basicAfter env 0 (comesBack 9)) annReq).1 = .user (b! "ann") := by decide +kernel

/-- C34: also after a change of the password the old one is still accepted. -/
theorem basic_old_password_accepted :
    (getUserPw env.build (usersOf env (setup ++ [.request 1 [] annReq, .users (.update (b! "ann") (b! "new"))]))
      (b! "ann") (b! "x")).isSome = false ∧
    (basic env 2 (basicAfter env 0 (setup ++ [.request 1 [] annReq, .users (.update (b! "ann") (b! "new"))])) annReq).1
      = .user (b! "ann") := by decide +kernel

/-! ### C35 -/

/-- C35, any clock: a request is accepted for a user only if it is a request for a protected page that presents the
    cookie of a session: issued at a correct login and not logged out since. -/
theorem cookie_sound (e : Env) (o : Opts) (t0 : Nat) (h : List Event) (now : Nat) (rand : Bytes) (req : Msg)
    (name : Bytes) (hv : (cookie e o now rand (cookieAfter e o t0 h) req).1 = .user name) :
    Protected e o h req ∧ sessionCookie e req ≠ [] ∧
      SessionOk e o (fun _ _ => True) h now (sessionCookie e req) name :=
  (cookie_step (cookie_inv_any e o t0 h) (after_users (keeps_cookie e o) t0 h) (needs_cookie e o t0 h req)
    (fun _ _ => trivial)).1 name hv

/-- C35, clock not running backwards: in addition the session was used, or created, at most 7200 seconds ago, and
    so on back to its login. Partial: the property promises the expiry time, 3600 seconds, see
    `cookie_twice_the_expiry`. -/
theorem cookie_sound_time_partial (e : Env) (o : Opts) (t0 : Nat) (h : List Event) (now : Nat) (hc : Clock t0 h now)
    (rand : Bytes) (req : Msg) (name : Bytes) (hv : (cookie e o now rand (cookieAfter e o t0 h) req).1 = .user name) :
    Protected e o h req ∧ sessionCookie e req ≠ [] ∧
      SessionOk e o (fun t now => now ≤ t + 7200) h now (sessionCookie e req) name := by
  obtain ⟨hi, hs⟩ := cookie_inv_clock e o t0 h ⟨now, hc⟩
  refine (cookie_step hi (after_users (keeps_cookie e o) t0 h) (needs_cookie e o t0 h req) ?_).1 name hv
  intro x hx
  have hrec := expire_recent (l := 3600) (now := now) hs.1 (hs.2 now hc)
  have := hrec.2.2 x hx
  unfold Recent COOKIE_EXPIRATION at *
  omega

/-- C35: nothing else is passed on: a request for a protected page without a live session is refused. -/
theorem cookie_no_session (e : Env) (o : Opts) (t0 : Nat) (h : List Event) (now : Nat) (rand : Bytes) (req : Msg)
    (hp : Protected e o h req)
    (hs : ∀ name, ¬SessionOk e o (fun _ _ => True) h now (sessionCookie e req) name) :
    (cookie e o now rand (cookieAfter e o t0 h) req).1.pass = false := by
  have hst := cookie_step (rand := rand) (req := req) (now := now) (cookie_inv_any e o t0 h)
    (after_users (keeps_cookie e o) t0 h) (needs_cookie e o t0 h req) (fun _ _ => trivial)
  cases hv : (cookie e o now rand (cookieAfter e o t0 h) req).1 with
  | open_ => exact absurd hp (hst.2.1 hv)
  | user name => exact absurd (hst.1 name hv).2.2 (hs name)
  | _ => rfl

/-- C35: a login is answered with a cookie only for correct credentials, and the cookie is made of the bytes drawn
    for it. -/
theorem login_correct (e : Env) (o : Opts) (t0 : Nat) (h : List Event) (now : Nat) (rand : Bytes) (req : Msg) (c : Bytes)
    (hv : (cookie e o now rand (cookieAfter e o t0 h) req).1 = .loggedIn c) :
    c = Base64.encode rand ∧ ∃ name, LogsIn e o h req name := by
  have hu := after_users (keeps_cookie e o) (e := e) t0 h
  rw [← cookieAfter_eq] at hu
  have hnv : cookieRefuse o ≠ .loggedIn c := by unfold cookieRefuse; split <;> simp
  unfold cookie at hv
  split at hv
  next r hpl =>
    obtain ⟨v, s'⟩ := r
    simp only at hv
    subst hv
    unfold processLogin at hpl
    simp only [stripSlash_eq] at hpl
    split at hpl
    · cases hpl
    · split at hpl
      next hlog =>
        split at hpl
        · simp only [Option.some.injEq, Prod.mk.injEq] at hpl; exact absurd hpl.1 hnv
        next u hg =>
          simp only [Option.some.injEq, Prod.mk.injEq, Verdict.loggedIn.injEq] at hpl
          exact ⟨hpl.1.symm, _, hlog, rfl, by rw [← hu, hg]; rfl⟩
      · simp at hpl
  · split at hv
    · split at hv
      · cases hv
      · unfold cookieCheck at hv
        simp only at hv
        split at hv
        · exact absurd hv hnv
        · split at hv
          · cases hv
          · exact absurd hv hnv
    · cases hv

/-- C35: correct credentials are enough to log in. -/
theorem login_answered (e : Env) (o : Opts) (t0 : Nat) (h : List Event) (now : Nat) (rand : Bytes) (req : Msg)
    (name : Bytes) (hl : LogsIn e o h req name) :
    (cookie e o now rand (cookieAfter e o t0 h) req).1 = .loggedIn (Base64.encode rand) := by
  have hu := after_users (keeps_cookie e o) (e := e) t0 h
  rw [← cookieAfter_eq] at hu
  obtain ⟨hres, huser, hpw⟩ := hl
  generalize cookieAfter e o t0 h = s at hu ⊢
  unfold cookie processLogin
  simp only [stripSlash_eq]
  rw [if_neg (by simp [hres]), if_pos hres, hu, huser]
  obtain ⟨u, hs⟩ := Option.isSome_iff_exists.1 hpw
  rw [hs]

/-- C35: a session in the cache, not older than the expiry time, is accepted. -/
private theorem live_accepted {e : Env} {o : Opts} {t0 : Nat} {h : List Event} {t now : Nat} {rand' : Bytes} {req : Msg}
    {name : Bytes} (hl : ∃ t', t ≤ t' ∧ (cookieAfter e o t0 h).cache.lookup (sessionCookie e req) = some (t', name))
    (hne : sessionCookie e req ≠ []) (hnow : now ≤ t + 3600) (hp : Protected e o h req) :
    (cookie e o now rand' (cookieAfter e o t0 h) req).1 = .user name := by
  obtain ⟨t', ht, hl⟩ := hl
  have hs := cookie_sorted e o t0 h
  have hneed := (needs_cookie e o t0 _ req).2 hp.2.2.1
  generalize cookieAfter e o t0 h = s at hl hs hneed ⊢
  have hexp : (expire COOKIE_EXPIRATION now s).cache.lookup (sessionCookie e req) = some (t', name) := by
    rw [SMap.lookup_eq_some (expire_sorted hs)]
    have hm := (SMap.lookup_eq_some hs).1 hl
    unfold expire
    split
    · refine List.mem_filter.2 ⟨hm, ?_⟩
      have hC : COOKIE_EXPIRATION = 3600 := rfl
      simp only [Bool.not_eq_true', decide_eq_false_iff_not]; omega
    · exact hm
  unfold cookie
  rw [processLogin_none.2 ⟨hp.1, hp.2.1⟩]
  simp only
  rw [if_pos hneed, if_neg]
  · unfold cookieCheck
    simp only
    rw [if_neg (by simpa using hne), hexp]
  · simp only [Bool.and_eq_true, Bool.not_eq_true', beq_iff_eq]
    intro hr
    exact hp.2.2.2 ⟨by simpa using hr.1, hr.2⟩

/-- C35, other direction: the cookie of a login whose random bytes were never drawn before is good for its user for
    3600 seconds, unless it is logged out, whatever else happens in between. -/
theorem session_usable (e : Env) (o : Opts) (t0 : Nat) (h₁ h₂ : List Event) (t : Nat) (rand : Bytes) (login req : Msg)
    (name : Bytes) (now : Nat) (rand' : Bytes) (hlog : LogsIn e o h₁ login name) (hr : rand ≠ [])
    (hfresh : ∀ t' req', .request t' rand req' ∉ h₁) (hno : NoLogout e o h₂ (Base64.encode rand))
    (hclock : Clock t0 (h₁ ++ .request t rand login :: h₂) now) (hnow : now ≤ t + 3600)
    (hp : Protected e o (h₁ ++ .request t rand login :: h₂) req) (hc : sessionCookie e req = Base64.encode rand) :
    (cookie e o now rand' (cookieAfter e o t0 (h₁ ++ .request t rand login :: h₂)) req).1 = .user name := by
  have hne : Base64.encode rand ≠ [] := by
    intro h0
    exact hr (Props.Base64.base64_encode_injective rand [] (by rw [h0]; rfl))
  exact live_accepted (by rw [hc]; exact session_in_cache hlog hr hfresh hno hclock hnow) (by rw [hc]; exact hne) hnow hp

/-- C35: every use of a session renews it: the cookie is good for another 3600 seconds, unless it is logged out. -/
theorem session_renewed (e : Env) (o : Opts) (t0 : Nat) (h₁ h₂ : List Event) (t : Nat) (rand : Bytes) (use req : Msg)
    (name : Bytes) (now : Nat) (rand' : Bytes) (huse : (cookie e o t rand (cookieAfter e o t0 h₁) use).1 = .user name)
    (hno : NoLogout e o h₂ (sessionCookie e use))
    (hclock : Clock t0 (h₁ ++ .request t rand use :: h₂) now) (hnow : now ≤ t + 3600)
    (hp : Protected e o (h₁ ++ .request t rand use :: h₂) req) (hc : sessionCookie e req = sessionCookie e use) :
    (cookie e o now rand' (cookieAfter e o t0 (h₁ ++ .request t rand use :: h₂)) req).1 = .user name := by
  obtain ⟨hne, hl⟩ := session_touched huse
  exact live_accepted (by rw [hc]; exact session_stays hne ⟨t, Nat.le_refl _, hl⟩ hno hclock hnow)
    (by rw [hc]; exact hne) hnow hp

def opts : Opts := {}
/-- Random bytes for the examples. -/
def rnd : Bytes := [1, 2, 3, 4, 5, 6, 7, 8, 9, 10, 11, 12, 13, 14, 15, 16, 17, 18, 19, 20]
def login : Msg := { get (b! "/login") with queries := [(b! "user", b! "ann"), (b! "pass", b! "x")] }
def withCookie (r : Bytes) : Msg := { get r with cookies := [(b! "pion_session_id", Base64.encode rnd)] }

example : LogsIn env opts setup login (b! "ann") := ⟨by decide +kernel, by decide +kernel, by decide +kernel⟩
example : (cookie env opts 10 rnd (cookieAfter env opts 0 setup) login).1 = .loggedIn (Base64.encode rnd) := by
  decide +kernel
example : (cookie env opts 20 [] (cookieAfter env opts 0 (setup ++ [.request 10 rnd login])) (withCookie (b! "/private"))).1
    = .user (b! "ann") := by decide +kernel
example : (cookie env opts 20 [] (cookieAfter env opts 0 (setup ++ [.request 10 rnd login, .request 12 [] (withCookie (b! "/logout"))]))
    (withCookie (b! "/private"))).1 = .unauthorized := by decide +kernel

/-- A session used at 3500. -/
def used : List Event := setup ++ [.request 10 rnd login]
example : (cookie env opts 3500 [] (cookieAfter env opts 0 used) (withCookie (b! "/private"))).1 = .user (b! "ann") := by
  decide +kernel
example : Clock 0 (used ++ .request 3500 [] (withCookie (b! "/private")) :: []) 7000 := by unfold Clock; decide +kernel
example : Protected env opts (used ++ .request 3500 [] (withCookie (b! "/private")) :: []) (withCookie (b! "/private")) :=
  ⟨by decide +kernel, by decide +kernel, (needs_cookie env opts 0 _ _).1 (by decide +kernel), by decide +kernel⟩

/-- C35 fails as stated: a session that was not used for 7200 seconds is accepted, twice the expiry time. -/
theorem cookie_twice_the_expiry :
    (cookie env opts 7201 [] (cookieAfter env opts 0
      (setup ++ [.request 1 rnd login, .request 3601 [] (get (b! "/private"))])) (withCookie (b! "/private"))).1
      = .user (b! "ann") := by decide +kernel

/-- The session survives the removal of its user. -/
theorem cookie_survives_removal :
    (cookie env opts 20 [] (cookieAfter env opts 0 (setup ++ [.request 10 rnd login, .users (.remove (b! "ann"))]))
      (withCookie (b! "/private"))).1 = .user (b! "ann") := by decide +kernel

/-! ### C32: server and authenticator together -/

/-- A basic authenticator, after the history `h`, asked at time `now`, as the server's authenticator. -/
def asBasic (e : Env) (now : Nat) : Server.Auth St := fun req s => ((basic e now s req).1.pass, (basic e now s req).2)

/-- A cookie authenticator as the server's authenticator. -/
def asCookie (e : Env) (o : Opts) (now : Nat) (rand : Bytes) : Server.Auth St :=
  fun req s => ((cookie e o now rand s req).1.pass, (cookie e o now rand s req).2)

/-- C32 with basic authentication: a handler runs only if the request it is given (the redirected one) needs no
    authentication, or carries credentials that were checked. -/
theorem basic_gate {H : Type} (run : H → Ret) (e : Env) (t0 now : Nat) (hist : List Event) (t : Tables H)
    (rd : ReadResult) (req : Msg) (h : H) (q : Msg)
    (hm : .handler h q ∈ (handleRequest run (some (asBasic e now)) t (basicAfter e t0 hist) rd req).1) :
    ¬Needs e hist q ∨ ∃ cred name, Presents e q cred ∧ BasicOk e (fun _ _ => True) hist now cred name := by
  obtain ⟨-, -, hpass⟩ := Props.Dispatch.gate run (asBasic e now) t (basicAfter e t0 hist) rd req h q hm
  unfold asBasic at hpass
  simp only at hpass
  cases hv : (basic e now (basicAfter e t0 hist) q).1 with
  | open_ => exact .inl ((basic_open_iff e t0 hist now q).1 hv)
  | user name =>
    obtain ⟨_, c, hc, hok⟩ := basic_sound e t0 hist now q name hv
    exact .inr ⟨c, name, hc, hok⟩
  | _ => rw [hv] at hpass; cases hpass

/-- C32 with cookie authentication: a handler runs only if the request it is given is not for a protected page, or
    carries the cookie of a session. -/
theorem cookie_gate {H : Type} (run : H → Ret) (e : Env) (o : Opts) (t0 now : Nat) (rand : Bytes) (hist : List Event)
    (t : Tables H) (rd : ReadResult) (req : Msg) (h : H) (q : Msg)
    (hm : .handler h q ∈ (handleRequest run (some (asCookie e o now rand)) t (cookieAfter e o t0 hist) rd req).1) :
    ¬Protected e o hist q ∨ ∃ name, SessionOk e o (fun _ _ => True) hist now (sessionCookie e q) name := by
  obtain ⟨-, -, hpass⟩ := Props.Dispatch.gate run (asCookie e o now rand) t (cookieAfter e o t0 hist) rd req h q hm
  unfold asCookie at hpass
  simp only at hpass
  have hst := cookie_step (rand := rand) (req := q) (now := now) (cookie_inv_any e o t0 hist)
    (after_users (keeps_cookie e o) t0 hist) (needs_cookie e o t0 hist q) (fun _ _ => trivial)
  cases hv : (cookie e o now rand (cookieAfter e o t0 hist) q).1 with
  | open_ => exact .inl (hst.2.1 hv)
  | user name => exact .inr ⟨name, (hst.1 name hv).2.2⟩
  | _ => rw [hv] at hpass; cases hpass

/-- A handler for everything. -/
def site : Tables Nat := build [.addResource (b! "/") 1, .addRedirect (b! "/pub") (b! "/private")]

example : (handleRequest (fun _ => .returns) (some (asBasic env 5)) site (basicAfter env 0 setup) .ok (get (b! "/pub"))).1
    = [.refused] := by decide +kernel
example : (handleRequest (fun _ => .returns) (some (asBasic env 5)) site (basicAfter env 0 setup) .ok annReq).1
    = [.handler 1 annReq] := by decide +kernel

/-- C32, sharp edge: the authenticator removes a final slash of a redirect's target again, the dispatcher does not.
    The path a handler is chosen by, "/x/", is covered by the restricted path "/x/", but the authenticator looks at
    "/x" and lets the request pass. -/
theorem redirect_slash_edge :
    let tables : Tables Nat := build [.addResource (b! "/x//") 7, .addRedirect (b! "/in") (b! "/x//")]
    let hist := [.users (.add (b! "ann") (b! "x")), .restrict (b! "/x//")]
    restricted hist = [b! "/x/"] ∧ Longest (handlers (H := Nat) [.addResource (b! "/x//") 7, .addRedirect (b! "/in") (b! "/x//")]) (b! "/x/") 7 ∧
    (handleRequest (fun _ => .returns) (some (asBasic env 5)) tables (basicAfter env 0 hist) .ok (get (b! "/in"))).1
      = [.handler 7 { get (b! "/in") with resource := b! "/x/" }] := by
  refine ⟨by decide +kernel, (Props.Dispatch.find_longest _ _ _).1 (by decide +kernel), by decide +kernel⟩

end Verif.Props.Auth
