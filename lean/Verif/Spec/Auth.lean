import Verif.Model.Auth
import Verif.Spec.Dispatch
/-
What the authenticators are meant to decide, in terms of the history of calls only (no cache).
-/
namespace Verif.Spec.Auth
open Verif.Auth Verif.Users Verif.Spec.Paths Verif.Spec.Dispatch

/-- Paths given to `add_restrict` so far. -/
def restricted (h : List Event) : List Bytes :=
  h.filterMap fun | .restrict r => some (noSlash r) | _ => none

/-- Paths given to `add_permit` so far. -/
def permitted (h : List Event) : List Bytes :=
  h.filterMap fun | .permit r => some (noSlash r) | _ => none

/-- Calls to the user manager so far. -/
def userOps (h : List Event) : List Users.Op := h.filterMap fun | .users op => some op | _ => none

/-- Clock readings so far. -/
def times (h : List Event) : List Nat := h.filterMap fun | .request t _ _ => some t | _ => none

/-- The clock never went backwards, from the creation at `t0` up to `now`. -/
def Clock (t0 : Nat) (h : List Event) (now : Nat) : Prop := (t0 :: (times h ++ [now])).Pairwise (· ≤ ·)

/-- The manager's users after the history. -/
def usersOf (e : Env) (h : List Event) : Manager := Users.run e.build (userOps h)

/-- The request needs authentication: users exist, a restricted path covers the resource (without a final
    slash) and no permitted path does. -/
def Needs (e : Env) (h : List Event) (req : Msg) : Prop :=
  (∃ name, (getUser (usersOf e h) name).isSome = true) ∧
  (∃ p ∈ restricted h, Covers p (noSlash req.resource)) ∧
  ∀ p ∈ permitted h, ¬Covers p (noSlash req.resource)

/-! ### Basic authentication -/

/-- The credentials decode to `name:password` for a registered user with this password, at this moment. -/
def Correct (e : Env) (h : List Event) (cred name : Bytes) : Prop :=
  ∃ pw, decodeCredentials e cred = some (name ++ c! ":" :: pw) ∧ name ≠ [] ∧ c! ":" ∉ name ∧
    (getUserPw e.build (usersOf e h) name pw).isSome = true

/-- The request carries `Authorization: Basic cred`. -/
def Presents (e : Env) (req : Msg) (cred : Bytes) : Prop :=
  req.headers.get e.ord (b! "Authorization") = b! "Basic " ++ cred ∧ cred ≠ []

/-- The credentials are good at time `now`: correct now, or used successfully at an earlier time `t` with
    `W t now`. -/
inductive BasicOk (e : Env) (W : Nat → Nat → Prop) : List Event → Nat → Bytes → Bytes → Prop
  | correct {h now cred name} : Correct e h cred name → BasicOk e W h now cred name
  | remembered {h₁ h₂ t rand req now cred name} : Needs e h₁ req → Presents e req cred →
      BasicOk e W h₁ t cred name → W t now →
      BasicOk e W (h₁ ++ .request t rand req :: h₂) now cred name

/-! ### Cookie authentication -/

/-- A request that logs `name` in. -/
def LogsIn (e : Env) (o : Opts) (h : List Event) (req : Msg) (name : Bytes) : Prop :=
  noSlash req.resource = o.login ∧ req.queries.get e.ord (b! "user") = name ∧
    (getUserPw e.build (usersOf e h) name (req.queries.get e.ord (b! "pass"))).isSome = true

/-- A request that logs out the session with cookie `c` (a request without a cookie logs nothing out). -/
def LogsOut (e : Env) (o : Opts) (req : Msg) (c : Bytes) : Prop :=
  noSlash req.resource = o.logout ∧ noSlash req.resource ≠ o.login ∧ sessionCookie e req = c ∧ c ≠ []

/-- No request of the history logs the session out. -/
def NoLogout (e : Env) (o : Opts) (h : List Event) (c : Bytes) : Prop :=
  ∀ t rand req, .request t rand req ∈ h → ¬LogsOut e o req c

/-- A request to a protected page: not a login or logout, not the page the user is sent to for logging in. -/
def Protected (e : Env) (o : Opts) (h : List Event) (req : Msg) : Prop :=
  noSlash req.resource ≠ o.login ∧ noSlash req.resource ≠ o.logout ∧ Needs e h req ∧
    ¬(o.redirect ≠ [] ∧ o.redirect = req.resource)

/-- `c` is the cookie of a live session of `name`: it was issued at a correct login, or used, at a time `t` with
    `W t now`, and there was no logout since. -/
inductive SessionOk (e : Env) (o : Opts) (W : Nat → Nat → Prop) : List Event → Nat → Bytes → Bytes → Prop
  | issued {h₁ h₂ t rand req now name} : LogsIn e o h₁ req name → NoLogout e o h₂ (Base64.encode rand) → W t now →
      SessionOk e o W (h₁ ++ .request t rand req :: h₂) now (Base64.encode rand) name
  | used {h₁ h₂ t rand req now c name} : Protected e o h₁ req → sessionCookie e req = c →
      SessionOk e o W h₁ t c name → NoLogout e o h₂ c → W t now →
      SessionOk e o W (h₁ ++ .request t rand req :: h₂) now c name

end Verif.Spec.Auth
