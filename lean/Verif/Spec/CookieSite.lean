import Verif.Spec.CookieAuth
import Verif.Spec.FileSite
import Verif.Spec.Users
/-
What happens to a web site behind a login page, step by step, and who has a session.
-/
namespace Verif.Spec.CookieSite
open Verif.FileSite Verif.Spec.Dispatch Verif.Spec.Auth Verif.Spec.CookieAuth
open Verif.FileService (Fs)

/-- Others change the file system, or a request is handled in the second `now`. -/
inductive Step where
  | change (fs : Fs)
  | request (now : Nat) (m : Msg) (lc : Writer.Lifecycle)

/-- The site after the step. -/
def step (w : World) (s : Site) : Step → Site
  | .change fs => { s with fs := fs }
  | .request now m lc => (s.request w now m lc).2

/-- The site after these steps. -/
def go (w : World) (s : Site) (steps : List Step) : Site := steps.foldl (step w) s

/-- The states of the file system during these steps, the first and the last one included. -/
def states (w : World) (s : Site) : List Step → List Fs
  | [] => [s.fs]
  | x :: xs => s.fs :: states w (step w s x) xs

/-- What the authenticator sees of the steps. -/
def requests (steps : List Step) : List CookieAuth.Call :=
  steps.filterMap fun | .request now m _ => some (.request now m) | .change _ => none

/-- The commands for one user and one resource. -/
def setting (U P R : Bytes) : List CookieAuth.Call := [.users (.add U P), .restrict R]

/-- The number of sessions opened so far at a site that was started in the second `t0`. -/
def opened (w : World) (t0 : Nat) (U P R : Bytes) (steps : List Step) : Nat :=
  sessions w.gen w.auth (CookieAuth.create t0 t0 {}) (setting U P R ++ requests steps)

/-- The identifier of the session that the next login is given. -/
def next (w : World) (t0 : Nat) (U P R : Bytes) (steps : List Step) : Bytes := identifier w.gen t0 (opened w t0 U P R steps)

/-- The password is the one of the user. -/
def Right (w : World) (P p : Bytes) : Prop := Spec.Users.Fits w.auth.build (Spec.Users.ofPassword w.auth.build P) p

/-- A request for the login page with the name and the password of the user. -/
def Login (w : World) (U P : Bytes) (m : Msg) : Prop :=
  noSlash m.resource = b! "/login" ∧ m.queries.get w.auth.ord (b! "user") = U ∧ Right w P (m.queries.get w.auth.ord (b! "pass"))

/-- A request for the logout page with this cookie. -/
def Logout (w : World) (c : Bytes) (m : Msg) : Prop := noSlash m.resource = b! "/logout" ∧ Auth.sessionCookie w.auth m = c

/-- Nobody logs out with this cookie. -/
def Stays (w : World) (c : Bytes) (steps : List Step) : Prop := ∀ now m lc, .request now m lc ∈ steps → ¬ Logout w c m

/-- Somebody has logged in with the name and the password of the user, was given the identifier `c`, and nobody has logged out
    with it since. -/
def Session (w : World) (t0 : Nat) (U P R : Bytes) (steps : List Step) (c : Bytes) : Prop :=
  ∃ before now m lc after, steps = before ++ .request now m lc :: after ∧ Login w U P m ∧ c = next w t0 U P R before ∧ Stays w c after

/-- The clock has never gone backwards. -/
def Forward (t0 : Nat) (steps : List Step) (now : Nat) : Prop :=
  (t0 :: (steps.filterMap (fun | .request t _ _ => some t | .change _ => none) ++ [now])).Pairwise (· ≤ ·)

end Verif.Spec.CookieSite
