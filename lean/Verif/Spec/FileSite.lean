import Verif.Spec.BasicSession
import Verif.Spec.FileAnswers
import Verif.Spec.FileService
import Verif.Spec.Conversation
import Verif.Model.FileSite
/-
What a configuration says about a site, and what can happen to it.
-/
namespace Verif.Spec.FileSite
open Verif.FileService (Cfg Fs)
open Verif.FileSite Verif.Spec.Dispatch Verif.Spec.Auth Verif.Spec.Path Verif.Spec.Paths
open Verif.Config (Call)

/-- The resources services are loaded for, in order. -/
def loaded (cs : List Call) : List Bytes := cs.filterMap fun | .loadService r _ => some (noSlash r) | _ => none

/-- The plug-in is loaded for this resource. -/
def Loads (cs : List Call) (id plugin : Bytes) : Prop := ∃ r, noSlash r = id ∧ .loadService r plugin ∈ cs

/-- The options set for this resource, in order. -/
def optionsOf (id : Bytes) (cs : List Call) : List (Bytes × Bytes) :=
  cs.filterMap fun | .setOption r n v => if noSlash r = id then some (n, v) else none | _ => none

/-- A file service with its options set one after the other; `none` if one of them is refused. -/
def settings (w : World) (fs : Fs) (c : Cfg) : List (Bytes × Bytes) → Option Cfg
  | [] => some c
  | o :: os => match FileService.setOption w.number fs c o.1 o.2 with
    | .ok c => settings w fs c os
    | .thrown _ => none

/-- A file service that has just been loaded. -/
def fresh (w : World) (id : Bytes) : Cfg := { resource := id, date := w.date, cwd := w.cwd }

/-- The site is started after these calls, with this authenticator. -/
def SetsUp (w : World) (fs : Fs) (cs : List Call) (g : Guard) (s0 : Site) : Prop :=
  ∃ s, ({ fs := fs } : Site).calls w cs = some s ∧ ({ s with guard := g } : Site).start w = some s0

/-- Of the resources that services are loaded for, this is the longest one that covers the request. -/
def Handles (cs : List Call) (id resource : Bytes) : Prop :=
  id ∈ loaded cs ∧ Covers id (noSlash resource) ∧ ∀ id' ∈ loaded cs, Covers id' (noSlash resource) → id'.length ≤ id.length

/-- No service is loaded for a resource with two slashes at its end. -/
def NamesOk (cs : List Call) : Prop := ∀ id ∈ loaded cs, noSlash id = id

/-- What can happen to a site that was started as `s0`: requests, and changes of the file system by others. The list has the
    states of the file system so far, the latest first. -/
inductive Runs (w : World) (s0 : Site) : List Fs → Site → Prop where
  | started : Runs w s0 [s0.fs] s0
  | change {past : List Fs} {s : Site} (fs : Fs) : Runs w s0 past s → Runs w s0 (fs :: past) { s with fs := fs }
  | request {past : List Fs} {s : Site} (now : Nat) (m : Msg) (lc : Writer.Lifecycle) : Runs w s0 past s →
      Runs w s0 ((s.request w now m lc).2.fs :: past) (s.request w now m lc).2

/-- The site lets the request pass: there is no authenticator, or the request needs no password, or it has one that is
    right. (Authenticators with cookies: C104.) -/
def Admits (w : World) (m : Msg) : Guard → Prop
  | .open_ => True
  | .basic _ hist => Needs w.auth hist m → ∃ cred name, Presents w.auth m cred ∧ Correct w.auth hist cred name
  | .cookie _ _ => False

/-- What an authenticator sees of a request. -/
def sees (q : Spec.Conversation.Request) : Msg := { resource := q.resource, headers := q.headers }

/-- The files a scan meets have names. -/
def FilesOk (w : World) : Prop := ∀ c, ∀ ns ∈ w.files c, ns ≠ [] ∧ ∀ n ∈ ns, n ≠ [] ∧ c! "/" ∉ n

end Verif.Spec.FileSite
