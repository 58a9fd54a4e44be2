import Verif.Lemmas.ServerThreads
/-
C82: a server that is changed while it handles requests.
-/
namespace Verif.Props.ServerThreads
open Verif.ServerThreads Verif.Server Verif.Spec.Paths Verif.Spec.Dispatch Verif.Spec.ServerThreads

variable {H : Type}

/-- **C82, the handler.** A handler that is called for a request was registered under the longest path that covers the end of the
    redirects, as the redirects were at one moment and the handlers at another one while the request was open; between them the
    authenticator let the redirected request pass. It gets the redirected request. -/
theorem handled {hasAuth : Bool} {tr : List (Act H)} {s : St H} (h : run hasAuth tr = some s) {i : Nat} {f : H} {q : Msg}
    (hc : .handler f q ∈ callsFor s i) :
    ∃ req n t, q = redirected req n t ∧ Routed hasAuth tr i req n t fun ops => Longest (handlers ops) t f :=
  (inv h).facts _ _ hc

/-- **C82, not found.** 404 is answered only if no path covered the end of the redirects. -/
theorem not_found {hasAuth : Bool} {tr : List (Act H)} {s : St H} (h : run hasAuth tr = some s) {i : Nat}
    (hc : .notFound ∈ callsFor s i) :
    ∃ req n t, Routed hasAuth tr i req n t fun ops => Uncovered (handlers ops) t :=
  (inv h).facts _ _ hc

/-- **C82, too many redirects**: only if more than ten followed each other at one moment. -/
theorem redirect_error {hasAuth : Bool} {tr : List (Act H)} {s : St H} (h : run hasAuth tr = some s) {i : Nat}
    (hc : .redirectError ∈ callsFor s i) :
    ∃ req t a b, .request i req ∈ tr ∧ tr = a ++ b ∧ Open hasAuth a i ∧ Follows (redirects (admin a)) 11 (noSlash req.resource) t :=
  (inv h).facts _ _ hc

/-- **C82, refused**: only if the authenticator said so, about the redirected request. -/
theorem refused {hasAuth : Bool} {tr : List (Act H)} {s : St H} (h : run hasAuth tr = some s) {i : Nat}
    (hc : .refused ∈ callsFor s i) :
    ∃ req n t a b, .request i req ∈ tr ∧ tr = a ++ b ∧ Open hasAuth a i ∧ Ends (admin a) req n t ∧ .auth i (redirected req n t) false ∈ b :=
  (inv h).facts _ _ hc

/-- **C82, one answer.** Whatever happens at the same time, one thing is called for a request, and after a handler that threw the
    error handler; and something has been called when `handle_request` has returned. -/
theorem one_answer {hasAuth : Bool} {tr : List (Act H)} {s : St H} (h : run hasAuth tr = some s) (i : Nat) :
    (callsFor s i = [] ∧ ∀ req, s.calls i ≠ some (req, .ended)) ∨ callsFor s i = [.redirectError] ∨ callsFor s i = [.refused] ∨
    callsFor s i = [.notFound] ∨ ∃ f q, callsFor s i = [.handler f q] ∨
      (callsFor s i = [.handler f q, .handlerError] ∧ (.returns i .throwsStd ∈ tr ∨ .returns i .throwsBoost ∈ tr)) ∨
      (callsFor s i = [.handler f q, .rethrow] ∧ .returns i .throwsBadAlloc ∈ tr) := by
  have hi := inv h
  cases hc : s.calls i with
  | none => exact .inl ⟨(hi.new i hc).1, nofun⟩
  | some c =>
    obtain ⟨req, pc⟩ := c
    have ha := hi.at_ _ _ _ hc
    cases pc with
    | redirect n r q => exact .inl ⟨ha.2.2.2, nofun⟩
    | auth r q => exact .inl ⟨ha.2.1, nofun⟩
    | find r q => exact .inl ⟨ha.1, nofun⟩
    | found x q => exact .inl ⟨ha.1, nofun⟩
    | handling f q => exact .inr (.inr (.inr (.inr ⟨f, q, .inl ha⟩)))
    | ended =>
      rcases ha with ha | ha | ha | ⟨f, q, r, ha, hr⟩
      · exact .inr (.inl ha)
      · exact .inr (.inr (.inl ha))
      · exact .inr (.inr (.inr (.inl ha)))
      · refine .inr (.inr (.inr (.inr ⟨f, q, ?_⟩)))
        cases r with
        | returns => exact .inl ha
        | throwsStd => exact .inr (.inl ⟨ha, .inl hr⟩)
        | throwsBoost => exact .inr (.inl ⟨ha, .inr hr⟩)
        | throwsBadAlloc => exact .inr (.inr ⟨ha, hr⟩)

/-- **C82, never bypassed.** With an authenticator, a handler gets only requests that it let pass, and it let pass what is told not
    to exist. -/
theorem gate {tr : List (Act H)} {s : St H} (h : run true tr = some s) {i : Nat}
    : (∀ f q, .handler f q ∈ callsFor s i → .auth i q true ∈ tr) ∧ (.notFound ∈ callsFor s i → ∃ q, .auth i q true ∈ tr) := by
  refine ⟨fun f q hc => ?_, fun hc => ?_⟩
  · obtain ⟨req, n, t, e, _, a, b, c, rfl, _, _, hb, _⟩ := handled h hc
    rw [e]
    simp [hb rfl]
  · obtain ⟨req, n, t, _, a, b, c, rfl, _, _, hb, _⟩ := not_found h hc
    exact ⟨redirected req n t, by simp [hb rfl]⟩

/-- **C82, removal.** A handler that is not registered when a request comes, and is not registered afterwards, is not called for
    it. -/
theorem removed_not_called {hasAuth : Bool} {tr x y : List (Act H)} {s : St H} (h : run hasAuth tr = some s) (e : tr = x ++ y)
    {i : Nat} (hnew : ∀ req, .request i req ∉ x) {f : H}
    (hoff : ∀ z, z <+: y → ∀ p, handlers (admin (x ++ z)) p ≠ some f) (q : Msg) : .handler f q ∉ callsFor s i := by
  intro hc
  obtain ⟨req, n, t, _, _, a, b, c, e2, _, _, _, hopen, p, hp, _⟩ := handled h hc
  obtain ⟨⟨r, hr⟩, _⟩ := hopen
  have he : x ++ y = a ++ b ++ c := e.symm.trans e2
  rcases List.append_eq_append_iff.1 he with ⟨u, h1, h2⟩ | ⟨u, h1, h2⟩
  · exact hoff u ⟨c, h2.symm⟩ p (by rw [← h1]; exact hp)
  · exact hnew r (by rw [h1]; exact List.mem_append_left _ hr)

/-- **C82, every request gets an answer.** A request takes at most 15 actions, and until it has been answered its next one is
    possible at any time: no call waits for another one, nor a handler that changes the tables for itself. -/
theorem answered {hasAuth : Bool} {tr : List (Act H)} {s : St H} (h : run hasAuth tr = some s) (i : Nat) :
    actsOf tr i ≤ 15 ∧ ∀ req pc, s.calls i = some (req, pc) → pc ≠ .ended →
      (∃ s', run hasAuth (tr ++ [.step i]) = some s') ∨ (∃ q, ∀ ok, ∃ s', run hasAuth (tr ++ [.auth i q ok]) = some s') ∨
      ∀ r, ∃ s', run hasAuth (tr ++ [.returns i r]) = some s' := by
  refine ⟨?_, ?_⟩
  · have := acts_left h i
    cases hc : s.calls i with
    | none => rw [this.1 hc]; omega
    | some c => have := this.2 _ _ hc; omega
  · intro req pc hc hne
    have hstep : (own hasAuth s.tables pc).isSome = true → ∃ s', run hasAuth (tr ++ [.step i]) = some s' := by
      intro ho
      obtain ⟨⟨pc', l⟩, ho⟩ := Option.isSome_iff_exists.1 ho
      exact ⟨_, (run_snoc ..).2 ⟨s, h, by simp only [St.step, hc, ho]; rfl⟩⟩
    cases pc with
    | redirect n r q =>
      refine .inl (hstep ?_)
      simp only [own]
      split
      · rfl
      · split <;> rfl
    | auth r q =>
      exact .inr (.inl ⟨q, fun ok => ⟨_, (run_snoc ..).2 ⟨s, h, by simp only [St.step, hc, if_true]; rfl⟩⟩⟩)
    | find r q => exact .inl (hstep rfl)
    | found x q => exact .inl (hstep (by cases x <;> rfl))
    | handling f q =>
      exact .inr (.inr fun r => ⟨_, (run_snoc ..).2 ⟨s, h, by simp only [St.step, hc]; rfl⟩⟩)
    | ended => exact absurd rfl hne

/-- Changing the tables waits for no request. -/
theorem change_possible {hasAuth : Bool} {tr : List (Act H)} {s : St H} (h : run hasAuth tr = some s) (op : Op H) :
    ∃ s', run hasAuth (tr ++ [.admin op]) = some s' := ⟨_, (run_snoc ..).2 ⟨s, h, rfl⟩⟩

/-! ### Schedules -/

def get (resource : Bytes) : Msg := { resource := resource, originalResource := resource, isValid := true }

/-- What was called for the first `n` requests. -/
def outcome (hasAuth : Bool) (tr : List (Act Nat)) (n : Nat) : Option (List (List (Call Nat))) :=
  (run hasAuth tr).map fun s => (List.range n).map (callsFor s)

def setup : List (Act Nat) :=
  [.admin (.addResource (b! "/a") 1), .admin (.addResource (b! "/a/b") 2), .admin (.addRedirect (b! "/old") (b! "/a/b"))]

/-- Two requests at once, one of them redirected, while a path is removed and another one is added. -/
def busy : List (Act Nat) :=
  setup ++ [.request 0 (get (b! "/old")), .request 1 (get (b! "/a/b/c/")), .step 0, .step 1, .step 0, .auth 1 (get (b! "/a/b/c/")) true,
    .admin (.removeResource (b! "/a/b/")), .auth 0 { get (b! "/old") with resource := b! "/a/b" } true, .step 1, .admin (.addResource (b! "/a/b/c") 3), .step 0, .step 1,
    .step 0, .returns 0 .returns, .returns 1 .throwsStd, .request 2 (get (b! "/b")), .step 2, .auth 2 (get (b! "/b")) true, .step 2, .step 2]

example : outcome true busy 3 = some [[.handler 1 { get (b! "/old") with resource := b! "/a/b" }],
    [.handler 1 (get (b! "/a/b/c/")), .handlerError], [.notFound]] := by decide +kernel
example : outcome true (busy ++ [.request 3 (get (b! "/a")), .step 3, .auth 3 (get (b! "/a")) false]) 4 =
    some [[.handler 1 { get (b! "/old") with resource := b! "/a/b" }],
    [.handler 1 (get (b! "/a/b/c/")), .handlerError], [.notFound], [.refused]] := by decide +kernel

/-- A handler may still be called after `remove_resource` has returned, for a request that came before. -/
def removedWhile : List (Act Nat) :=
  setup ++ [.request 0 (get (b! "/a/b")), .step 0, .step 0, .admin (.removeResource (b! "/a/b")), .step 0]

/-- **Finding.** `remove_resource` does not wait for requests: a handler is called after it has returned, so that what the handler
    refers to can not be destroyed then. -/
theorem removed_still_called : outcome false removedWhile 1 = some [[.handler 2 (get (b! "/a/b"))]] ∧
    handlers (admin (removedWhile.take 7)) (b! "/a/b") = none ∧ outcome false (removedWhile.take 7) 1 = some [[]] := by
  decide +kernel

/-- **Finding.** `handle_request` searches the redirects without the mutex (http_server.cpp:70, 80), while `add_redirect` may change
    them: a data race. -/
theorem redirect_race : ∃ (tr : List (Act Nat)) (s : St Nat), run false tr = some s ∧ RedirectRace false s := by
  refine ⟨[.request 0 (get (b! "/a"))], _, rfl, 0, get (b! "/a"), 0, b! "/a", get (b! "/a"), _, b! "/x", b! "/y", _, rfl, rfl, rfl, ?_⟩
  decide +kernel

end Verif.Props.ServerThreads
