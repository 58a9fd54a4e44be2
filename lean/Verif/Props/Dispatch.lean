import Verif.Lemmas.Dispatch
/-
C29 (dispatch to the most specific handler), C31 (bounded redirects) and the server's part of C32
(authentication gate), for `http::server::handle_request`.
-/
namespace Verif.Props.Dispatch
open Verif.Server Verif.Spec.Paths Verif.Spec.Dispatch

/-- The stored form of a path is the path without one final slash. -/
theorem stored_path (r : Bytes) : Trimmed r (noSlash r) := noSlash_trimmed r

example : noSlash (b! "/a/b/") = b! "/a/b" := by decide
example : noSlash (b! "/a/b") = b! "/a/b" := by decide

/-- C29: after any history of registrations, the search finds `h` iff `h` is registered under the longest
    registered path that equals the resource or is followed by '/' in it. -/
theorem find_longest {H : Type} (ops : List (Op H)) (r : Bytes) (h : H) :
    findHandler (build ops).resources r = some h ↔ Longest (handlers ops) r h := by
  rw [findHandler_eq, walkBack_longest (build_sorted ops).1, (build_tables ops).1]

/-- C29: the search fails iff no registered path covers the resource. -/
theorem find_none {H : Type} (ops : List (Op H)) (r : Bytes) :
    findHandler (build ops).resources r = none ↔ Uncovered (handlers ops) r := by
  rw [findHandler_eq, Option.map_eq_none_iff, walkBack_uncovered (build_sorted ops).1, (build_tables ops).1]

/-- A registry with nested paths and neighbours that are not path prefixes. -/
def demo : List (Op Nat) :=
  [.addResource (b! "/a") 1, .addResource (b! "/a/b/") 2, .addResource (b! "/a/bc") 3, .addResource (b! "/a-x") 4,
   .addResource (b! "/a/b") 9, .addRedirect (b! "/old") (b! "/a/b/c/"), .addRedirect (b! "/loop") (b! "/pool"),
   .addRedirect (b! "/pool/") (b! "/loop/")]

example : Longest (handlers demo) (b! "/a/b/c") 2 := (find_longest _ _ _).1 (by decide +kernel)
example : Longest (handlers demo) (b! "/a/bd") 1 := (find_longest _ _ _).1 (by decide +kernel)
example : Uncovered (handlers demo) (b! "/ab") := (find_none _ _).1 (by decide +kernel)

/-- The end of the chain of redirects that starts at the requested path: `t`, after at most ten steps. -/
def Ends {H : Type} (ops : List (Op H)) (req : Msg) (n : Nat) (t : Bytes) : Prop :=
  n ≤ 10 ∧ Follows (redirects ops) n (noSlash req.resource) t ∧ redirects ops t = none

/-- The request a handler (or the authenticator) is given: its resource is the end of the redirect chain. -/
def redirected (req : Msg) (n : Nat) (t : Bytes) : Msg := if n = 0 then req else { req with resource := t }

theorem loop_ends {H : Type} (ops : List (Op H)) (req : Msg) (t : Bytes) (q : Msg) :
    redirectLoop (build ops).redirects MAX_REDIRECTS (stripSlash req.resource) req = some (t, q) ↔
      ∃ n, Ends ops req n t ∧ q = redirected req n t := by
  rw [redirectLoop_some, stripSlash_eq, (build_tables ops).2]
  have : ∀ t, (build ops).redirects.lookup t = redirects ops t := fun t => by rw [← (build_tables ops).2]
  rw [this]
  unfold Ends redirected MAX_REDIRECTS
  constructor
  · rintro ⟨n, h1, h2, h3, h4⟩; exact ⟨n, ⟨h1, h2, h3⟩, h4⟩
  · rintro ⟨n, ⟨h1, h2, h3⟩, h4⟩; exact ⟨n, h1, h2, h3, h4⟩

theorem loop_fails {H : Type} (ops : List (Op H)) (req : Msg) :
    redirectLoop (build ops).redirects MAX_REDIRECTS (stripSlash req.resource) req = none ↔
      ∃ t, Follows (redirects ops) 11 (noSlash req.resource) t := by
  rw [redirectLoop_none, stripSlash_eq, (build_tables ops).2]; rfl

/-- C31: a valid request whose redirect chain ends at `t` after at most ten redirects is delivered there:
    exactly the handler of the longest path covering `t` is run, and the request it sees carries `t`. -/
theorem delivered {H σ : Type} (run : H → Ret) (ops : List (Op H)) (st : σ) (req : Msg) (hv : req.isValid = true)
    {n : Nat} {t : Bytes} (he : Ends ops req n t) (h : H) (q : Msg) :
    .handler h q ∈ (handleRequest run none (build ops) st .ok req).1 ↔
      Longest (handlers ops) t h ∧ q = redirected req n t := by
  have hl := (loop_ends ops req t _).2 ⟨n, he, rfl⟩
  unfold handleRequest
  rw [if_neg (by simp [hv]), hl]
  simp only
  rw [mem_dispatch_handler, find_longest]

/-- C29/C31: such a request is answered 404 iff no registered path covers the end of the chain. -/
theorem not_found_iff {H σ : Type} (run : H → Ret) (ops : List (Op H)) (st : σ) (req : Msg)
    (hv : req.isValid = true) {n : Nat} {t : Bytes} (he : Ends ops req n t) :
    .notFound ∈ (handleRequest run none (build ops) st .ok req).1 ↔ Uncovered (handlers ops) t := by
  have hl := (loop_ends ops req t _).2 ⟨n, he, rfl⟩
  unfold handleRequest
  rw [if_neg (by simp [hv]), hl]
  simp only
  rw [mem_dispatch_notFound, find_none]

/-- C29, without redirects: a valid request for a path that is not redirected is given to the handler of the
    longest registered path covering it, unchanged. -/
theorem dispatched {H σ : Type} (run : H → Ret) (ops : List (Op H)) (st : σ) (req : Msg) (hv : req.isValid = true)
    (hr : redirects ops (noSlash req.resource) = none) (h : H) (q : Msg) :
    .handler h q ∈ (handleRequest run none (build ops) st .ok req).1 ↔
      Longest (handlers ops) (noSlash req.resource) h ∧ q = req :=
  delivered run ops st req hv (n := 0) ⟨by decide, .stay _, hr⟩ h q

/-- A valid request. -/
def get (resource : Bytes) : Msg := { resource := resource, originalResource := resource, isValid := true }

example : (handleRequest (fun _ => .returns) none (build demo) () .ok (get (b! "/a/b/x/"))).1 =
    [.handler 2 (get (b! "/a/b/x/"))] := by decide +kernel
example : (handleRequest (fun _ => .returns) none (build demo) () .ok (get (b! "/old"))).1 =
    [.handler 2 { get (b! "/old") with resource := b! "/a/b/c" }] := by decide +kernel
example : Ends demo (get (b! "/old")) 1 (b! "/a/b/c") :=
  ⟨by decide, .next (by decide +kernel) (.stay _), by decide +kernel⟩

/-- C31: the answer is a server error, and nothing else, iff more than ten redirects would have to be
    followed. -/
theorem too_many_redirects {H σ : Type} (run : H → Ret) (auth : Option (Auth σ)) (ops : List (Op H)) (st : σ)
    (req : Msg) (hv : req.isValid = true) :
    (handleRequest run auth (build ops) st .ok req).1 = [.redirectError] ↔
      ∃ t, Follows (redirects ops) 11 (noSlash req.resource) t := by
  rw [← loop_fails]
  unfold handleRequest
  rw [if_neg (by simp [hv])]
  cases hl : redirectLoop (build ops).redirects MAX_REDIRECTS (stripSlash req.resource) req with
  | none => simp
  | some p =>
    obtain ⟨t, q⟩ := p
    simp only [reduceCtorEq, iff_false]
    have hd : dispatch run (build ops).resources t q ≠ [.redirectError] := by
      unfold dispatch
      split
      · simp
      · split <;> simp
    cases auth with
    | none => exact hd
    | some a =>
      simp only
      split
      · exact hd
      · simp

/-- C31: a table in which the requested path lies on a cycle, or leads to one, gives a server error. -/
theorem cyclic_redirects {H σ : Type} (run : H → Ret) (auth : Option (Auth σ)) (ops : List (Op H)) (st : σ)
    (req : Msg) (hv : req.isValid = true) {m n : Nat} {s : Bytes} (hm : Follows (redirects ops) m (noSlash req.resource) s)
    (hn : 0 < n) (hc : Follows (redirects ops) n s s) :
    (handleRequest run auth (build ops) st .ok req).1 = [.redirectError] := by
  rw [too_many_redirects run auth ops st req hv]
  obtain ⟨t, ht⟩ := Follows.cycle hn hc 11
  have := Follows.trans hm ht
  rw [Nat.add_comm] at this
  obtain ⟨u, hu, _⟩ := Follows.split this
  exact ⟨u, hu⟩

example : Follows (redirects demo) 2 (noSlash (get (b! "/loop/")).resource) (b! "/loop") :=
  .next (r' := b! "/pool") (by decide +kernel) (.next (by decide +kernel) (.stay _))
example : (handleRequest (fun _ => .returns) none (build demo) () .ok (get (b! "/loop/"))).1 = [.redirectError] := by
  decide +kernel

/-- C31: every valid request is in one of the two cases. -/
theorem redirects_decided {H : Type} (ops : List (Op H)) (req : Msg) :
    (∃ n t, Ends ops req n t) ∨ ∃ t, Follows (redirects ops) 11 (noSlash req.resource) t := by
  rw [← loop_fails]
  cases hl : redirectLoop (build ops).redirects MAX_REDIRECTS (stripSlash req.resource) req with
  | none => exact .inr rfl
  | some p => obtain ⟨n, hn, _⟩ := (loop_ends ops req p.1 p.2).1 hl; exact .inl ⟨n, p.1, hn⟩

/-- C32: with an authenticator installed a handler runs only if the authenticator, asked about the redirected
    request `q` that the handler is given, has accepted it. -/
theorem gate {H σ : Type} (run : H → Ret) (a : Auth σ) (t : Tables H) (st : σ) (rd : ReadResult) (req : Msg)
    (h : H) (q : Msg) (hm : .handler h q ∈ (handleRequest run (some a) t st rd req).1) :
    rd = .ok ∧ req.isValid = true ∧ (a q st).1 = true := by
  unfold handleRequest at hm
  split at hm
  next hc => split at hm <;> simp at hm
  next hc =>
    simp only [not_or, not_not, ne_eq, Bool.not_eq_false] at hc
    refine ⟨hc.1, hc.2, ?_⟩
    split at hm
    · simp at hm
    next r q' _ =>
      simp only at hm
      cases ha : (a q' st).1 with
      | false => simp [ha] at hm
      | true =>
        rw [ha, if_pos rfl, mem_dispatch_handler] at hm
        rw [hm.2]; exact ha

/-- C32: a valid request that the authenticator refuses is answered by the authenticator only: no handler
    runs, no other answer is given. -/
theorem refused_nothing_runs {H σ : Type} (run : H → Ret) (a : Auth σ) (ops : List (Op H)) (st : σ) (req : Msg)
    (hv : req.isValid = true) {n : Nat} {t : Bytes} (he : Ends ops req n t)
    (hr : (a (redirected req n t) st).1 = false) :
    (handleRequest run (some a) (build ops) st .ok req).1 = [.refused] := by
  have hl := (loop_ends ops req t _).2 ⟨n, he, rfl⟩
  unfold handleRequest
  rw [if_neg (by simp [hv]), hl]
  simp [hr]

/-- C32: a request that was not read correctly reaches neither the authenticator nor a handler, and the
    authenticator's state is unchanged. -/
theorem invalid_reaches_nobody {H σ : Type} (run : H → Ret) (auth : Option (Auth σ)) (t : Tables H) (st : σ)
    (rd : ReadResult) (req : Msg) (hi : rd ≠ .ok ∨ req.isValid = false) :
    (handleRequest run auth t st rd req = ([.badRequest], st) ∧ rd = .parserError true) ∨
      handleRequest run auth t st rd req = ([.finish], st) := by
  unfold handleRequest
  rw [if_pos hi]
  split
  · exact .inl ⟨rfl, rfl⟩
  · exact .inr rfl

example : (handleRequest (H := Nat) (fun _ => .returns) (some fun q n => (q.resource == b! "/a", n + 1)) (build demo) 0 .ok
    (get (b! "/a/b"))) = ([.refused], 1) := by decide +kernel

/-- Every request gets exactly one answer; only a handler that throws gets a second call. -/
theorem one_answer {H σ : Type} (run : H → Ret) (auth : Option (Auth σ)) (t : Tables H) (st : σ)
    (rd : ReadResult) (req : Msg) :
    (∃ c, (handleRequest run auth t st rd req).1 = [c]) ∨
    ∃ h q, run h ≠ .returns ∧ ((handleRequest run auth t st rd req).1 = [.handler h q, .handlerError] ∨
      (handleRequest run auth t st rd req).1 = [.handler h q, .rethrow]) := by
  have hd : ∀ (m : SMap H) r q, (∃ c, dispatch run m r q = [c]) ∨ ∃ h q', run h ≠ .returns ∧
      (dispatch run m r q = [.handler h q', .handlerError] ∨ dispatch run m r q = [.handler h q', .rethrow]) := by
    intro m r q
    unfold dispatch
    split
    · exact .inl ⟨_, rfl⟩
    next h _ =>
      split
      · exact .inl ⟨_, rfl⟩
      next hr => exact .inr ⟨h, q, by simp [hr], .inl rfl⟩
      next hr => exact .inr ⟨h, q, by simp [hr], .inl rfl⟩
      next hr => exact .inr ⟨h, q, by simp [hr], .inr rfl⟩
  unfold handleRequest
  split
  · split <;> exact .inl ⟨_, rfl⟩
  · split
    · exact .inl ⟨_, rfl⟩
    · split
      · exact hd _ _ _
      · simp only
        split
        · exact hd _ _ _
        · exact .inl ⟨_, rfl⟩

end Verif.Props.Dispatch
