import Verif.Lemmas.Dispatch
import Verif.Spec.ServerThreads
import Mathlib.Data.List.Induction
namespace Verif.ServerThreads
open Verif.Server Verif.Spec.Paths Verif.Spec.Dispatch Verif.Spec.ServerThreads
/-
Invariants of a server that is changed while it handles requests.
-/
variable {H : Type}

abbrev SSt (H : Type) := Verif.ServerThreads.St H

theorem run_snoc (hasAuth : Bool) (tr : List (Act H)) (x : Act H) (s' : SSt H) :
    run hasAuth (tr ++ [x]) = some s' ↔ ∃ s, run hasAuth tr = some s ∧ s.step hasAuth x = some s' := by
  unfold run
  rw [List.foldlM_append]
  cases h : List.foldlM (St.step hasAuth) ({} : SSt H) tr with
  | none => simp
  | some s => simp

theorem run_induct {hasAuth : Bool} {P : List (Act H) → SSt H → Prop} (h0 : P [] {})
    (hs : ∀ tr s x s', run hasAuth tr = some s → P tr s → s.step hasAuth x = some s' → P (tr ++ [x]) s')
    {tr : List (Act H)} {s : SSt H} (h : run hasAuth tr = some s) : P tr s := by
  induction tr using List.reverseRecOn generalizing s with
  | nil => cases h; exact h0
  | append_singleton tr x ih =>
    obtain ⟨s0, h1, h2⟩ := (run_snoc ..).1 h
    exact hs _ _ _ _ h1 (ih h1) h2

/-! ### Steps -/

/-- What an action does to a state. -/
inductive Steps (hasAuth : Bool) (s : SSt H) : Act H → SSt H → Prop
  | request {i req} : s.calls i = none → req.isValid = true →
      Steps hasAuth s (.request i req) (s.set i req (.redirect 0 (stripSlash req.resource) req) [])
  | step {i req pc pc' l} : s.calls i = some (req, pc) → own hasAuth s.tables pc = some (pc', l) →
      Steps hasAuth s (.step i) (s.set i req pc' l)
  | pass {i req r q} : s.calls i = some (req, .auth r q) → Steps hasAuth s (.auth i q true) (s.set i req (.find r q) [])
  | refuse {i req r q} : s.calls i = some (req, .auth r q) → Steps hasAuth s (.auth i q false) (s.set i req .ended [.refused])
  | returns {i req h q r} : s.calls i = some (req, .handling h q) →
      Steps hasAuth s (.returns i r) (s.set i req .ended (afterHandler r))
  | admin {op} : Steps hasAuth s (.admin op) { s with tables := Server.step s.tables op }

theorem steps_of {hasAuth : Bool} {s : SSt H} {x : Act H} {s' : SSt H} (h : s.step hasAuth x = some s') :
    Steps hasAuth s x s' := by
  cases x with
  | request i req =>
    simp only [St.step] at h
    split at h
    next hc =>
      split at h
      next hv => cases h; exact .request hc hv
      · cases h
    · cases h
  | step i =>
    simp only [St.step] at h
    split at h
    · cases h
    next req pc hc =>
      split at h
      · cases h
      next pc' l ho => cases h; exact .step hc ho
  | auth i given ok =>
    simp only [St.step] at h
    split at h
    next req r q hc =>
      split at h
      next e => subst e; cases h; cases ok <;> [exact .refuse hc; exact .pass hc]
      · cases h
    · cases h
  | returns i r =>
    simp only [St.step] at h
    split at h
    next req hd q hc => cases h; exact .returns hc
    · cases h
  | admin op => cases h; exact .admin

theorem set_self (s : SSt H) (i : Nat) (req : Msg) (pc : Pc H) (l : List (Call H)) :
    (s.set i req pc l).calls i = some (req, pc) := by simp [St.set]

theorem set_other (s : SSt H) {i k : Nat} (req : Msg) (pc : Pc H) (l : List (Call H)) (h : k ≠ i) :
    (s.set i req pc l).calls k = s.calls k := by simp [St.set, h]

theorem callsFor_self (s : SSt H) (i : Nat) (req : Msg) (pc : Pc H) (l : List (Call H)) :
    callsFor (s.set i req pc l) i = callsFor s i ++ l := by
  simp [callsFor, St.set, List.filter_map, Function.comp_def]

theorem callsFor_other (s : SSt H) {i k : Nat} (req : Msg) (pc : Pc H) (l : List (Call H)) (h : k ≠ i) :
    callsFor (s.set i req pc l) k = callsFor s k := by
  have : l.filter ((fun e : Nat × Call H => e.1 == k) ∘ fun c => (i, c)) = [] := by
    rw [List.filter_eq_nil_iff]
    intro c _
    simpa using fun e => h (Eq.symm e)
  simp [callsFor, St.set, List.filter_map, this]

theorem mem_log (s : SSt H) (i : Nat) (c : Call H) : (i, c) ∈ s.log ↔ c ∈ callsFor s i := by
  simp [callsFor]

theorem admin_snoc (tr : List (Act H)) (x : Act H) :
    admin (tr ++ [x]) = admin tr ++ (match x with | .admin op => [op] | _ => []) := by
  cases x <;> simp [admin]

theorem tables_eq {hasAuth : Bool} {tr : List (Act H)} {s : SSt H} (h : run hasAuth tr = some s) :
    s.tables = build (admin tr) := by
  refine run_induct (P := fun tr s => s.tables = build (admin tr)) rfl ?_ h
  intro tr s x s' _ ih hs
  rw [admin_snoc]
  cases steps_of hs with
  | admin => rw [build, List.foldl_append, ← build, ← ih]; rfl
  | _ => simpa [St.set] using ih

/-! ### Redirects are never changed -/

theorem redirects_snoc (ops : List (Op H)) (op : Op H) (p t : Bytes) (h : redirects ops p = some t) :
    redirects (ops ++ [op]) p = some t := by
  simp only [redirects, List.foldl_append, List.foldl_cons, List.foldl_nil] at h ⊢
  cases op with
  | addRedirect r n =>
    simp only [redirectStep]
    rw [if_neg (by rw [h]; simp), h]
  | _ => exact h

theorem follows_snoc {ops : List (Op H)} {op : Op H} {n : Nat} {r t : Bytes} (h : Follows (redirects ops) n r t) :
    Follows (redirects (ops ++ [op])) n r t := by
  induction h with
  | stay r => exact .stay r
  | next h1 _ ih => exact .next (redirects_snoc _ _ _ _ h1) ih

theorem follows_admin {tr : List (Act H)} {x : Act H} {n : Nat} {r t : Bytes} (h : Follows (redirects (admin tr)) n r t) :
    Follows (redirects (admin (tr ++ [x]))) n r t := by
  rw [admin_snoc]
  cases x with
  | admin op => exact follows_snoc h
  | _ => simpa using h

theorem lookup_redirect {hasAuth : Bool} {tr : List (Act H)} {s : SSt H} (h : run hasAuth tr = some s) (p : Bytes) :
    s.tables.redirects.lookup p = redirects (admin tr) p := by
  rw [tables_eq h, ← (build_tables (admin tr)).2]

/-! ### The invariant -/

/-- What holds of a call of `handle_request` at each of its points. -/
def At (hasAuth : Bool) (tr : List (Act H)) (s : SSt H) (i : Nat) (req : Msg) : Pc H → Prop
  | .redirect n r q => n ≤ 10 ∧ Follows (redirects (admin tr)) n (noSlash req.resource) r ∧ q = redirected req n r ∧
      callsFor s i = []
  | .auth r q => hasAuth = true ∧ callsFor s i = [] ∧ ∃ n a b, q = redirected req n r ∧ tr = a ++ b ∧ Open hasAuth a i ∧
      Ends (admin a) req n r
  | .find r q => callsFor s i = [] ∧ ∃ n a b, q = redirected req n r ∧ tr = a ++ b ∧ Open hasAuth a i ∧
      Ends (admin a) req n r ∧ (hasAuth = true → .auth i q true ∈ b)
  | .found x q => callsFor s i = [] ∧ ∃ n t, q = redirected req n t ∧
      Routed hasAuth tr i req n t fun ops => findHandler (build ops).resources t = x
  | .handling h q => callsFor s i = [.handler h q]
  | .ended => callsFor s i = [.redirectError] ∨ callsFor s i = [.refused] ∨ callsFor s i = [.notFound] ∨
      ∃ h q r, callsFor s i = .handler h q :: afterHandler r ∧ .returns i r ∈ tr

/-- What it means that something was called for a request. -/
def Fact (hasAuth : Bool) (tr : List (Act H)) (i : Nat) : Call H → Prop
  | .handler h q => ∃ req n t, q = redirected req n t ∧ Routed hasAuth tr i req n t fun ops => Longest (handlers ops) t h
  | .notFound => ∃ req n t, Routed hasAuth tr i req n t fun ops => Uncovered (handlers ops) t
  | .redirectError => ∃ req t a b, .request i req ∈ tr ∧ tr = a ++ b ∧ Open hasAuth a i ∧
      Follows (redirects (admin a)) 11 (noSlash req.resource) t
  | .refused => ∃ req n t a b, .request i req ∈ tr ∧ tr = a ++ b ∧ Open hasAuth a i ∧ Ends (admin a) req n t ∧ .auth i (redirected req n t) false ∈ b
  | .handlerError => ∃ r, (r = .throwsStd ∨ r = .throwsBoost) ∧ .returns i r ∈ tr
  | .rethrow => .returns i .throwsBadAlloc ∈ tr
  | .badRequest | .finish => False

theorem _root_.Verif.Spec.ServerThreads.Routed.snoc {hasAuth : Bool} {tr : List (Act H)} {i : Nat} {req : Msg} {n : Nat} {t : Bytes} {P : List (Op H) → Prop}
    (h : Routed hasAuth tr i req n t P) (x : Act H) : Routed hasAuth (tr ++ [x]) i req n t P := by
  obtain ⟨h1, a, b, c, rfl, h2, h3, h4, h5, h6⟩ := h
  exact ⟨List.mem_append_left _ h1, a, b, c ++ [x], by simp, h2, h3, h4, h5, h6⟩

theorem _root_.Verif.Spec.ServerThreads.Routed.imp {hasAuth : Bool} {tr : List (Act H)} {i : Nat} {req : Msg} {n : Nat} {t : Bytes} {P Q : List (Op H) → Prop}
    (h : Routed hasAuth tr i req n t P) (hq : ∀ ops, P ops → Q ops) : Routed hasAuth tr i req n t Q := by
  obtain ⟨h1, a, b, c, e, h2, h3, h4, h5, h6⟩ := h
  exact ⟨h1, a, b, c, e, h2, h3, h4, h5, hq _ h6⟩

theorem Fact.snoc {hasAuth : Bool} {tr : List (Act H)} {i : Nat} {c : Call H} (h : Fact hasAuth tr i c) (x : Act H) :
    Fact hasAuth (tr ++ [x]) i c := by
  cases c with
  | handler h' q => obtain ⟨req, n, t, e, h⟩ := h; exact ⟨req, n, t, e, h.snoc x⟩
  | notFound => obtain ⟨req, n, t, h⟩ := h; exact ⟨req, n, t, h.snoc x⟩
  | redirectError =>
    obtain ⟨req, t, a, b, h1, rfl, h2, h3⟩ := h
    exact ⟨req, t, a, b ++ [x], List.mem_append_left _ h1, by simp, h2, h3⟩
  | refused =>
    obtain ⟨req, n, t, a, b, h1, rfl, h2, h3, h4⟩ := h
    exact ⟨req, n, t, a, b ++ [x], List.mem_append_left _ h1, by simp, h2, h3, List.mem_append_left _ h4⟩
  | handlerError => obtain ⟨r, h1, h2⟩ := h; exact ⟨r, h1, List.mem_append_left _ h2⟩
  | rethrow => exact List.mem_append_left _ h
  | badRequest => exact h
  | finish => exact h

/-- Another action does not change what holds of a call. -/
theorem At.other {hasAuth : Bool} {tr : List (Act H)} {s s' : SSt H} {i : Nat} {req : Msg} {pc : Pc H}
    (h : At hasAuth tr s i req pc) (x : Act H) (hc : callsFor s' i = callsFor s i) : At hasAuth (tr ++ [x]) s' i req pc := by
  cases pc with
  | redirect n r q => exact ⟨h.1, follows_admin h.2.1, h.2.2.1, hc ▸ h.2.2.2⟩
  | auth r q =>
    obtain ⟨h1, h2, n, a, b, h3, rfl, h4, h5⟩ := h
    exact ⟨h1, hc ▸ h2, n, a, b ++ [x], h3, by simp, h4, h5⟩
  | find r q =>
    obtain ⟨h2, n, a, b, h3, rfl, h4, h5, h6⟩ := h
    exact ⟨hc ▸ h2, n, a, b ++ [x], h3, by simp, h4, h5, fun e => List.mem_append_left _ (h6 e)⟩
  | found y q =>
    obtain ⟨h2, n, t, h3, h4⟩ := h
    exact ⟨hc ▸ h2, n, t, h3, h4.snoc x⟩
  | handling h' q => exact hc.trans h
  | ended =>
    unfold At at h ⊢
    rw [hc]
    rcases h with h | h | h | ⟨h', q, r, h1, h2⟩
    · exact .inl h
    · exact .inr (.inl h)
    · exact .inr (.inr (.inl h))
    · exact .inr (.inr (.inr ⟨h', q, r, h1, List.mem_append_left _ h2⟩))

structure Inv (hasAuth : Bool) (tr : List (Act H)) (s : SSt H) : Prop where
  new : ∀ i, s.calls i = none → callsFor s i = [] ∧ ∀ req, .request i req ∉ tr
  came : ∀ i req pc, s.calls i = some (req, pc) → req.isValid = true ∧ ∀ r, .request i r ∈ tr ↔ r = req
  at_ : ∀ i req pc, s.calls i = some (req, pc) → At hasAuth tr s i req pc
  facts : ∀ i c, c ∈ callsFor s i → Fact hasAuth tr i c

theorem redirected_next (req : Msg) (n : Nat) (r t : Bytes) :
    { redirected req n r with resource := t } = redirected req (n + 1) t := by
  unfold redirected
  split <;> simp

theorem follows_end {R : Table Bytes} {n : Nat} {r t t' : Bytes} (h : Follows R n r t) (h' : R t = some t') :
    Follows R (n + 1) r t' := by
  induction h with
  | stay r => exact .next h' (.stay _)
  | next h1 _ ih => exact .next h1 (ih h')

/-- One step of a call: what holds afterwards, and what is meant by what it has called. -/
theorem own_at {hasAuth : Bool} {tr : List (Act H)} {s : SSt H} (h : run hasAuth tr = some s) {i : Nat} {req : Msg} {pc : Pc H}
    (hreq : .request i req ∈ tr) (ha : At hasAuth tr s i req pc) {pc' : Pc H} {l : List (Call H)}
    (ho : own hasAuth s.tables pc = some (pc', l)) :
    At hasAuth (tr ++ [.step i]) (s.set i req pc' l) i req pc' ∧ ∀ c ∈ l, Fact hasAuth (tr ++ [.step i]) i c := by
  have hreq' : (.request i req : Act H) ∈ tr ++ [.step i] := List.mem_append_left _ hreq
  cases pc with
  | redirect n r q =>
    obtain ⟨h1, h2, h3, h4⟩ := ha
    have hopen : Open hasAuth tr i := ⟨⟨req, hreq⟩, s, h, h4⟩
    simp only [own, lookup_redirect h] at ho
    split at ho
    · rename_i hn
      have hends : Ends (admin tr) req n r := ⟨h1, h2, hn⟩
      cases ho
      refine ⟨?_, by simp⟩
      cases hasAuth with
      | true => exact ⟨rfl, by rw [callsFor_self, h4]; rfl, n, tr, _, h3, rfl, hopen, hends⟩
      | false => exact ⟨by rw [callsFor_self, h4]; rfl, n, tr, _, h3, rfl, hopen, hends, nofun⟩
    · rename_i t ht
      have hf := follows_end h2 ht
      split at ho
      · rename_i hm
        cases ho
        have hn : n = 10 := by unfold MAX_REDIRECTS at hm; omega
        subst hn
        refine ⟨.inl (by rw [callsFor_self, h4]; rfl), ?_⟩
        intro c hc
        rw [List.mem_singleton] at hc
        subst hc
        exact ⟨req, t, tr, _, hreq', rfl, hopen, hf⟩
      · rename_i hm
        cases ho
        refine ⟨⟨by unfold MAX_REDIRECTS at hm; omega, follows_admin hf, ?_, by rw [callsFor_self, h4]; rfl⟩, by simp⟩
        rw [h3, redirected_next]
  | find r q =>
    obtain ⟨h2, n, a, b, h3, e, h4, h5, h6⟩ := ha
    have hopen : Open hasAuth tr i := ⟨⟨req, hreq⟩, s, h, h2⟩
    cases ho
    refine ⟨⟨by rw [callsFor_self, h2]; rfl, n, r, h3, hreq', a, b, [.step i], by rw [e], h4, h5, h3 ▸ h6, by rw [← e]; exact hopen, ?_⟩,
      by simp⟩
    show findHandler (build (admin (a ++ b))).resources r = _
    rw [← e, ← tables_eq h]
  | found x q =>
    obtain ⟨h2, n, t, h3, h4⟩ := ha
    cases x with
    | none =>
      cases ho
      refine ⟨.inr (.inr (.inl (by rw [callsFor_self, h2]; rfl))), ?_⟩
      intro c hc
      rw [List.mem_singleton] at hc
      subst hc
      refine ⟨req, n, t, (h4.snoc _).imp fun ops hf => ?_⟩
      rwa [findHandler_eq, Option.map_eq_none_iff, walkBack_uncovered (build_sorted ops).1, (build_tables ops).1] at hf
    | some h' =>
      cases ho
      refine ⟨by simp only [At]; rw [callsFor_self, h2]; rfl, ?_⟩
      intro c hc
      rw [List.mem_singleton] at hc
      subst hc
      refine ⟨req, n, t, h3, (h4.snoc _).imp fun ops hf => ?_⟩
      rwa [findHandler_eq, walkBack_longest (build_sorted ops).1, (build_tables ops).1] at hf
  | auth r q => cases ho
  | handling h' q => cases ho
  | ended => cases ho

theorem Inv.set {hasAuth : Bool} {tr : List (Act H)} {s : SSt H} (hi : Inv hasAuth tr s) {i : Nat} {req : Msg} {pc pc' : Pc H}
    (hc : s.calls i = some (req, pc)) {x : Act H} {l : List (Call H)} (hx : ∀ k r, x ≠ .request k r)
    (h1 : At hasAuth (tr ++ [x]) (s.set i req pc' l) i req pc') (h2 : ∀ c ∈ l, Fact hasAuth (tr ++ [x]) i c) :
    Inv hasAuth (tr ++ [x]) (s.set i req pc' l) := by
  have hmem : ∀ k r, (.request k r : Act H) ∈ tr ++ [x] ↔ .request k r ∈ tr := by
    intro k r
    rw [List.mem_append, List.mem_singleton]
    exact ⟨fun e => e.elim id fun e => absurd e.symm (hx k r), .inl⟩
  refine ⟨?_, ?_, ?_, ?_⟩
  · intro k hk
    by_cases hki : k = i
    · subst hki; rw [set_self] at hk; cases hk
    · rw [set_other _ _ _ _ hki] at hk
      rw [callsFor_other _ _ _ _ hki]
      exact ⟨(hi.new k hk).1, fun r hr => (hi.new k hk).2 r ((hmem k r).1 hr)⟩
  · intro k rq p hk
    by_cases hki : k = i
    · subst hki; rw [set_self] at hk; cases hk
      exact ⟨(hi.came _ _ _ hc).1, fun r => (hmem _ r).trans ((hi.came _ _ _ hc).2 r)⟩
    · rw [set_other _ _ _ _ hki] at hk
      exact ⟨(hi.came _ _ _ hk).1, fun r => (hmem _ r).trans ((hi.came _ _ _ hk).2 r)⟩
  · intro k rq p hk
    by_cases hki : k = i
    · subst hki; rw [set_self] at hk; cases hk; exact h1
    · rw [set_other _ _ _ _ hki] at hk
      exact (hi.at_ _ _ _ hk).other x (callsFor_other _ _ _ _ hki)
  · intro k c hcm
    by_cases hki : k = i
    · subst hki
      rw [callsFor_self, List.mem_append] at hcm
      exact hcm.elim (fun h => (hi.facts _ _ h).snoc x) (h2 c)
    · rw [callsFor_other _ _ _ _ hki] at hcm
      exact (hi.facts _ _ hcm).snoc x

theorem inv {hasAuth : Bool} {tr : List (Act H)} {s : SSt H} (h : run hasAuth tr = some s) : Inv hasAuth tr s := by
  have h0 : Inv hasAuth ([] : List (Act H)) {} := by
    refine ⟨fun _ _ => ⟨rfl, fun _ h => ?_⟩, fun _ _ _ h => ?_, fun _ _ _ h => ?_, fun _ _ h => ?_⟩
    · cases h
    · cases h
    · cases h
    · cases h
  refine run_induct (P := fun tr s => Inv hasAuth tr s) h0 ?_ h
  intro tr s x s' hrun hi hs
  cases steps_of hs with
  | @request i req hc hv =>
    have hnew := hi.new i hc
    refine ⟨?_, ?_, ?_, ?_⟩
    · intro k hk
      by_cases hki : k = i
      · subst hki; rw [set_self] at hk; cases hk
      · rw [set_other _ _ _ _ hki] at hk
        rw [callsFor_other _ _ _ _ hki]
        refine ⟨(hi.new k hk).1, fun r hr => ?_⟩
        rcases List.mem_append.1 hr with hr | hr
        · exact (hi.new k hk).2 r hr
        · rw [List.mem_singleton] at hr
          cases hr
          exact hki rfl
    · intro k rq p hk
      by_cases hki : k = i
      · subst hki; rw [set_self] at hk; cases hk
        refine ⟨hv, fun r => ?_⟩
        simp only [List.mem_append, List.mem_singleton, Act.request.injEq, true_and]
        exact ⟨fun e => e.elim (fun e => absurd e (hnew.2 r)) id, .inr⟩
      · rw [set_other _ _ _ _ hki] at hk
        refine ⟨(hi.came _ _ _ hk).1, fun r => ?_⟩
        simp only [List.mem_append, List.mem_singleton, Act.request.injEq, hki, false_and, or_false]
        exact (hi.came _ _ _ hk).2 r
    · intro k rq p hk
      by_cases hki : k = i
      · subst hki; rw [set_self] at hk; cases hk
        refine ⟨by omega, by rw [stripSlash_eq]; exact .stay _, rfl, by rw [callsFor_self, hnew.1]; rfl⟩
      · rw [set_other _ _ _ _ hki] at hk
        exact (hi.at_ _ _ _ hk).other _ (callsFor_other _ _ _ _ hki)
    · intro k c hcm
      by_cases hki : k = i
      · subst hki
        rw [callsFor_self, List.append_nil] at hcm
        exact (hi.facts _ _ hcm).snoc _
      · rw [callsFor_other _ _ _ _ hki] at hcm
        exact (hi.facts _ _ hcm).snoc _
  | @step i req pc pc' l hc ho =>
    obtain ⟨h1, h2⟩ := own_at hrun (((hi.came _ _ _ hc).2 req).2 rfl) (hi.at_ _ _ _ hc) ho
    exact hi.set hc nofun h1 h2
  | @pass i req r q hc =>
    obtain ⟨h1, h2, n, a, b, h3, e, h4, h5⟩ := hi.at_ _ _ _ hc
    refine hi.set hc nofun ⟨by rw [callsFor_self, h2]; rfl, n, a, b ++ [.auth i q true], h3, by rw [e]; simp, h4, h5, ?_⟩ nofun
    simp
  | @refuse i req r q hc =>
    obtain ⟨h1, h2, n, a, b, h3, e, h4, h5⟩ := hi.at_ _ _ _ hc
    refine hi.set hc nofun (.inr (.inl (by rw [callsFor_self, h2]; rfl))) ?_
    intro c hcm
    rw [List.mem_singleton] at hcm
    subst hcm
    exact ⟨req, n, r, a, b ++ [.auth i q false], List.mem_append_left _ (((hi.came _ _ _ hc).2 req).2 rfl), by rw [e]; simp, h4, h5,
      by rw [← h3]; simp⟩
  | @returns i req h' q r hc =>
    have h1 : callsFor s i = [.handler h' q] := hi.at_ _ _ _ hc
    refine hi.set hc nofun (.inr (.inr (.inr ⟨h', q, r, by rw [callsFor_self, h1]; rfl, by simp⟩))) ?_
    intro c hcm
    cases r with
    | returns => exact nomatch hcm
    | throwsStd => rw [afterHandler, List.mem_singleton] at hcm; subst hcm; exact ⟨_, .inl rfl, by simp⟩
    | throwsBoost => rw [afterHandler, List.mem_singleton] at hcm; subst hcm; exact ⟨_, .inr rfl, by simp⟩
    | throwsBadAlloc =>
      rw [afterHandler, List.mem_singleton] at hcm; subst hcm
      exact List.mem_append_right _ (List.mem_singleton.2 rfl)
  | @admin op =>
    have hm : ∀ k r, (.request k r : Act H) ∈ tr ++ [.admin op] ↔ .request k r ∈ tr := by simp
    refine ⟨fun k hk => ⟨(hi.new k hk).1, fun r hr => (hi.new k hk).2 r ((hm k r).1 hr)⟩,
      fun k rq p hk => ⟨(hi.came _ _ _ hk).1, fun r => (hm k r).trans ((hi.came _ _ _ hk).2 r)⟩,
      fun k rq p hk => (hi.at_ _ _ _ hk).other _ rfl, fun k c hc => (hi.facts _ _ hc).snoc _⟩

/-! ### Steps are bounded -/

/-- The actions that a call may still make. -/
def left : Pc H → Nat
  | .redirect n _ _ => 15 - n
  | .auth _ _ => 4
  | .find _ _ => 3
  | .found _ _ => 2
  | .handling _ _ => 1
  | .ended => 0

def by_ (i : Nat) : Act H → Nat
  | .step k => if k = i then 1 else 0
  | .auth k _ _ => if k = i then 1 else 0
  | .returns k _ => if k = i then 1 else 0
  | _ => 0

theorem actsOf_snoc (tr : List (Act H)) (x : Act H) (i : Nat) : actsOf (tr ++ [x]) i = actsOf tr i + by_ i x := by
  unfold actsOf
  rw [List.filter_append, List.length_append]
  congr 1
  cases x with
  | step k => by_cases h : k = i <;> simp [by_, h]
  | auth k q ok => by_cases h : k = i <;> simp [by_, h]
  | returns k r => by_cases h : k = i <;> simp [by_, h]
  | request k r => rfl
  | admin op => rfl

theorem own_left {hasAuth : Bool} {t : Tables H} {pc pc' : Pc H} {l : List (Call H)} (hn : ∀ n r q, pc = .redirect n r q → n ≤ 10)
    (h : own hasAuth t pc = some (pc', l)) : left pc' + 1 ≤ left pc := by
  cases pc with
  | redirect n r q =>
    have := hn n r q rfl
    simp only [own] at h
    split at h
    · cases h
      cases hasAuth <;> simp only [left, Bool.false_eq_true, if_true, if_false] <;> omega
    · split at h <;> cases h <;> simp only [left] <;> omega
  | find r q => cases h; simp [left]
  | found x q => cases x <;> cases h <;> simp [left]
  | auth r q => cases h
  | handling h' q => cases h
  | ended => cases h

theorem acts_left {hasAuth : Bool} {tr : List (Act H)} {s : SSt H} (h : run hasAuth tr = some s) :
    ∀ i, (s.calls i = none → actsOf tr i = 0) ∧ ∀ req pc, s.calls i = some (req, pc) → actsOf tr i + left pc ≤ 15 := by
  refine run_induct (P := fun tr s => ∀ i, (s.calls i = none → actsOf tr i = 0) ∧
    ∀ req pc, s.calls i = some (req, pc) → actsOf tr i + left pc ≤ 15) ?_ ?_ h
  · intro i
    refine ⟨fun _ => rfl, fun _ _ h => ?_⟩
    cases h
  intro tr s x s' hrun ih hs k
  rw [actsOf_snoc]
  have key : ∀ {i req pc pc' l}, s.calls i = some (req, pc) → left pc' + 1 ≤ left pc → ∀ e, (e = if i = k then 1 else 0) →
      ((s.set i req pc' l).calls k = none → actsOf tr k + e = 0) ∧
      ∀ rq p, (s.set i req pc' l).calls k = some (rq, p) → actsOf tr k + e + left p ≤ 15 := by
    intro i req pc pc' l hc hl e he
    by_cases hki : k = i
    · subst hki
      rw [if_pos rfl] at he
      rw [set_self]
      refine ⟨nofun, fun rq p hp => ?_⟩
      cases hp
      have := (ih k).2 _ _ hc
      omega
    · rw [if_neg (fun e => hki e.symm)] at he
      rw [set_other _ _ _ _ hki, he]
      simpa using ih k
  cases steps_of hs with
  | @request i req hc hv =>
    by_cases hki : k = i
    · subst hki
      rw [set_self]
      refine ⟨nofun, fun rq p hp => ?_⟩
      cases hp
      simp [(ih k).1 hc, left, by_]
    · rw [set_other _ _ _ _ hki]; exact ih k
  | @step i req pc pc' l hc ho =>
    refine key hc (own_left ?_ ho) _ rfl
    intro n r q e
    subst e
    exact ((inv hrun).at_ _ _ _ hc).1
  | @pass i req r q hc => exact key hc (by simp [left]) _ rfl
  | @refuse i req r q hc => exact key hc (by simp [left]) _ rfl
  | @returns i req h' q r hc => exact key hc (by simp [left]) _ rfl
  | @admin op => exact ih k

end Verif.ServerThreads
