import Verif.Lemmas.SortedMap
import Verif.Spec.Dispatch
namespace Verif.Server
open SMap Spec.Paths Spec.Dispatch

theorem stripSlash_eq (s : Bytes) : stripSlash s = noSlash s := by
  induction s with
  | nil => rfl
  | cons c s ih =>
    cases s with
    | nil => by_cases h : c = c! "/" <;> simp [stripSlash, noSlash, h]
    | cons d r =>
      rw [noSlash, ← ih]
      unfold stripSlash
      rw [List.getLast?_cons_cons]
      split <;> simp

theorem noSlash_trimmed (r : Bytes) : Trimmed r (noSlash r) := by
  rw [← stripSlash_eq]
  unfold stripSlash Trimmed
  split
  next h =>
    left
    have hne : r ≠ [] := by rintro rfl; simp at h
    rw [List.getLast?_eq_some_getLast hne, Option.some.injEq] at h
    rw [← h, List.dropLast_concat_getLast hne]
  next h =>
    right
    refine ⟨rfl, ?_⟩
    rintro p rfl
    simp at h

theorem build_tables {H : Type} (ops : List (Op H)) :
    (fun k => (build ops).resources.lookup k) = handlers ops ∧
    (fun k => (build ops).redirects.lookup k) = Spec.Dispatch.redirects ops := by
  unfold build handlers Spec.Dispatch.redirects
  suffices ∀ (t : Tables H) (f : Table H) (g : Table Bytes), Sorted t.resources → Sorted t.redirects →
      (fun k => t.resources.lookup k) = f → (fun k => t.redirects.lookup k) = g →
      (fun k => (ops.foldl step t).resources.lookup k) = ops.foldl handlerStep f ∧
      (fun k => (ops.foldl step t).redirects.lookup k) = ops.foldl redirectStep g from
    this {} (fun _ => none) (fun _ => none) sorted_nil sorted_nil rfl rfl
  induction ops with
  | nil => intro t f g _ _ h1 h2; exact ⟨h1, h2⟩
  | cons op ops ih =>
    intro t f g hs1 hs2 h1 h2
    rw [List.foldl_cons, List.foldl_cons, List.foldl_cons]
    subst h1 h2
    cases op with
    | addResource r h =>
      apply ih
      · exact sorted_insert hs1 _ _
      · exact hs2
      · funext p
        simp only [step, handlerStep, lookup_insert hs1, stripSlash_eq]
        by_cases hp : p = noSlash r
        · subst hp; cases hl : lookup (noSlash r) t.resources <;> simp
        · simp [hp]
      · rfl
    | removeResource r =>
      apply ih
      · exact sorted_erase hs1 _
      · exact hs2
      · funext p
        simp only [step, handlerStep, lookup_erase, stripSlash_eq]
      · rfl
    | addRedirect r n =>
      apply ih
      · exact hs1
      · exact sorted_insert hs2 _ _
      · rfl
      · funext p
        simp only [step, redirectStep, lookup_insert hs2, stripSlash_eq]
        by_cases hp : p = noSlash r
        · subst hp; cases hl : lookup (noSlash r) t.redirects <;> simp
        · simp [hp]
    | clear =>
      apply ih
      · exact sorted_nil
      · exact hs2
      · rfl
      · rfl

/-- The redirect loop succeeds iff the chain of redirects ends after at most `fuel` steps. -/
theorem redirectLoop_some (m : SMap Bytes) (fuel : Nat) (r : Bytes) (req : Msg) (t : Bytes) (q : Msg) :
    redirectLoop m fuel r req = some (t, q) ↔
      ∃ n ≤ fuel, Follows (fun k => m.lookup k) n r t ∧ m.lookup t = none ∧
        q = if n = 0 then req else { req with resource := t } := by
  induction fuel generalizing r req with
  | zero =>
    rw [redirectLoop]
    constructor
    · intro h
      cases hl : m.lookup r with
      | none => rw [hl] at h; simp at h; obtain ⟨rfl, rfl⟩ := h; exact ⟨0, Nat.le_refl _, .stay _, hl, rfl⟩
      | some x => rw [hl] at h; simp at h
    · rintro ⟨n, hn, hf, hl, rfl⟩
      obtain rfl : n = 0 := by omega
      cases hf
      rw [hl]; rfl
  | succ fuel ih =>
    rw [redirectLoop]
    cases hl : m.lookup r with
    | none =>
      simp only [Option.some.injEq, Prod.mk.injEq]
      constructor
      · rintro ⟨rfl, rfl⟩; exact ⟨0, Nat.zero_le _, .stay _, hl, rfl⟩
      · rintro ⟨n, hn, hf, hl', rfl⟩
        cases hf with
        | stay => exact ⟨rfl, rfl⟩
        | next h _ => rw [hl] at h; cases h
    | some x =>
      simp only
      rw [ih]
      constructor
      · rintro ⟨n, hn, hf, hl', rfl⟩
        refine ⟨n + 1, by omega, .next hl hf, hl', ?_⟩
        by_cases h0 : n = 0
        · subst h0; cases hf; rfl
        · simp [h0]
      · rintro ⟨n, hn, hf, hl', rfl⟩
        cases hf with
        | stay => rw [hl] at hl'; cases hl'
        | @next n _ r' _ h hf =>
          rw [hl] at h; cases h
          refine ⟨n, by omega, hf, hl', ?_⟩
          by_cases h0 : n = 0
          · subst h0; cases hf; rfl
          · simp [h0]

theorem redirectLoop_none (m : SMap Bytes) (fuel : Nat) (r : Bytes) (req : Msg) :
    redirectLoop m fuel r req = none ↔ ∃ t, Follows (fun k => m.lookup k) (fuel + 1) r t := by
  induction fuel generalizing r req with
  | zero =>
    rw [redirectLoop]
    cases hl : m.lookup r with
    | none =>
      simp only [reduceCtorEq, false_iff]
      rintro ⟨t, hf⟩
      cases hf with | next h _ => rw [hl] at h; cases h
    | some x =>
      simp only [true_iff]
      exact ⟨x, .next hl (.stay _)⟩
  | succ fuel ih =>
    rw [redirectLoop]
    cases hl : m.lookup r with
    | none =>
      simp only [reduceCtorEq, false_iff]
      rintro ⟨t, hf⟩
      cases hf with | next h _ => rw [hl] at h; cases h
    | some x =>
      simp only
      rw [ih]
      constructor
      · rintro ⟨t, hf⟩; exact ⟨t, .next hl hf⟩
      · rintro ⟨t, hf⟩
        cases hf with | next h hf => rw [hl] at h; cases h; exact ⟨t, hf⟩

theorem Follows.deterministic {R : Table Bytes} {n : Nat} {r t t' : Bytes} (h : Follows R n r t)
    (h' : Follows R n r t') : t = t' := by
  induction h with
  | stay => cases h'; rfl
  | next h1 _ ih =>
    cases h' with
    | next h2 hf => rw [h1] at h2; cases h2; exact ih hf

theorem Follows.trans {R : Table Bytes} {n m : Nat} {r s t : Bytes} (h : Follows R n r s)
    (h' : Follows R m s t) : Follows R (n + m) r t := by
  induction h with
  | stay => simpa using h'
  | next h1 _ ih => rw [Nat.add_right_comm]; exact .next h1 (ih h')

theorem Follows.split {R : Table Bytes} {n m : Nat} {r t : Bytes} (h : Follows R (n + m) r t) :
    ∃ s, Follows R n r s ∧ Follows R m s t := by
  induction n generalizing r with
  | zero => exact ⟨r, .stay _, by simpa using h⟩
  | succ n ih =>
    rw [Nat.add_right_comm] at h
    cases h with
    | next h1 hf => obtain ⟨s, hs, ht⟩ := ih hf; exact ⟨s, .next h1 hs, ht⟩

/-- A cycle can be followed any number of times. -/
theorem Follows.cycle {R : Table Bytes} {n : Nat} {r : Bytes} (hn : 0 < n) (h : Follows R n r r) (k : Nat) :
    ∃ t, Follows R k r t := by
  have hk : ∀ j, Follows R (j * n) r r := by
    intro j
    induction j with
    | zero => simpa using Follows.stay r
    | succ j ih => rw [Nat.succ_mul]; exact Follows.trans ih h
  have hle : k ≤ k * n := Nat.le_mul_of_pos_right k hn
  have := hk k
  rw [← Nat.add_sub_cancel' hle] at this
  obtain ⟨s, hs, _⟩ := Follows.split this
  exact ⟨s, hs⟩

theorem mem_dispatch_handler {H : Type} {run : H → Ret} {m : SMap H} {r : Bytes} {req q : Msg} {h : H} :
    Call.handler h q ∈ dispatch run m r req ↔ findHandler m r = some h ∧ q = req := by
  unfold dispatch
  cases hf : findHandler m r with
  | none => simp
  | some h' =>
    simp only [Option.some.injEq]
    cases run h' <;> simp [eq_comm]

theorem mem_dispatch_notFound {H : Type} {run : H → Ret} {m : SMap H} {r : Bytes} {req : Msg} :
    Call.notFound ∈ dispatch run m r req ↔ findHandler m r = none := by
  unfold dispatch
  cases hf : findHandler m r with
  | none => simp
  | some h' =>
    simp only [reduceCtorEq, iff_false]
    cases run h' <;> simp

end Verif.Server
