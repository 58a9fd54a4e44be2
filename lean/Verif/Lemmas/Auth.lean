import Verif.Lemmas.Dispatch
import Verif.Lemmas.Users
import Verif.Spec.Auth
import Mathlib.Data.List.Induction
namespace Verif.Auth
open SMap Server Users Spec.Paths Spec.Dispatch Spec.Auth

theorem restricted_snoc (h : List Event) (ev : Event) :
    restricted (h ++ [ev]) = restricted h ++ (match ev with | .restrict r => [noSlash r] | _ => []) := by
  unfold restricted; rw [List.filterMap_append]; cases ev <;> rfl

theorem permitted_snoc (h : List Event) (ev : Event) :
    permitted (h ++ [ev]) = permitted h ++ (match ev with | .permit r => [noSlash r] | _ => []) := by
  unfold permitted; rw [List.filterMap_append]; cases ev <;> rfl

theorem usersOf_snoc (e : Env) (h : List Event) (ev : Event) :
    usersOf e (h ++ [ev]) = (match ev with | .users op => (Users.step e.build (usersOf e h) op).1 | _ => usersOf e h) := by
  unfold usersOf userOps; rw [List.filterMap_append]
  cases ev with
  | users op => simp [Users.run, List.foldl_append]
  | _ => simp

theorem times_snoc (h : List Event) (ev : Event) :
    times (h ++ [ev]) = times h ++ (match ev with | .request t _ _ => [t] | _ => []) := by
  unfold times; rw [List.filterMap_append]; cases ev <;> rfl

/-- Requests change neither users nor paths. -/
def Keeps (handle : Nat → Bytes → St → Msg → Verdict × St) : Prop :=
  ∀ now rand s req, (handle now rand s req).2.users = s.users ∧ (handle now rand s req).2.paths = s.paths

/-- State after a history, for any authenticator. -/
def after (b : Build) (handle : Nat → Bytes → St → Msg → Verdict × St) (t0 : Nat) (h : List Event) : St :=
  h.foldl (event b handle) { cleanup := t0 }

theorem after_snoc (b : Build) (handle) (t0 : Nat) (h : List Event) (ev : Event) :
    after b handle t0 (h ++ [ev]) = event b handle (after b handle t0 h) ev := by
  unfold after; rw [List.foldl_append]; rfl

theorem after_users {e : Env} {handle} (hk : Keeps handle) (t0 : Nat) (h : List Event) :
    (after e.build handle t0 h).users = usersOf e h := by
  induction h using List.reverseRecOn with
  | nil => rfl
  | append_singleton h ev ih =>
    rw [after_snoc, usersOf_snoc]
    cases ev with
    | request now rand req => exact ((hk now rand _ req).1).trans ih
    | users op => simp only [event, ih]
    | restrict r => exact ih
    | permit r => exact ih

theorem mem_insert_unit (s : SMap Unit) (hs : Sorted s) (k : Bytes) (e : Bytes × Unit) :
    e ∈ s.insert k () ↔ e ∈ s ∨ e.1 = k := by
  obtain ⟨x, ⟨⟩⟩ := e
  rw [← lookup_eq_some (sorted_insert hs k ()), ← lookup_eq_some hs, lookup_insert hs]
  by_cases hx : x = k
  · subst hx; cases lookup x s <;> simp
  · simp [hx]

theorem after_paths {b : Build} {handle} (hk : Keeps handle) (t0 : Nat) (h : List Event) :
    Sorted (after b handle t0 h).paths.restrict ∧ Sorted (after b handle t0 h).paths.white ∧
    (∀ e : Bytes × Unit, e ∈ (after b handle t0 h).paths.restrict ↔ e.1 ∈ restricted h) ∧
    (∀ e : Bytes × Unit, e ∈ (after b handle t0 h).paths.white ↔ e.1 ∈ permitted h) := by
  induction h using List.reverseRecOn with
  | nil => exact ⟨sorted_nil, sorted_nil, by simp [after, restricted], by simp [after, permitted]⟩
  | append_singleton h ev ih =>
    obtain ⟨h1, h2, h3, h4⟩ := ih
    rw [after_snoc, restricted_snoc, permitted_snoc]
    cases ev with
    | request now rand req =>
      simp only [event, (hk now rand _ req).2, List.append_nil]; exact ⟨h1, h2, h3, h4⟩
    | users op => simp only [event, List.append_nil]; exact ⟨h1, h2, h3, h4⟩
    | restrict r =>
      refine ⟨sorted_insert h1 _ _, h2, fun e => ?_, by simpa [event, addRestrict] using h4⟩
      simp only [event, addRestrict]
      rw [mem_insert_unit _ h1, h3, stripSlash_eq]; simp
    | permit r =>
      refine ⟨h1, sorted_insert h2 _ _, by simpa [event, addPermit] using h3, fun e => ?_⟩
      simp only [event, addPermit]
      rw [mem_insert_unit _ h2, h4, stripSlash_eq]; simp

theorem findResource_iff {s : SMap Unit} (hs : Sorted s) (r : Bytes) :
    findResource s r = true ↔ ∃ e ∈ s, Covers e.1 r := by
  unfold findResource
  have := walkBack_none hs (r := r)
  cases hw : walkBack s r with
  | none => simp only [Option.isSome_none, Bool.false_eq_true, false_iff]; rw [hw] at this; simpa using this.1 rfl
  | some e =>
    simp only [Option.isSome_some, true_iff]
    exact ⟨e, (walkBack_some hs hw).1, (walkBack_some hs hw).2.1⟩

theorem isEmpty_users (m : Manager) : isEmpty m = false ↔ ∃ n, (getUser m n).isSome = true := by
  unfold isEmpty getUser
  cases m with
  | nil => simp [lookup]
  | cons a r => simp only [List.isEmpty_cons, true_iff]; exact ⟨a.1, by simp [lookup]⟩

/-- C33 in terms of the lists of paths. -/
theorem needAuthentication_iff (users : Manager) (p : Paths) (h1 : Sorted p.restrict) (h2 : Sorted p.white) (req : Msg) :
    needAuthentication users p req = true ↔
      (∃ n, (getUser users n).isSome = true) ∧ (∃ e ∈ p.restrict, Covers e.1 (noSlash req.resource)) ∧
        ∀ e ∈ p.white, ¬Covers e.1 (noSlash req.resource) := by
  unfold needAuthentication
  rw [stripSlash_eq, ← isEmpty_users, ← findResource_iff h1]
  have hw : (∀ e ∈ p.white, ¬Covers e.1 (noSlash req.resource)) ↔ findResource p.white (noSlash req.resource) = false := by
    rw [← Bool.not_eq_true, findResource_iff h2]; push Not; rfl
  rw [hw]
  cases he : isEmpty users with
  | true => simp
  | false =>
    simp only [Bool.false_eq_true, if_false, true_and]
    cases hr : p.restrict.isEmpty with
    | true =>
      have : p.restrict = [] := by simpa using hr
      simp [this, findResource, walkBack, SMap.upTo]
    | false =>
      simp only [Bool.false_eq_true, if_false]
      cases findResource p.restrict (noSlash req.resource) with
      | false => simp
      | true =>
        simp only [if_true, true_and]
        cases hwe : p.white.isEmpty with
        | true =>
          have : p.white = [] := by simpa using hwe
          simp [this, findResource, walkBack, SMap.upTo]
        | false => simp

theorem needs_iff {e : Env} {handle} (hk : Keeps handle) (t0 : Nat) (h : List Event) (req : Msg) :
    needAuthentication (after e.build handle t0 h).users (after e.build handle t0 h).paths req = true ↔
      Needs e h req := by
  obtain ⟨h1, h2, h3, h4⟩ := after_paths (b := e.build) hk t0 h
  rw [needAuthentication_iff _ _ h1 h2, after_users hk]
  unfold Needs
  constructor
  · rintro ⟨a, ⟨x, hx, hc⟩, d⟩
    exact ⟨a, ⟨x.1, (h3 x).1 hx, hc⟩, fun p hp => d (p, ()) ((h4 (p, ())).2 hp)⟩
  · rintro ⟨a, ⟨x, hx, hc⟩, d⟩
    exact ⟨a, ⟨(x, ()), (h3 (x, ())).2 hx, hc⟩, fun p hp => d p.1 ((h4 p).1 hp)⟩

theorem expire_users (l now : Nat) (s : St) : (expire l now s).users = s.users := by
  unfold expire; split <;> rfl
theorem expire_paths (l now : Nat) (s : St) : (expire l now s).paths = s.paths := by
  unfold expire; split <;> rfl

theorem basicCheck_keeps (e : Env) (now : Nat) (s : St) (c : Bytes) :
    (basicCheck e now s c).2.users = s.users ∧ (basicCheck e now s c).2.paths = s.paths ∧
      (basicCheck e now s c).2.cleanup = s.cleanup := by
  unfold basicCheck
  split
  · exact ⟨rfl, rfl, rfl⟩
  · split
    · exact ⟨rfl, rfl, rfl⟩
    · split <;> exact ⟨rfl, rfl, rfl⟩

theorem keeps_basic (e : Env) : Keeps fun now _ => basic e now := by
  intro now rand s req
  simp only [basic]
  split
  · split
    · exact ⟨expire_users .., expire_paths ..⟩
    · have := basicCheck_keeps e now (expire BASIC_EXPIRATION now s)
      exact ⟨(this _).1.trans (expire_users ..), (this _).2.1.trans (expire_paths ..)⟩
  · exact ⟨rfl, rfl⟩

theorem processLogin_keeps {e : Env} {o : Opts} {now : Nat} {rand : Bytes} {s : St} {req : Msg} {v : Verdict} {s' : St}
    (h : processLogin e o now rand s req = some (v, s')) :
    s'.users = s.users ∧ s'.paths = s.paths ∧ s'.cleanup = s.cleanup := by
  unfold processLogin at h
  simp only at h
  split at h
  · cases h
  · split at h
    · split at h
      · cases h; exact ⟨rfl, rfl, rfl⟩
      · cases h; exact ⟨rfl, rfl, rfl⟩
    · simp only [Option.some.injEq, Prod.mk.injEq] at h
      obtain ⟨rfl, rfl⟩ := h
      split <;> exact ⟨rfl, rfl, rfl⟩

theorem cookieCheck_keeps (e : Env) (o : Opts) (now : Nat) (s : St) (req : Msg) :
    (cookieCheck e o now s req).2.users = s.users ∧ (cookieCheck e o now s req).2.paths = s.paths ∧
      (cookieCheck e o now s req).2.cleanup = s.cleanup := by
  unfold cookieCheck
  simp only
  split
  · exact ⟨rfl, rfl, rfl⟩
  · split <;> exact ⟨rfl, rfl, rfl⟩

theorem keeps_cookie (e : Env) (o : Opts) : Keeps fun now rand => cookie e o now rand := by
  intro now rand s req
  simp only [cookie]
  split
  next v h => obtain ⟨v, s'⟩ := v; exact ⟨(processLogin_keeps h).1, (processLogin_keeps h).2.1⟩
  · split
    · split
      · exact ⟨rfl, rfl⟩
      · have := cookieCheck_keeps e o now (expire COOKIE_EXPIRATION now s) req
        exact ⟨this.1.trans (expire_users ..), this.2.1.trans (expire_paths ..)⟩
    · exact ⟨rfl, rfl⟩

theorem presented_iff (e : Env) (req : Msg) (c : Bytes) : presented e req = some c ↔ Presents e req c := by
  unfold presented Presents parseAuthorization
  simp only
  generalize req.headers.get e.ord (b! "Authorization") = a
  constructor
  · intro h
    split at h
    · cases h
    · split at h
      next hp =>
        split at h
        · cases h
        next hne =>
          cases h
          obtain ⟨r, rfl⟩ := List.isPrefixOf_iff_prefix.1 hp
          have hd : (b! "Basic " ++ r).drop 6 = r := by simp
          rw [hd] at hne ⊢
          exact ⟨rfl, by simpa using hne⟩
      · cases h
  · rintro ⟨rfl, hne⟩
    have hp : (b! "Basic ").isPrefixOf (b! "Basic " ++ c) = true := List.isPrefixOf_iff_prefix.2 (List.prefix_append ..)
    have hd : (b! "Basic " ++ c).drop 6 = c := by simp
    rw [if_neg (by simp), if_pos hp, hd, if_neg (by simpa using hne)]

theorem idxOf?_some {l : Bytes} {c : UInt8} {i : Nat} (h : l.idxOf? c = some i) :
    l = l.take i ++ c :: l.drop (i + 1) ∧ c ∉ l.take i ∧ i < l.length := by
  induction l generalizing i with
  | nil => simp [List.idxOf?] at h
  | cons x l ih =>
    rw [List.idxOf?_cons] at h
    by_cases hx : x = c
    · simp [hx] at h; subst h; simp [hx]
    · simp only [beq_iff_eq, hx, if_false, Option.map_eq_some_iff] at h
      obtain ⟨j, hj, rfl⟩ := h
      obtain ⟨h1, h2, h3⟩ := ih hj
      simp only [List.take_succ_cons, List.cons_append, List.drop_succ_cons, List.mem_cons, not_or, List.length_cons]
      exact ⟨by rw [← h1], ⟨Ne.symm hx, h2⟩, by omega⟩

theorem idxOf?_append {n p : Bytes} {c : UInt8} (h : c ∉ n) : (n ++ c :: p).idxOf? c = some n.length := by
  induction n with
  | nil => simp [List.idxOf?_cons]
  | cons x n ih =>
    simp only [List.mem_cons, not_or] at h
    rw [List.cons_append, List.idxOf?_cons, ih h.2]
    simp [Ne.symm h.1]

theorem parseCredentials_iff (e : Env) (c name pw : Bytes) :
    parseCredentials e c = some (name, pw) ↔
      decodeCredentials e c = some (name ++ c! ":" :: pw) ∧ name ≠ [] ∧ c! ":" ∉ name := by
  unfold parseCredentials
  constructor
  · intro h
    split at h
    · cases h
    next up hu =>
      split at h
      · cases h
      · cases h
      next i hne hi =>
        cases h
        obtain ⟨h1, h2, h3⟩ := idxOf?_some hi
        refine ⟨?_, ?_, h2⟩
        · rw [hu]; exact congrArg some h1
        · intro h0
          have : (up.take i).length = 0 := by rw [h0]; rfl
          rw [List.length_take] at this
          have : i = 0 := by omega
          exact hne this
  · rintro ⟨hd, hne, hm⟩
    rw [hd]
    simp only [idxOf?_append hm]
    have hpos : 0 < name.length := List.length_pos_iff.2 hne
    obtain ⟨k, hk⟩ : ∃ k, name.length = k + 1 := ⟨name.length - 1, by omega⟩
    rw [hk]
    simp only
    have h1 : (name ++ c! ":" :: pw).take (k + 1) = name := by rw [← hk]; simp
    have h2 : (name ++ c! ":" :: pw).drop (k + 1 + 1) = pw := by rw [← hk]; simp
    rw [h1, h2]

theorem correct_iff (e : Env) (h : List Event) (c name : Bytes) :
    Correct e h c name ↔ ∃ pw, parseCredentials e c = some (name, pw) ∧
      (getUserPw e.build (usersOf e h) name pw).isSome = true := by
  unfold Correct
  constructor
  · rintro ⟨pw, h1, h2, h3, h4⟩; exact ⟨pw, (parseCredentials_iff e c name pw).2 ⟨h1, h2, h3⟩, h4⟩
  · rintro ⟨pw, h1, h4⟩
    obtain ⟨h1, h2, h3⟩ := (parseCredentials_iff e c name pw).1 h1
    exact ⟨pw, h1, h2, h3, h4⟩

/-- The name belongs to the credentials. -/
theorem BasicOk.name {e : Env} {W} {h : List Event} {now : Nat} {c name : Bytes} (hb : BasicOk e W h now c name) :
    ∃ pw, parseCredentials e c = some (name, pw) := by
  induction hb with
  | correct hc => obtain ⟨pw, h, _⟩ := (correct_iff ..).1 hc; exact ⟨pw, h⟩
  | remembered _ _ _ _ ih => exact ih

theorem Clock.prefix {t0 : Nat} {h : List Event} {ev : Event} {now : Nat} (hc : Clock t0 (h ++ [ev]) now) :
    Clock t0 h now := by
  unfold Clock at hc ⊢
  rw [times_snoc] at hc
  refine hc.sublist ?_
  refine List.Sublist.cons_cons _ ?_
  exact List.Sublist.append (List.sublist_append_left ..) (List.Sublist.refl _)

theorem Clock.upto {t0 : Nat} {h : List Event} {t : Nat} {rand : Bytes} {req : Msg} {now : Nat}
    (hc : Clock t0 (h ++ [.request t rand req]) now) : Clock t0 h t ∧ t ≤ now := by
  unfold Clock at hc ⊢
  rw [times_snoc] at hc
  simp only at hc
  constructor
  · refine hc.sublist (List.Sublist.cons_cons _ (List.sublist_append_left ..))
  · have := (List.pairwise_append.1 (List.pairwise_cons.1 hc).2).2.2
    exact this t (by simp) now (by simp)

/-! ### Basic authentication: the cache invariant -/

/-- What is known of an entry of the cache: the request that stored or refreshed it. -/
def BasicEntry (e : Env) (W : Nat → Nat → Prop) (h : List Event) (c : Bytes) (t : Nat) (name : Bytes) : Prop :=
  ∃ h₁ rand req h₂, h = h₁ ++ .request t rand req :: h₂ ∧ Needs e h₁ req ∧ Presents e req c ∧ BasicOk e W h₁ t c name

theorem BasicEntry.snoc {e : Env} {W} {h : List Event} {c name : Bytes} {t : Nat} (hb : BasicEntry e W h c t name)
    (ev : Event) : BasicEntry e W (h ++ [ev]) c t name := by
  obtain ⟨h₁, rand, req, h₂, rfl, a, b, d⟩ := hb
  exact ⟨h₁, rand, req, h₂ ++ [ev], by simp, a, b, d⟩

theorem BasicEntry.ok {e : Env} {W} {h : List Event} {c name : Bytes} {t now : Nat} (hb : BasicEntry e W h c t name)
    (hw : W t now) : BasicOk e W h now c name := by
  obtain ⟨h₁, rand, req, h₂, rfl, a, b, d⟩ := hb
  exact .remembered a b d hw

/-- The invariant: `good t` holds of every time stamp in the cache. -/
def BasicInv (e : Env) (W : Nat → Nat → Prop) (s : St) (h : List Event) : Prop :=
  Sorted s.cache ∧ ∀ x ∈ s.cache, BasicEntry e W h x.1 x.2.1 x.2.2

theorem expire_cache_sub {l now : Nat} {s : St} {x : Bytes × Nat × Bytes} (h : x ∈ (expire l now s).cache) : x ∈ s.cache := by
  unfold expire at h
  split at h
  · exact (List.mem_filter.1 h).1
  · exact h

theorem expire_sorted {l now : Nat} {s : St} (h : Sorted s.cache) : Sorted (expire l now s).cache := by
  unfold expire
  split
  · exact h.sublist List.filter_sublist
  · exact h

theorem mem_assign {V : Type} {m : SMap V} {k : Bytes} {v : V} {x : Bytes × V} (h : x ∈ m.assign k v) :
    x = (k, v) ∨ x ∈ m := by
  obtain ⟨y, hy, hx⟩ := List.mem_map.1 h
  split at hx
  next hk => left; rw [← hx, ← hk]
  · right; rw [← hx]; exact hy

theorem mem_insert {V : Type} {m : SMap V} (hs : Sorted m) {k : Bytes} {v : V} {x : Bytes × V} (h : x ∈ m.insert k v) :
    x = (k, v) ∨ x ∈ m := by
  obtain ⟨a, b⟩ := x
  have h1 := (lookup_eq_some (sorted_insert hs k v)).2 h
  rw [lookup_insert hs] at h1
  split at h1
  next hk =>
    subst hk
    cases hl : lookup a m with
    | none => rw [hl] at h1; simp at h1; left; rw [h1]
    | some w => rw [hl] at h1; simp at h1; right; rw [← h1]; exact (lookup_eq_some hs).1 hl
  · exact .inr ((lookup_eq_some hs).1 h1)

/-- One protected request: what the check returns is good, and the invariant is kept. -/
theorem basicCheck_inv {e : Env} {W} {s : St} {h : List Event} (hi : BasicInv e W s h) (hu : s.users = usersOf e h)
    {now : Nat} {rand : Bytes} {req : Msg} {c : Bytes} (hn : Needs e h req) (hp : Presents e req c)
    (hW : ∀ x ∈ s.cache, W x.2.1 now) :
    (∀ name, (basicCheck e now s c).1 = .user name → BasicOk e W h now c name) ∧
    BasicInv e W (basicCheck e now s c).2 (h ++ [.request now rand req]) := by
  have keep : BasicInv e W s (h ++ [.request now rand req]) := ⟨hi.1, fun x hx => (hi.2 x hx).snoc _⟩
  unfold basicCheck
  split
  next t name hl =>
    have hmem := (lookup_eq_some hi.1).1 hl
    have hok := (hi.2 _ hmem).ok (hW _ hmem)
    refine ⟨fun n hn' => by cases hn'; exact hok, sorted_assign hi.1 _ _, fun x hx => ?_⟩
    rcases mem_assign hx with rfl | hx
    · exact ⟨h, rand, req, [], rfl, hn, hp, hok⟩
    · exact keep.2 x hx
  next hl =>
    split
    · exact ⟨fun n h' => by simp at h', keep⟩
    next name pw hpc =>
      split
      · exact ⟨fun n h' => by simp at h', keep⟩
      next u hg =>
        have hok : BasicOk e W h now c name :=
          .correct ((correct_iff ..).2 ⟨pw, hpc, by rw [← hu, hg]; rfl⟩)
        refine ⟨fun n h' => by cases h'; exact hok, sorted_insert hi.1 _ _, fun x hx => ?_⟩
        rcases mem_insert hi.1 hx with rfl | hx
        · exact ⟨h, rand, req, [], rfl, hn, hp, hok⟩
        · exact keep.2 x hx

theorem basicAfter_eq (e : Env) (t0 : Nat) (h : List Event) :
    basicAfter e t0 h = after e.build (fun now _ => basic e now) t0 h := rfl

/-- After an expiry pass at `now`: the last pass was at most `l` ago, and every entry at most `2 l`. -/
theorem expire_recent {l now : Nat} {s : St} (h : ∀ x ∈ s.cache, s.cleanup ≤ x.2.1 + l) (hc : s.cleanup ≤ now) :
    now ≤ (expire l now s).cleanup + l ∧ (expire l now s).cleanup ≤ now ∧
    (∀ x ∈ (expire l now s).cache, (expire l now s).cleanup ≤ x.2.1 + l) := by
  unfold expire
  split
  · refine ⟨Nat.le_add_right _ _, Nat.le_refl _, fun x hx => ?_⟩
    have := (List.mem_filter.1 hx).2
    simp at this
    exact this
  · exact ⟨by omega, hc, h⟩

/-- One request to a basic authenticator. -/
theorem basic_step {e : Env} {W} {s : St} {h : List Event} (hi : BasicInv e W s h) (hu : s.users = usersOf e h)
    {now : Nat} {rand : Bytes} {req : Msg}
    (hn : needAuthentication s.users s.paths req = true ↔ Needs e h req)
    (hW : ∀ x ∈ (expire BASIC_EXPIRATION now s).cache, W x.2.1 now) :
    (∀ name, (basic e now s req).1 = .user name → Needs e h req ∧ ∃ c, Presents e req c ∧ BasicOk e W h now c name) ∧
    BasicInv e W (basic e now s req).2 (h ++ [.request now rand req]) := by
  unfold basic
  split
  next hneed =>
    have hN := hn.1 hneed
    have hi' : BasicInv e W (expire BASIC_EXPIRATION now s) h :=
      ⟨expire_sorted hi.1, fun x hx => hi.2 x (expire_cache_sub hx)⟩
    simp only
    cases hp : presented e req with
    | none => exact ⟨fun _ h' => by simp at h', hi'.1, fun x hx => (hi'.2 x hx).snoc _⟩
    | some c =>
      have hP := (presented_iff e req c).1 hp
      obtain ⟨h1, h2⟩ := basicCheck_inv (rand := rand) hi' ((expire_users ..).trans hu) hN hP hW
      exact ⟨fun name hv => ⟨hN, c, hP, h1 name hv⟩, h2⟩
  · exact ⟨fun _ h' => by simp at h', hi.1, fun x hx => (hi.2 x hx).snoc _⟩

theorem basic_inv_any (e : Env) (t0 : Nat) (h : List Event) :
    BasicInv e (fun _ _ => True) (basicAfter e t0 h) h := by
  rw [basicAfter_eq]
  induction h using List.reverseRecOn with
  | nil => exact ⟨sorted_nil, fun x hx => by simp [after] at hx⟩
  | append_singleton h ev ih =>
    rw [after_snoc]
    cases ev with
    | request now rand req =>
      exact (basic_step ih (after_users (keeps_basic e) t0 h) (needs_iff (keeps_basic e) t0 h req)
        (fun _ _ => trivial)).2
    | _ => exact ⟨ih.1, fun x hx => (ih.2 x hx).snoc _⟩

/-- At most twice the expiry time ago. -/
def Recent (l : Nat) (t now : Nat) : Prop := now ≤ t + 2 * l

/-- The time stamps: no entry is older than `l` before the last expiry pass, which is in the past. -/
def Stamps (l t0 : Nat) (s : St) (h : List Event) : Prop :=
  (∀ x ∈ s.cache, s.cleanup ≤ x.2.1 + l) ∧ ∀ now, Clock t0 h now → s.cleanup ≤ now

theorem stamps_step_users {l t0 : Nat} {s s' : St} {h : List Event} {ev : Event} (hs : Stamps l t0 s h)
    (hc : s'.cache = s.cache) (hcl : s'.cleanup = s.cleanup) : Stamps l t0 s' (h ++ [ev]) := by
  unfold Stamps
  rw [hc, hcl]
  exact ⟨hs.1, fun now hk => hs.2 now (Clock.prefix hk)⟩

/-- A step at time `now` that adds or refreshes entries with the stamp `now`. -/
theorem stamps_step {l t0 now : Nat} {s' : St} {h : List Event} {rand : Bytes} {req : Msg}
    (h1 : ∀ x ∈ s'.cache, s'.cleanup ≤ x.2.1 + l) (h2 : s'.cleanup ≤ now) :
    Stamps l t0 s' (h ++ [.request now rand req]) :=
  ⟨h1, fun _ hk => Nat.le_trans h2 (Clock.upto hk).2⟩

theorem basicCheck_stamps {e : Env} {l now : Nat} {s : St} (hs : Sorted s.cache) (c : Bytes) (h1 : ∀ x ∈ s.cache, s.cleanup ≤ x.2.1 + l)
    (h2 : s.cleanup ≤ now) : ∀ x ∈ (basicCheck e now s c).2.cache, s.cleanup ≤ x.2.1 + l := by
  unfold basicCheck
  split
  · intro x hx
    rcases mem_assign hx with rfl | hx
    · exact Nat.le_trans h2 (Nat.le_add_right _ _)
    · exact h1 x hx
  · split
    · exact h1
    · split
      · exact h1
      · intro x hx
        rcases mem_insert hs hx with rfl | hx
        · exact Nat.le_trans h2 (Nat.le_add_right _ _)
        · exact h1 x hx

theorem basic_inv_clock (e : Env) (t0 : Nat) (h : List Event) (hc : ∃ now, Clock t0 h now) :
    BasicInv e (Recent 300) (basicAfter e t0 h) h ∧ Stamps 300 t0 (basicAfter e t0 h) h := by
  rw [basicAfter_eq]
  induction h using List.reverseRecOn with
  | nil =>
    refine ⟨⟨sorted_nil, fun x hx => by simp [after] at hx⟩, fun x hx => by simp [after] at hx, fun now hk => ?_⟩
    have := (List.pairwise_cons.1 hk).1 now (by simp [times])
    exact this
  | append_singleton h ev ih =>
    obtain ⟨m, hm⟩ := hc
    obtain ⟨hi, hs⟩ := ih ⟨m, Clock.prefix hm⟩
    rw [after_snoc]
    cases ev with
    | request now rand req =>
      have hup := Clock.upto hm
      have hrec := expire_recent (l := 300) (now := now) hs.1 (hs.2 now hup.1)
      refine ⟨(basic_step hi (after_users (keeps_basic e) t0 h) (needs_iff (keeps_basic e) t0 h req) ?_).2, ?_⟩
      · intro x hx
        have := hrec.2.2 x hx
        unfold Recent BASIC_EXPIRATION at *
        omega
      · simp only [event, basic]
        split
        · split
          · exact stamps_step hrec.2.2 hrec.2.1
          next c _ =>
            have hk := basicCheck_keeps e now (expire BASIC_EXPIRATION now (after e.build (fun now _ => basic e now) t0 h)) c
            apply stamps_step
            · rw [hk.2.2]; exact basicCheck_stamps (expire_sorted hi.1) c hrec.2.2 hrec.2.1
            · rw [hk.2.2]; exact hrec.2.1
        · exact stamps_step_users hs rfl rfl
    | _ => exact ⟨⟨hi.1, fun x hx => (hi.2 x hx).snoc _⟩, stamps_step_users hs rfl rfl⟩

end Verif.Auth
