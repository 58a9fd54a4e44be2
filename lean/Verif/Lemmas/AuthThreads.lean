import Verif.Lemmas.CookieAuth
import Verif.Spec.AuthThreads
namespace Verif.AuthThreads
open SMap Auth Server Users Spec.Paths Spec.Dispatch Spec.Auth Spec.AuthThreads
/-
Invariants of authenticators used by several threads.
-/

abbrev TSt := Verif.AuthThreads.St

def init (t0 : Nat) : TSt := { sh := { auth := { cleanup := t0 }, clock := t0 } }

theorem run_snoc (cfg : Cfg) (t0 : Nat) (tr : List Act) (x : Act) (s' : TSt) :
    run cfg t0 (tr ++ [x]) = some s' ↔ ∃ s, run cfg t0 tr = some s ∧ s.step cfg x = some s' := by
  unfold run
  rw [List.foldlM_append]
  cases h : List.foldlM (St.step cfg) { sh := { auth := { cleanup := t0 }, clock := t0 } } tr with
  | none => simp
  | some s => simp

theorem run_induct {cfg : Cfg} {t0 : Nat} {P : List Act → TSt → Prop} (h0 : P [] (init t0))
    (hs : ∀ tr s x s', run cfg t0 tr = some s → P tr s → s.step cfg x = some s' → P (tr ++ [x]) s')
    {tr : List Act} {s : TSt} (h : run cfg t0 tr = some s) : P tr s := by
  induction tr using List.reverseRecOn generalizing s with
  | nil => cases h; exact h0
  | append_singleton tr x ih =>
    obtain ⟨s0, h1, h2⟩ := (run_snoc ..).1 h
    exact hs _ _ _ _ h1 (ih h1) h2

theorem run_prefix {cfg : Cfg} {t0 : Nat} {a b : List Act} {s : TSt} (h : run cfg t0 (a ++ b) = some s) :
    ∃ s0, run cfg t0 a = some s0 := by
  unfold run at h ⊢
  rw [List.foldlM_append] at h
  cases ha : List.foldlM (St.step cfg) { sh := { auth := { cleanup := t0 }, clock := t0 } } a with
  | none => rw [ha] at h; cases h
  | some s0 => exact ⟨s0, rfl⟩

/-! ### Steps -/

/-- What an action does to a state. -/
inductive Steps (cfg : Cfg) (s : TSt) : Act → TSt → Prop
  | call {i req} : s.calls i = none → Steps cfg s (.call i req) (s.set i (req, first cfg req) s.sh)
  | step {i req pc sh pc'} : s.calls i = some (req, pc) → own cfg i s.sh req pc = some (sh, pc') →
      Steps cfg s (.step i) (s.set i (req, pc') sh)
  | ret {i req v} : s.calls i = some (req, .done v) → Steps cfg s (.ret i v) (s.set i (req, .returned v) s.sh)
  | users {op} : Steps cfg s (.users op)
      { s with sh := { s.sh with auth := { s.sh.auth with users := (Users.step cfg.env.build s.sh.auth.users op).1 } } }
  | restrict {r} : Steps cfg s (.restrict r)
      { s with sh := { s.sh with auth := { s.sh.auth with paths := addRestrict s.sh.auth.paths r } } }
  | permit {r} : Steps cfg s (.permit r)
      { s with sh := { s.sh with auth := { s.sh.auth with paths := addPermit s.sh.auth.paths r } } }
  | tick {d} : Steps cfg s (.tick d) { s with sh := { s.sh with clock := s.sh.clock + d } }

theorem steps_of {cfg : Cfg} {s : TSt} {x : Act} {s' : TSt} (h : s.step cfg x = some s') : Steps cfg s x s' := by
  cases x with
  | call i req =>
    simp only [St.step] at h
    split at h
    next hc => cases h; exact .call hc
    · cases h
  | step i =>
    simp only [St.step] at h
    split at h
    · cases h
    next req pc hc =>
      split at h
      · cases h
      next sh pc' ho => cases h; exact .step hc ho
  | ret i v =>
    simp only [St.step] at h
    split at h
    next req w hc =>
      split at h
      next hv => cases h; subst hv; exact .ret hc
      · cases h
    · cases h
  | users op => cases h; exact .users
  | restrict r => cases h; exact .restrict
  | permit r => cases h; exact .permit
  | tick d => cases h; exact .tick

@[simp] theorem set_self (s : TSt) (i : Nat) (c : Msg × Pc) (sh : Shared) : (s.set i c sh).calls i = some c := by
  simp [St.set]
theorem set_other (s : TSt) {i k : Nat} (c : Msg × Pc) (sh : Shared) (h : k ≠ i) : (s.set i c sh).calls k = s.calls k := by
  simp [St.set, h]
@[simp] theorem set_sh (s : TSt) (i : Nat) (c : Msg × Pc) (sh : Shared) : (s.set i c sh).sh = sh := rfl

/-! ### Moments -/

theorem admin_snoc (tr : List Act) (x : Act) : admin (tr ++ [x]) = admin tr ++
    (match x with | .users op => [.users op] | .restrict r => [.restrict r] | .permit r => [.permit r] | _ => []) := by
  unfold admin; rw [List.filterMap_append]; cases x <;> rfl

theorem elapsed_append (a b : List Act) : elapsed (a ++ b) = elapsed a + elapsed b := by
  unfold elapsed; rw [List.map_append, List.sum_append]

theorem _root_.Verif.Spec.AuthThreads.Called.append {a : List Act} {i : Nat} (h : Called a i) (b : List Act) : Called (a ++ b) i :=
  ⟨h.choose, List.mem_append_left _ h.choose_spec⟩
theorem _root_.Verif.Spec.AuthThreads.Returned.append {a : List Act} {i : Nat} (h : Returned a i) (b : List Act) : Returned (a ++ b) i :=
  ⟨h.choose, List.mem_append_left _ h.choose_spec⟩

theorem _root_.Verif.Spec.AuthThreads.During.append {a : List Act} {i : Nat} {P : List Act → Prop} (h : During a i P) (b : List Act) :
    During (a ++ b) i P := by
  obtain ⟨x, y, rfl, h1, h2, h3⟩ := h
  exact ⟨x, y ++ b, by simp, h1, h2, h3⟩

theorem _root_.Verif.Spec.AuthThreads.During.imp {a : List Act} {i : Nat} {P Q : List Act → Prop} (h : During a i P) (hq : ∀ x, P x → Q x) : During a i Q := by
  obtain ⟨x, y, rfl, h1, h2, h3⟩ := h
  exact ⟨x, y, rfl, h1, h2, hq x h3⟩

theorem _root_.Verif.Spec.AuthThreads.During.now {a : List Act} {i : Nat} {P : List Act → Prop} (h1 : Called a i) (h2 : ¬Returned a i) (h3 : P a) :
    During a i P := ⟨a, [], by simp, h1, h2, h3⟩

/-- Of two moments one is the earlier. -/
theorem moments {a b c d : List Act} (h : a ++ b = c ++ d) : (∃ e, a = c ++ e) ∨ ∃ e, c = a ++ e := by
  rcases List.append_eq_append_iff.1 h with ⟨e, h1, _⟩ | ⟨e, h1, _⟩
  · exact .inr ⟨e, h1⟩
  · exact .inl ⟨e, h1⟩

/-! ### Users, lists, calls -/

def idle : Nat → Bytes → Auth.St → Msg → Verdict × Auth.St := fun _ _ s _ => (.open_, s)

theorem keeps_idle : Keeps idle := fun _ _ _ _ => ⟨rfl, rfl⟩

/-- Whether a call is in the section of `basic_auth` that calls `get_user`. -/
def Pc.holds : Pc → Bool
  | .getUser .. | .store .. => true
  | _ => false

structure Base (cfg : Cfg) (t0 : Nat) (tr : List Act) (s : TSt) : Prop where
  users : s.sh.auth.users = (after cfg.env.build idle 0 (admin tr)).users
  paths : s.sh.auth.paths = (after cfg.env.build idle 0 (admin tr)).paths
  clock : s.sh.clock = t0 + elapsed tr
  sorted : Sorted s.sh.auth.cache
  uncalled : ∀ i, s.calls i = none → ¬Called tr i ∧ ¬Returned tr i
  called : ∀ i req pc, s.calls i = some (req, pc) → (∀ r, .call i r ∈ tr ↔ r = req) ∧ ∀ v, .ret i v ∈ tr ↔ pc = .returned v
  lock : ∀ i, s.sh.lock = some i ↔ ∃ req pc, s.calls i = some (req, pc) ∧ pc.holds = true

theorem first_holds (cfg : Cfg) (req : Msg) : (first cfg req).holds = false ∧ ∀ v, first cfg req ≠ .returned v := by
  unfold first
  split
  · exact ⟨rfl, nofun⟩
  · dsimp only
    split
    · exact ⟨rfl, nofun⟩
    · split
      · exact ⟨rfl, nofun⟩
      · split
        · exact ⟨rfl, nofun⟩
        · exact ⟨rfl, nofun⟩

theorem needed_holds (cfg : Cfg) (req : Msg) : (needed cfg req).holds = false ∧ ∀ v, needed cfg req ≠ .returned v := by
  unfold needed
  split
  · exact ⟨rfl, nofun⟩
  · split
    · exact ⟨rfl, nofun⟩
    · exact ⟨rfl, nofun⟩

theorem expired_holds (cfg : Cfg) (req : Msg) (now : Nat) :
    (expired cfg req now).holds = false ∧ ∀ v, expired cfg req now ≠ .returned v := by
  unfold expired
  split
  · split
    · exact ⟨rfl, nofun⟩
    · exact ⟨rfl, nofun⟩
  · split
    · exact ⟨rfl, nofun⟩
    · exact ⟨rfl, nofun⟩

theorem lookUp_keeps {cfg : Cfg} {i : Nat} {sh : Shared} {req : Msg} {now : Nat} {sh' : Shared} {pc' : Pc}
    (h : lookUp cfg i sh req now = (sh', pc')) :
    sh'.auth.users = sh.auth.users ∧ sh'.auth.paths = sh.auth.paths ∧ sh'.clock = sh.clock ∧
    (Sorted sh.auth.cache → Sorted sh'.auth.cache) ∧ (∀ v, pc' ≠ .returned v) ∧
    sh'.lock = (if pc'.holds then some i else sh.lock) := by
  unfold lookUp at h
  split at h
  · split at h
    · cases h; exact ⟨rfl, rfl, rfl, id, nofun, rfl⟩
    · split at h
      · cases h; exact ⟨rfl, rfl, rfl, fun h => sorted_assign h _ _, nofun, rfl⟩
      · split at h
        · cases h; exact ⟨rfl, rfl, rfl, id, nofun, rfl⟩
        · cases h; exact ⟨rfl, rfl, rfl, id, nofun, rfl⟩
  · dsimp only at h
    split at h
    · cases h; exact ⟨rfl, rfl, rfl, fun h => sorted_assign h _ _, nofun, rfl⟩
    · cases h; exact ⟨rfl, rfl, rfl, id, nofun, rfl⟩

/-- A step changes neither users, lists nor clock; takes or releases the mutex only for itself. -/
theorem own_keeps {cfg : Cfg} {i : Nat} {sh : Shared} {req : Msg} {pc : Pc} {sh' : Shared} {pc' : Pc}
    (h : own cfg i sh req pc = some (sh', pc')) :
    sh'.auth.users = sh.auth.users ∧ sh'.auth.paths = sh.auth.paths ∧ sh'.clock = sh.clock ∧
    (Sorted sh.auth.cache → Sorted sh'.auth.cache) ∧ (∀ v, pc' ≠ .returned v) ∧ (∀ v, pc ≠ .returned v) ∧
    sh'.lock = (if pc'.holds then (if pc.holds then sh.lock else some i) else if pc.holds then none else sh.lock) ∧
    (pc'.holds = true → pc.holds = false → sh.lock = none) := by
  cases pc with
  | empty =>
    simp only [own, Option.some.injEq, Prod.mk.injEq] at h; obtain ⟨rfl, rfl⟩ := h
    split <;> exact ⟨rfl, rfl, rfl, id, nofun, nofun, rfl, nofun⟩
  | lists =>
    simp only [own, Option.some.injEq, Prod.mk.injEq] at h; obtain ⟨rfl, rfl⟩ := h
    obtain ⟨h1, h2⟩ := needed_holds cfg req
    split
    · exact ⟨rfl, rfl, rfl, id, h2, nofun, by rw [h1]; rfl, by rw [h1]; nofun⟩
    · exact ⟨rfl, rfl, rfl, id, nofun, nofun, rfl, nofun⟩
  | clock =>
    simp only [own, Option.some.injEq, Prod.mk.injEq] at h; obtain ⟨rfl, rfl⟩ := h
    exact ⟨rfl, rfl, rfl, id, nofun, nofun, rfl, nofun⟩
  | cleanup now =>
    simp only [own, Option.some.injEq, Prod.mk.injEq] at h; obtain ⟨rfl, rfl⟩ := h
    obtain ⟨h1, h2⟩ := expired_holds cfg req now
    split
    · exact ⟨rfl, rfl, rfl, id, nofun, nofun, rfl, nofun⟩
    · exact ⟨rfl, rfl, rfl, id, h2, nofun, by rw [h1]; rfl, by rw [h1]; nofun⟩
  | expire now =>
    simp only [own] at h
    split at h
    · cases h
    · simp only [Option.some.injEq, Prod.mk.injEq] at h; obtain ⟨rfl, rfl⟩ := h
      obtain ⟨h1, h2⟩ := expired_holds cfg req now
      exact ⟨rfl, rfl, rfl, fun h => h.sublist List.filter_sublist, h2, nofun, by rw [h1]; rfl, by rw [h1]; nofun⟩
  | lookup now =>
    simp only [own] at h
    split at h
    · cases h
    next hl =>
      simp only [Option.some.injEq] at h
      obtain ⟨a, b, c, d, e, f⟩ := lookUp_keeps h
      exact ⟨a, b, c, d, e, nofun, by rw [f]; rfl, fun _ _ => by simpa using hl⟩
  | getUser now cred name pw =>
    simp only [own] at h
    split at h
    · simp only [Option.some.injEq, Prod.mk.injEq] at h; obtain ⟨rfl, rfl⟩ := h
      exact ⟨rfl, rfl, rfl, id, nofun, nofun, rfl, nofun⟩
    · simp only [Option.some.injEq, Prod.mk.injEq] at h; obtain ⟨rfl, rfl⟩ := h
      exact ⟨rfl, rfl, rfl, id, nofun, nofun, rfl, nofun⟩
  | store now cred name =>
    simp only [own, Option.some.injEq, Prod.mk.injEq] at h; obtain ⟨rfl, rfl⟩ := h
    exact ⟨rfl, rfl, rfl, fun h => sorted_insert h _ _, nofun, nofun, rfl, nofun⟩
  | login =>
    simp only [own] at h
    split at h <;>
    · simp only [Option.some.injEq, Prod.mk.injEq] at h; obtain ⟨rfl, rfl⟩ := h
      exact ⟨rfl, rfl, rfl, id, nofun, nofun, rfl, nofun⟩
  | draw acc =>
    simp only [own, Option.some.injEq, Prod.mk.injEq] at h; obtain ⟨rfl, rfl⟩ := h
    exact ⟨rfl, rfl, rfl, id, nofun, nofun, rfl, nofun⟩
  | drawn acc pos =>
    simp only [own, Option.some.injEq, Prod.mk.injEq] at h; obtain ⟨rfl, rfl⟩ := h
    split <;> exact ⟨rfl, rfl, rfl, id, nofun, nofun, rfl, nofun⟩
  | loginClock c =>
    simp only [own, Option.some.injEq, Prod.mk.injEq] at h; obtain ⟨rfl, rfl⟩ := h
    exact ⟨rfl, rfl, rfl, id, nofun, nofun, rfl, nofun⟩
  | insert now c =>
    simp only [own] at h
    split at h
    · cases h
    · simp only [Option.some.injEq, Prod.mk.injEq] at h; obtain ⟨rfl, rfl⟩ := h
      exact ⟨rfl, rfl, rfl, fun h => sorted_insert h _ _, nofun, nofun, rfl, nofun⟩
  | logout =>
    simp only [own] at h
    split at h
    · cases h
    · simp only [Option.some.injEq, Prod.mk.injEq] at h; obtain ⟨rfl, rfl⟩ := h
      exact ⟨rfl, rfl, rfl, fun h => sorted_erase h _, nofun, nofun, rfl, nofun⟩
  | done v => cases h
  | returned v => cases h

theorem base {cfg : Cfg} {t0 : Nat} {tr : List Act} {s : TSt} (h : run cfg t0 tr = some s) : Base cfg t0 tr s := by
  refine run_induct (P := Base cfg t0) ?_ ?_ h
  · refine ⟨rfl, rfl, rfl, sorted_nil, fun i _ => ⟨?_, ?_⟩, nofun, fun i => ⟨nofun, ?_⟩⟩
    · rintro ⟨_, h⟩; cases h
    · rintro ⟨_, h⟩; cases h
    · rintro ⟨_, _, h, _⟩; cases h
  · clear h tr s
    intro tr s x s' _ hb hx
    have memc : ∀ i r, Act.call i r ∈ tr ++ [x] ↔ .call i r ∈ tr ∨ x = .call i r := by
      intro i r; rw [List.mem_append, List.mem_singleton, eq_comm (a := x)]
    have memr : ∀ i v, Act.ret i v ∈ tr ++ [x] ↔ .ret i v ∈ tr ∨ x = .ret i v := by
      intro i r; rw [List.mem_append, List.mem_singleton, eq_comm (a := x)]
    cases steps_of hx with
    | call hc =>
      rename_i i req
      obtain ⟨f1, f2⟩ := first_holds cfg req
      refine ⟨by rw [admin_snoc]; simpa using hb.users, by rw [admin_snoc]; simpa using hb.paths,
        by rw [elapsed_append]; simpa [elapsed] using hb.clock, hb.sorted, ?_, ?_, ?_⟩
      · intro k hk
        by_cases hki : k = i
        · subst hki; rw [set_self] at hk; cases hk
        · rw [set_other _ _ _ hki] at hk
          obtain ⟨h1, h2⟩ := hb.uncalled k hk
          constructor
          · rintro ⟨r, hr⟩
            rcases (memc ..).1 hr with hr | hr
            · exact h1 ⟨r, hr⟩
            · cases hr; exact hki rfl
          · rintro ⟨v, hv⟩
            rcases (memr ..).1 hv with hv | hv
            · exact h2 ⟨v, hv⟩
            · cases hv
      · intro k req' pc hk
        by_cases hki : k = i
        · subst hki; rw [set_self] at hk; cases hk
          obtain ⟨h1, h2⟩ := hb.uncalled k hc
          constructor
          · intro r; rw [memc]
            constructor
            · rintro (hr | hr)
              · exact absurd ⟨r, hr⟩ h1
              · cases hr; rfl
            · rintro rfl; exact .inr rfl
          · intro v; rw [memr]
            constructor
            · rintro (hr | hr)
              · exact absurd ⟨v, hr⟩ h2
              · cases hr
            · exact fun h => absurd h (f2 v)
        · rw [set_other _ _ _ hki] at hk
          obtain ⟨h1, h2⟩ := hb.called k _ _ hk
          constructor
          · intro r; rw [memc, h1]
            exact ⟨fun h => h.elim id fun h => by cases h; exact absurd rfl hki, .inl⟩
          · intro v; rw [memr, h2]
            exact ⟨fun h => h.elim id nofun, .inl⟩
      · intro k
        rw [set_sh, hb.lock k]
        by_cases hki : k = i
        · subst hki; rw [set_self, hc]
          constructor
          · rintro ⟨_, _, h, _⟩; cases h
          · rintro ⟨_, _, h, h'⟩; cases h; rw [f1] at h'; cases h'
        · rw [set_other _ _ _ hki]
    | step hc ho =>
      rename_i i req pc sh pc'
      obtain ⟨o1, o2, o3, o4, o5, o6, o7, o8⟩ := own_keeps ho
      refine ⟨by rw [admin_snoc]; simpa [o1] using hb.users, by rw [admin_snoc]; simpa [o2] using hb.paths,
        by rw [elapsed_append]; simpa [elapsed, o3] using hb.clock, o4 hb.sorted, ?_, ?_, ?_⟩
      · intro k hk
        by_cases hki : k = i
        · subst hki; rw [set_self] at hk; cases hk
        · rw [set_other _ _ _ hki] at hk
          obtain ⟨h1, h2⟩ := hb.uncalled k hk
          constructor
          · rintro ⟨r, hr⟩
            rcases (memc ..).1 hr with hr | hr
            · exact h1 ⟨r, hr⟩
            · cases hr
          · rintro ⟨v, hv⟩
            rcases (memr ..).1 hv with hv | hv
            · exact h2 ⟨v, hv⟩
            · cases hv
      · intro k req' pc2 hk
        by_cases hki : k = i
        · subst hki; rw [set_self] at hk; cases hk
          obtain ⟨h1, h2⟩ := hb.called k _ _ hc
          constructor
          · intro r; rw [memc, h1]; exact ⟨fun h => h.elim id nofun, .inl⟩
          · intro v; rw [memr, h2]
            exact ⟨fun h => h.elim (fun h => absurd h (o6 v)) nofun, fun h => absurd h (o5 v)⟩
        · rw [set_other _ _ _ hki] at hk
          obtain ⟨h1, h2⟩ := hb.called k _ _ hk
          constructor
          · intro r; rw [memc, h1]; exact ⟨fun h => h.elim id nofun, .inl⟩
          · intro v; rw [memr, h2]; exact ⟨fun h => h.elim id nofun, .inl⟩
      · intro k
        rw [set_sh, o7]
        have hl := hb.lock
        by_cases hki : k = i
        · subst hki; rw [set_self]
          constructor
          · intro h
            refine ⟨_, _, rfl, ?_⟩
            cases hp' : pc'.holds with
            | true => rfl
            | false =>
              rw [hp'] at h
              cases hp : pc.holds with
              | true => rw [hp] at h; cases h
              | false =>
                rw [hp] at h
                obtain ⟨_, _, h1, h2⟩ := (hl k).1 h
                rw [hc] at h1; cases h1; rw [hp] at h2; cases h2
          · rintro ⟨_, _, h, h'⟩
            cases h
            rw [h']
            cases hp : pc.holds with
            | true => exact (hl k).2 ⟨_, _, hc, hp⟩
            | false => rfl
        · rw [set_other _ _ _ hki, ← hl k]
          have hi := hl i
          cases hp' : pc'.holds with
          | true =>
            cases hp : pc.holds with
            | true => rfl
            | false =>
              rw [o8 hp' hp]
              simp [Ne.symm hki]
          | false =>
            cases hp : pc.holds with
            | true =>
              rw [hi.2 ⟨_, _, hc, hp⟩]
              simp [Ne.symm hki]
            | false => rfl
    | ret hc =>
      rename_i i req v
      refine ⟨by rw [admin_snoc]; simpa using hb.users, by rw [admin_snoc]; simpa using hb.paths,
        by rw [elapsed_append]; simpa [elapsed] using hb.clock, hb.sorted, ?_, ?_, ?_⟩
      · intro k hk
        by_cases hki : k = i
        · subst hki; rw [set_self] at hk; cases hk
        · rw [set_other _ _ _ hki] at hk
          obtain ⟨h1, h2⟩ := hb.uncalled k hk
          constructor
          · rintro ⟨r, hr⟩
            rcases (memc ..).1 hr with hr | hr
            · exact h1 ⟨r, hr⟩
            · cases hr
          · rintro ⟨v, hv⟩
            rcases (memr ..).1 hv with hv | hv
            · exact h2 ⟨v, hv⟩
            · cases hv; exact hki rfl
      · intro k req' pc2 hk
        by_cases hki : k = i
        · subst hki; rw [set_self] at hk; cases hk
          obtain ⟨h1, h2⟩ := hb.called k _ _ hc
          constructor
          · intro r; rw [memc, h1]; exact ⟨fun h => h.elim id nofun, .inl⟩
          · intro w; rw [memr, h2]
            exact ⟨fun h => h.elim nofun (fun h => by cases h; rfl), fun h => .inr (by cases h; rfl)⟩
        · rw [set_other _ _ _ hki] at hk
          obtain ⟨h1, h2⟩ := hb.called k _ _ hk
          constructor
          · intro r; rw [memc, h1]; exact ⟨fun h => h.elim id nofun, .inl⟩
          · intro w; rw [memr, h2]
            exact ⟨fun h => h.elim id fun h => by cases h; exact absurd rfl hki, .inl⟩
      · intro k
        rw [set_sh, hb.lock k]
        by_cases hki : k = i
        · subst hki; rw [set_self, hc]
          constructor
          · rintro ⟨_, _, h, h'⟩; cases h; cases h'
          · rintro ⟨_, _, h, h'⟩; cases h; cases h'
        · rw [set_other _ _ _ hki]
    | users =>
      refine ⟨by rw [admin_snoc, after_snoc]; simp only [event]; rw [← hb.users],
        by rw [admin_snoc, after_snoc]; exact hb.paths,
        by rw [elapsed_append]; simpa [elapsed] using hb.clock, hb.sorted, ?_, ?_, hb.lock⟩
      · intro k hk
        obtain ⟨h1, h2⟩ := hb.uncalled k hk
        exact ⟨fun ⟨r, hr⟩ => ((memc ..).1 hr).elim (fun h => h1 ⟨r, h⟩) nofun,
          fun ⟨r, hr⟩ => ((memr ..).1 hr).elim (fun h => h2 ⟨r, h⟩) nofun⟩
      · intro k req' pc hk
        obtain ⟨h1, h2⟩ := hb.called k _ _ hk
        exact ⟨fun r => by rw [memc, h1]; exact ⟨fun h => h.elim id nofun, .inl⟩,
          fun r => by rw [memr, h2]; exact ⟨fun h => h.elim id nofun, .inl⟩⟩
    | restrict =>
      refine ⟨by rw [admin_snoc, after_snoc]; exact hb.users,
        by rw [admin_snoc, after_snoc]; simp only [event]; rw [← hb.paths],
        by rw [elapsed_append]; simpa [elapsed] using hb.clock, hb.sorted, ?_, ?_, hb.lock⟩
      · intro k hk
        obtain ⟨h1, h2⟩ := hb.uncalled k hk
        exact ⟨fun ⟨r, hr⟩ => ((memc ..).1 hr).elim (fun h => h1 ⟨r, h⟩) nofun,
          fun ⟨r, hr⟩ => ((memr ..).1 hr).elim (fun h => h2 ⟨r, h⟩) nofun⟩
      · intro k req' pc hk
        obtain ⟨h1, h2⟩ := hb.called k _ _ hk
        exact ⟨fun r => by rw [memc, h1]; exact ⟨fun h => h.elim id nofun, .inl⟩,
          fun r => by rw [memr, h2]; exact ⟨fun h => h.elim id nofun, .inl⟩⟩
    | permit =>
      refine ⟨by rw [admin_snoc, after_snoc]; exact hb.users,
        by rw [admin_snoc, after_snoc]; simp only [event]; rw [← hb.paths],
        by rw [elapsed_append]; simpa [elapsed] using hb.clock, hb.sorted, ?_, ?_, hb.lock⟩
      · intro k hk
        obtain ⟨h1, h2⟩ := hb.uncalled k hk
        exact ⟨fun ⟨r, hr⟩ => ((memc ..).1 hr).elim (fun h => h1 ⟨r, h⟩) nofun,
          fun ⟨r, hr⟩ => ((memr ..).1 hr).elim (fun h => h2 ⟨r, h⟩) nofun⟩
      · intro k req' pc hk
        obtain ⟨h1, h2⟩ := hb.called k _ _ hk
        exact ⟨fun r => by rw [memc, h1]; exact ⟨fun h => h.elim id nofun, .inl⟩,
          fun r => by rw [memr, h2]; exact ⟨fun h => h.elim id nofun, .inl⟩⟩
    | tick =>
      refine ⟨by rw [admin_snoc]; simpa using hb.users, by rw [admin_snoc]; simpa using hb.paths,
        by rw [elapsed_append]; simp [elapsed, hb.clock, Nat.add_assoc], hb.sorted, ?_, ?_, hb.lock⟩
      · intro k hk
        obtain ⟨h1, h2⟩ := hb.uncalled k hk
        exact ⟨fun ⟨r, hr⟩ => ((memc ..).1 hr).elim (fun h => h1 ⟨r, h⟩) nofun,
          fun ⟨r, hr⟩ => ((memr ..).1 hr).elim (fun h => h2 ⟨r, h⟩) nofun⟩
      · intro k req' pc hk
        obtain ⟨h1, h2⟩ := hb.called k _ _ hk
        exact ⟨fun r => by rw [memc, h1]; exact ⟨fun h => h.elim id nofun, .inl⟩,
          fun r => by rw [memr, h2]; exact ⟨fun h => h.elim id nofun, .inl⟩⟩

end Verif.AuthThreads
