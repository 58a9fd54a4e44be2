import Verif.Lemmas.TcpServer
/-
C40: every accepted connection is in the pool or finished; `stop` returns only when the pool is empty;
`get_connections` is the number of connections being served; after `stop` no connection is kept alive. The first and
last hold always, the others if calls of `start` and `stop` do not overlap (`stop_returns_early`), and
`get_connections` is off by one while the accept handler runs (`connections_off_by_one`, `connections_wraps`).
-/
namespace Verif.Props.TcpServer
open Verif.TcpServer Verif.Spec.TcpServer

private theorem reach_run {s s' : St} (l : List Act) : Reach Any s → s.run l = some s' → Reach Any s' := by
  induction l generalizing s with
  | nil => intro h he; simp only [St.run, Option.some.injEq] at he; exact he ▸ h
  | cons a l ih =>
    intro h he
    simp only [St.run] at he
    cases hs : s.step a with
    | none => rw [hs] at he; cases he
    | some s1 => rw [hs] at he; exact ih (.step h trivial hs) he

/-- C40: after any calls and events, the connections in the pool are exactly those that are not finished, each once. -/
theorem pool_exact {s : St} (hr : Reach Any s) : s.pool.Nodup ∧ ∀ c, c ∈ s.pool ↔ Alive s c :=
  ⟨(reach_inv hr).nodup, (reach_inv hr).mem⟩

/-- Two clients, one of them finished, one waiting place. -/
def twoClients : List Act :=
  [.start, .startListen, .accept 0 true, .listen 0, .serve 0, .accept 1 true, .listen 1, .serve 1, .finish 0 false false]

example : ∃ s, ({} : St).run twoClients = some s ∧ s.pool = [1, 2] ∧ s.status 0 = .finished ∧ s.connections = 1 :=
  ⟨_, rfl, by decide, by decide, by decide⟩

/-- C40: a connection leaves the pool only when it is finished without being kept alive, when its accept failed, or as
    an orphan. -/
theorem leaves_pool {s s' : St} {a : Act} (hs : s.step a = some s') {c : Nat} (h1 : c ∈ s.pool)
    (h2 : c ∉ s'.pool) :
    (∃ keep nested, a = .finish c keep nested ∧ (s.listening = false ∨ keep = false)) ∨ a = .fail c ∨
      s.status c = .orphan := by
  have hprune : ∀ c, c ∈ s.pool → c ∉ s.prune.pool → s.status c = .orphan := by
    intro c h1 h2
    by_contra hn
    exact h2 (List.mem_filter.mpr ⟨h1, by simpa using hn⟩)
  have hlisten : ∀ t : St, c ∈ t.pool → c ∉ t.listen.pool → t.status c = .orphan := by
    intro t h1 h2
    by_contra hn
    refine h2 ?_
    unfold St.listen
    split
    · simp only [List.mem_append]
      exact .inl (List.mem_filter.mpr ⟨h1, by simpa using hn⟩)
    · exact h1
  have hremove : ∀ d, c ∉ (s.remove d).pool → c = d := by
    intro d hd
    by_contra hn
    exact hd ((List.mem_erase_of_ne hn).mpr h1)
  unfold St.step at hs
  cases a with
  | start =>
    simp only [] at hs
    split at hs
    · cases hs
    · split at hs <;> cases hs <;> exact absurd h1 h2
  | startListen =>
    simp only [] at hs
    split at hs
    · cases hs
    · cases hs; exact .inr (.inr (hlisten s h1 h2))
  | accept d ok =>
    simp only [] at hs
    split at hs <;> cases hs
    exact absurd h1 h2
  | listen d =>
    simp only [] at hs
    split at hs
    · split at hs
      · cases hs
      · rename_i ok hd _
        cases hs
        have := hlisten { s with status := upd s.status d (.accepted ok false) } h1 h2
        by_cases hcd : c = d
        · subst hcd; simp only [upd_same] at this; cases this
        · simp only [upd_other _ _ hcd] at this
          exact .inr (.inr this)
    · cases hs
  | serve d =>
    simp only [] at hs
    split at hs <;> cases hs
    exact absurd h1 h2
  | fail d =>
    simp only [] at hs
    split at hs
    · cases hs
      simp only [St.finish, Bool.and_false] at h2
      exact .inr (.inl (by rw [hremove d h2]))
    · cases hs
  | finish d keep nested =>
    simp only [] at hs
    split at hs
    · cases hs
      unfold St.finish at h2
      split at h2
      · exact absurd h1 h2
      · rename_i hk
        have hcd := hremove d h2
        refine .inl ⟨keep, nested, by rw [hcd], ?_⟩
        simp only [Bool.and_eq_true, not_and, Bool.not_eq_true] at hk
        cases hl : s.listening with
        | false => exact .inl rfl
        | true => exact .inr (hk hl)
    · cases hs
  | drop d =>
    simp only [] at hs
    split at hs <;> cases hs
    exact absurd h1 h2
  | stop =>
    simp only [] at hs
    split at hs
    · cases hs
    · split at hs <;> cases hs <;> exact absurd h1 h2
  | stopLoop =>
    simp only [] at hs
    split at hs
    · cases hs
    · split at hs <;> cases hs <;> exact .inr (.inr (hprune c h1 h2))

/-- C40: once the server does not listen any more, finishing a connection removes it, whatever its lifecycle says. -/
theorem not_kept_alive {s s' : St} (hr : Reach Any s) (hl : s.listening = false) {c : Nat} {keep nested : Bool}
    (hs : s.step (.finish c keep nested) = some s') : c ∉ s'.pool ∧ s'.status c = .finished := by
  simp only [St.step] at hs
  split at hs
  · cases hs
    simp only [St.finish, hl, Bool.false_and]
    refine ⟨?_, upd_same _ _ _⟩
    exact (reach_inv hr).nodup.not_mem_erase
  · cases hs

example : ∃ s, ({} : St).run [.start, .startListen, .accept 0 true, .listen 0, .serve 0, .finish 0 true false, .stop,
    .finish 0 true false] = some s ∧ s.status 0 = .finished := ⟨_, rfl, by decide⟩

/-- C40: when a call of `stop` returns that had found the server listening, all connections are finished (those of
    which only the pool knew were closed by it). -/
theorem stop_empty {s s' : St} (hr : Reach Any s) {a : Act} (hs : s.step a = some s')
    (hlog : s'.log = s.log ++ [.stopped true]) : s'.pool = [] ∧ ∀ c, ¬ Alive s' c := by
  have hi' := (reach_inv hr).step hs
  have hp : s'.pool = [] := by
    unfold St.step at hs
    cases a with
    | stopLoop =>
      simp only [] at hs
      split at hs
      · cases hs
      · split at hs
        · rename_i hp; cases hs; exact hp
        · cases hs; simp [St.prune] at hlog
    | start =>
      simp only [] at hs
      split at hs
      · cases hs
      · split at hs <;> cases hs <;> simp at hlog
    | startListen =>
      simp only [] at hs
      split at hs
      · cases hs
      · cases hs
        unfold St.listen at hlog
        split at hlog <;> simp [St.prune] at hlog
    | accept d ok => simp only [] at hs; split at hs <;> cases hs; simp at hlog
    | listen d =>
      simp only [] at hs
      split at hs
      · split at hs
        · cases hs
        · cases hs
          unfold St.listen at hlog
          split at hlog <;> simp [St.prune] at hlog
      · cases hs
    | serve d => simp only [] at hs; split at hs <;> cases hs; simp at hlog
    | fail d =>
      simp only [] at hs
      split at hs <;> cases hs
      unfold St.finish at hlog
      split at hlog <;> simp [St.remove] at hlog
    | finish d k n =>
      simp only [] at hs
      split at hs <;> cases hs
      unfold St.finish at hlog
      split at hlog <;> simp [St.remove] at hlog
    | drop d => simp only [] at hs; split at hs <;> cases hs; simp at hlog
    | stop =>
      simp only [] at hs
      split at hs
      · cases hs
      · split at hs <;> cases hs <;> simp at hlog
  refine ⟨hp, fun c hc => ?_⟩
  have := (hi'.mem c).mpr hc
  rw [hp] at this
  cases this

/-- Whatever a connection is doing while the server is being stopped, it can be finished, without any effect on the
    others. -/
private theorem finish_one {s : St} (hi : Inv s) (hd : s.dead = false) (hl : s.listening = false) {c : Nat}
    (hc : c ∈ s.pool) (ho : s.status c ≠ .orphan) :
    ∃ acts, (∀ a ∈ acts, a ≠ .start ∧ a ≠ .stop) ∧ s.run acts = some (s.remove c) := by
  have hal := (hi.mem c).mp hc
  have hupd : ∀ v w : Status, upd (upd s.status c v) c w = upd s.status c w := by
    intro v w; funext i; by_cases h : i = c <;> simp [upd, h]
  have huw : ∀ v : Status, upd s.status c v c = v := fun v => upd_same _ _ _
  cases hs : s.status c with
  | absent => exact absurd hs hal.1
  | finished => exact absurd hs hal.2
  | orphan => exact absurd hs ho
  | serving =>
    refine ⟨[.finish c false false], by simp, ?_⟩
    simp [St.run, St.step, hs, hd, St.finish, hl]
  | accepting =>
    refine ⟨[.accept c false, .fail c], by simp, ?_⟩
    simp [St.run, St.step, hs, hd, St.finish, hl, huw, St.remove, hupd]
  | accepted ok due =>
    cases ok <;> cases due
    · refine ⟨[.fail c], by simp, ?_⟩
      simp [St.run, St.step, hs, hd, St.finish, hl]
    · refine ⟨[.listen c, .fail c], by simp, ?_⟩
      simp [St.run, St.step, hs, hd, St.finish, hl, huw, St.listen, St.remove, hupd]
    · refine ⟨[.serve c, .finish c false false], by simp, ?_⟩
      simp [St.run, St.step, hs, hd, St.finish, hl, huw, St.remove, hupd]
    · refine ⟨[.listen c, .serve c, .finish c false false], by simp, ?_⟩
      simp [St.run, St.step, hs, hd, St.finish, hl, huw, St.listen, St.remove, hupd]

private theorem run_append {s s1 : St} {l l' : List Act} (h : s.run l = some s1) : s.run (l ++ l') = s1.run l' := by
  induction l generalizing s with
  | nil => simp only [St.run, Option.some.injEq] at h; rw [h]; rfl
  | cons a l ih =>
    simp only [St.run, List.cons_append] at h ⊢
    cases hs : s.step a with
    | none => rw [hs] at h; cases h
    | some s2 => rw [hs] at h; exact ih h

/-- C40, other direction: when only orphans are left, the next round of the loop of `stop` returns. -/
theorem stop_returns {s : St} (hr : Reach Any s) (hd : s.dead = false) (hs : 0 < s.stopping)
    (ho : ∀ c, Alive s c → s.status c = .orphan) :
    ∃ s', s.step .stopLoop = some s' ∧ s'.log = s.log ++ [.stopped true] := by
  have hp : s.prune.pool = [] := by
    simp only [St.prune, List.filter_eq_nil_iff]
    intro c hc
    simp [ho c (((reach_inv hr).mem c).mp hc)]
  simp only [St.step, hd, hp]
  rw [if_neg (by simp; omega), if_pos trivial]
  exact ⟨_, rfl, rfl⟩

/-- C40: a call of `stop` that waits is never stuck: the connections can always be finished, without any further call
    of `start` or `stop`, and then it returns. (A server that is deadlocked by `keep_alive_deadlock` is excepted.) -/
theorem stop_can_return {s : St} (hr : Reach Any s) (hd : s.dead = false) (hl : s.listening = false)
    (hs : 0 < s.stopping) :
    ∃ acts s', (∀ a ∈ acts, a ≠ .start ∧ a ≠ .stop) ∧ s.run acts = some s' ∧ s'.log = s.log ++ [.stopped true] := by
  generalize hn : s.pool.countP (fun c => s.status c ≠ .orphan) = n
  induction n generalizing s with
  | zero =>
    obtain ⟨s', h1, h2⟩ := stop_returns hr hd hs (fun c hc => by
      have := List.countP_eq_zero.1 hn c (((reach_inv hr).mem c).mpr hc)
      simpa using this)
    exact ⟨[.stopLoop], s', by simp, by simp [St.run, h1], h2⟩
  | succ n ih =>
    obtain ⟨c, hc, ho⟩ := List.countP_pos_iff.1 (by omega : 0 < s.pool.countP (fun c => s.status c ≠ .orphan))
    have hi := reach_inv hr
    obtain ⟨acts, ha, hrun⟩ := finish_one hi hd hl hc (by simpa using ho)
    have hcount : (s.remove c).pool.countP (fun i => (s.remove c).status i ≠ .orphan) = n := by
      have h1 : (s.remove c).pool.countP (fun i => (s.remove c).status i ≠ .orphan) =
          (s.pool.erase c).countP (fun i => s.status i ≠ .orphan) := by
        apply List.countP_congr
        intro i hi'
        have : i ≠ c := fun h => hi.nodup.not_mem_erase (h ▸ hi')
        simp [St.remove, upd_other _ _ this]
      rw [h1]
      have h2 := (List.perm_cons_erase hc).countP_eq (fun i => decide (s.status i ≠ .orphan))
      rw [List.countP_cons, hn] at h2
      simp only [ho, if_true] at h2
      omega
    obtain ⟨acts', s', ha', hrun', hlog⟩ := ih (reach_run _ hr hrun) hd hl hs hcount
    refine ⟨acts ++ acts', s', ?_, by rw [run_append hrun, hrun'], hlog⟩
    intro a h
    rcases List.mem_append.1 h with h | h
    · exact ha a h
    · exact ha' a h

example : ∃ s, ({} : St).run [.start, .startListen, .accept 0 true, .listen 0, .serve 0, .stop] = some s ∧
    s.dead = false ∧ s.listening = false ∧ s.stopping = 1 ∧ s.pool = [0, 1] := ⟨_, rfl, rfl, rfl, rfl, rfl⟩

/-- C40: when calls of `start` and `stop` do not overlap, a listening server always has exactly one place for the next
    client: a pending accept, or an accept handler that is about to ask for the next one. -/
theorem accepts_next {s : St} (hr : Reach Serial s) (hl : s.listening = true) (hs : s.starting = 0) :
    ∃ c, (s.status c = .accepting ∨ ∃ ok, s.status c = .accepted ok true) ∧
      ∀ d, (s.status d = .accepting ∨ ∃ ok, s.status d = .accepted ok true) → d = c := by
  have h1 := (reach_calm hr).one hl hs
  have hi := reach_inv hr
  have hw : ∀ d, waits (s.status d) = true ↔ (s.status d = .accepting ∨ ∃ ok, s.status d = .accepted ok true) := by
    intro d
    cases hd : s.status d with
    | accepted ok due => cases due <;> simp [waits]
    | _ => simp [waits]
  unfold St.waiting at h1
  rw [List.countP_eq_length_filter] at h1
  obtain ⟨c, hc⟩ := List.length_eq_one_iff.1 h1
  have hmem : ∀ d, waits (s.status d) = true → d ∈ s.pool.filter fun i => waits (s.status i) := by
    intro d hd
    refine List.mem_filter.2 ⟨(hi.mem d).mpr ?_, hd⟩
    constructor <;> (intro h; rw [h] at hd; cases hd)
  refine ⟨c, (hw c).1 ?_, fun d hd => ?_⟩
  · have : c ∈ s.pool.filter fun i => waits (s.status i) := by rw [hc]; simp
    exact (List.mem_filter.1 this).2
  · have := hmem d ((hw d).2 hd)
    rw [hc] at this
    simpa using this

/-- C40: a client that takes the place is served, and there is a place for the next one. -/
theorem client_served {s : St} (hr : Reach Any s) (hd : s.dead = false) (hl : s.listening = true) {c : Nat}
    (hc : s.status c = .accepting) :
    ∃ s', s.run [.accept c true, .listen c, .serve c] = some s' ∧ s'.status c = .serving ∧
      s'.status s.next = .accepting := by
  have hne : s.next ≠ c := by
    intro h
    have := (reach_inv hr).fresh c (by omega)
    rw [hc] at this; cases this
  have hne' : c ≠ s.next := fun h => hne h.symm
  refine ⟨_, by simp [St.run, St.step, hc, hd, hl, upd_same, St.listen, St.prune, upd_other _ _ hne']; rfl, ?_, ?_⟩
  · simp [upd_same]
  · simp [upd_other _ _ hne, upd_same]

/-- C40: as long as the server listens, a connection that is to be kept alive is, and is handled again. -/
theorem kept_alive {s s' : St} (hr : Reach Any s) (hl : s.listening = true) {c : Nat} {nested : Bool}
    (hs : s.step (.finish c true nested) = some s') : c ∈ s'.pool ∧ s'.status c = .serving := by
  simp only [St.step] at hs
  split at hs
  next h =>
    cases hs
    simp only [St.finish, hl, Bool.true_and, if_true]
    refine ⟨((reach_inv hr).mem c).mpr ⟨?_, ?_⟩, h.1⟩ <;> rw [h.1] <;> simp
  · cases hs

example : ∃ s, ({} : St).run [.start, .startListen] = some s ∧ s.dead = false ∧ s.listening = true ∧ s.starting = 0 ∧
    s.status 0 = .accepting := ⟨_, rfl, rfl, rfl, rfl, rfl⟩

/-- C40, partially: when calls of `start` and `stop` do not overlap, every call of `stop` returns only when all
    connections are finished. Missing: overlapping calls. -/
theorem stop_returns_partial {s s' : St} (hr : Reach Serial s) {a : Act} (ho : Serial s a) (hs : s.step a = some s')
    {found : Bool} (hlog : s'.log = s.log ++ [.stopped found]) : ∀ c, ¬ Alive s' c := by
  cases found with
  | true => exact (stop_empty (Reach.mono (fun _ _ _ => trivial) hr) hs hlog).2
  | false =>
    have hc := reach_calm hr
    have hi := reach_inv hr
    have key : s'.pool = [] := by
      unfold St.step at hs
      cases a with
      | stop =>
        obtain ⟨o1, o2⟩ := ho (.inr rfl)
        simp only [] at hs
        split at hs
        · cases hs
        · split at hs
          · cases hs; simp at hlog
          · rename_i hl; cases hs; exact hc.idle (by simpa using hl) o2
      | stopLoop =>
        simp only [] at hs
        split at hs
        · cases hs
        · split at hs
          · rename_i hp; cases hs; exact hp
          · cases hs; simp [St.prune] at hlog
      | start =>
        simp only [] at hs
        split at hs
        · cases hs
        · split at hs <;> cases hs <;> simp at hlog
      | startListen =>
        simp only [] at hs
        split at hs
        · cases hs
        · cases hs
          unfold St.listen at hlog
          split at hlog <;> simp [St.prune] at hlog
      | accept d ok => simp only [] at hs; split at hs <;> cases hs; simp at hlog
      | listen d =>
        simp only [] at hs
        split at hs
        · split at hs
          · cases hs
          · cases hs
            unfold St.listen at hlog
            split at hlog <;> simp [St.prune] at hlog
        · cases hs
      | serve d => simp only [] at hs; split at hs <;> cases hs; simp at hlog
      | fail d =>
        simp only [] at hs
        split at hs <;> cases hs
        unfold St.finish at hlog
        split at hlog <;> simp [St.remove] at hlog
      | finish d k n =>
        simp only [] at hs
        split at hs <;> cases hs
        unfold St.finish at hlog
        split at hlog <;> simp [St.remove] at hlog
      | drop d => simp only [] at hs; split at hs <;> cases hs; simp at hlog
    intro c hcl
    have := ((hi.step hs).mem c).mpr hcl
    rw [key] at this
    cases this

/-- Finding: a second call of `stop` finds the server not listening and returns while a connection is being served and
    the first call is still waiting for it. -/
theorem stop_returns_early : ∃ s s', Reach Any s ∧ s.step .stop = some s' ∧ s'.log = s.log ++ [.stopped false] ∧
    s'.status 0 = .serving ∧ s'.stopping = 1 :=
  ⟨_, _, reach_run [.start, .startListen, .accept 0 true, .listen 0, .serve 0, .stop] .init rfl, rfl, rfl, by decide,
    by decide⟩

/-- C40, partially: when calls of `start` and `stop` do not overlap, a listening server that has called `listen` and
    whose accept handler is not between being called and calling `listen` again reports exactly the connections that
    clients have with it. Missing: these two moments, at which the result is one too small. -/
theorem connections_exact_partial {s : St} (hr : Reach Serial s) (hl : s.listening = true) (hs : s.starting = 0)
    (hd : ∀ c ok, s.status c ≠ .accepted ok true) : s.connections = UInt64.ofNat (openCount s) := by
  have hc := reach_calm hr
  have hi := reach_inv hr
  have h1 := hc.one hl hs
  have h2 := pool_count hi
  have h3 : (s.pool.countP fun c => s.status c = .accepting) = s.waiting := by
    unfold St.waiting
    apply List.countP_congr
    intro c _
    cases hst : s.status c with
    | accepted ok due =>
      cases due with
      | true => exact absurd hst (hd c ok)
      | false => simp [waits]
    | _ => simp [waits]
  rw [h3, h1] at h2
  unfold St.connections
  rw [if_pos hl, h2]
  simp

example : ∃ s, ({} : St).run twoClients = some s ∧ openCount s = 1 ∧ s.connections = 1 :=
  ⟨_, rfl, by decide, by decide⟩

/-- C40: a server that has been stopped reports the connections that are not finished, the one waiting for a client
    among them until its accept is aborted. -/
theorem connections_stopped {s : St} (hr : Reach Any s) (hl : s.listening = false) :
    s.connections = UInt64.ofNat (openCount s + s.pool.countP fun c => s.status c = .accepting) := by
  unfold St.connections
  rw [if_neg (by simp [hl]), pool_count (reach_inv hr)]

/-- Finding: while the accept handler has not yet called `listen`, the connection just accepted is not counted. -/
theorem connections_off_by_one : ∃ s, Reach Any s ∧ openCount s = 1 ∧ s.connections = 0 :=
  ⟨_, reach_run [.start, .startListen, .accept 0 true] .init rfl, by decide, by decide⟩

/-- Finding: right after `start`, before its `listen`, the number of connections is 2^64 - 1. -/
theorem connections_wraps : ∃ s, Reach Any s ∧ openCount s = 0 ∧ s.connections = 0xffffffffffffffff :=
  ⟨_, reach_run [.start] .init rfl, by decide, by decide⟩

/-- Finding: a connection that is kept alive is handled with the mutex held. If its handler finishes it at once (as the
    default handler of `tcp::server` does, or as `http::server` does for a pipelined request it cannot read on a closed
    connection) the server is locked for ever: it cannot be stopped, and finishes no other connection. -/
theorem keep_alive_deadlock : ∃ s, Reach Any s ∧ s.status 0 = .serving ∧ s.step .stop = none ∧ s.step .stopLoop = none ∧
    ∀ c keep nested, s.step (.finish c keep nested) = none := by
  refine ⟨_, reach_run [.start, .startListen, .accept 0 true, .listen 0, .serve 0, .finish 0 true true] .init rfl,
    by decide, by decide, by decide, ?_⟩
  intro c keep nested
  simp only [St.step]
  rw [if_neg]
  intro h
  exact h.2 rfl

end Verif.Props.TcpServer
