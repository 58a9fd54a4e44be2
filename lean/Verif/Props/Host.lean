import Verif.Lemmas.Host
import Verif.Props.Exchange
/-
C95: the connections of a server do not disturb one another, and `stop` waits for the answers. What a client sees is what it would
see if it were alone, whatever the handlers of the others do; what has been begun is finished after `stop`; and a server whose
handlers are orderly (`Spec/Exchange`) can always be stopped once its clients go away.
-/
namespace Verif.Props.Host
open Verif.Host Verif.Spec.Host
open Verif.Exchange (St World reply)
open Verif.Spec.Exchange (Orderly answers activities turns)

/-- A client sees what it would see if the server had no other connections: its connection does, step for step, what a connection
    can do by itself. The handlers of all connections are arbitrary. -/
theorem as_if_alone (w : Nat → World) (as : List Act) (h : Host) (hr : run w as = some h) (i : Nat) (c : St)
    (hc : h.conns[i]? = some c) : Exchange.run (w i) (project i 0 as) = some (seen h i c) :=
  project_run hr hc

/-- The answers on a connection whose handlers are orderly come in order and complete, one thing goes on at a time, and each request
    is finished once, whatever the handlers of other connections do. -/
theorem each_client (w : Nat → World) (as : List Act) (h : Host) (hr : run w as = some h) (i : Nat) (c : St)
    (hc : h.conns[i]? = some c) (ho : ∀ n, Orderly ((w i).prog n)) :
    c.wire <+: answers (w i) c.next ∧ activities c ≤ 1 ∧
      (0 < c.readers ∨ activities c = 0 → c.isOpen = true → c.broken = false → c.wire = answers (w i) c.next) ∧
      (c.log = turns c.next ∨ (∃ n, c.next = n + 1 ∧ c.log = turns n ++ [.request n]) ∨ c.log = turns c.next ++ [.finish c.next]) := by
  have hp := project_run hr hc
  exact ⟨Exchange.answers_in_order (w i) ho _ (seen h i c) hp, Exchange.one_at_a_time (w i) ho _ (seen h i c) hp,
    fun h1 h2 h3 => Exchange.answered_before_next (w i) ho _ (seen h i c) hp h1 h2 h3, Exchange.in_turn (w i) ho _ (seen h i c) hp⟩

/-- When `stop` that waits returns, the pool being empty, every client has the whole answer to every request that was received from
    it, unless somebody closed its connection or a write to it failed. -/
theorem stop_waits_for_answers (w : Nat → World) (as : List Act) (h : Host) (hr : run w as = some h) (he : empty h)
    (hn : .stop true ∉ as) (i : Nat) (c : St) (hc : h.conns[i]? = some c) (ho : ∀ n, Orderly ((w i).prog n))
    (hq : .conn i .close ∉ as) (hf : ∀ k, .conn i (.writeFails k) ∉ as) :
    c.wire = answers (w i) c.next ∧ activities c = 0 := by
  have hp := project_run hr hc
  have hpool := Exchange.pool_run ho (Exchange.good_init (w i)) Exchange.pool_init hp
    (he c (List.mem_of_getElem? hc))
  have hact : activities (seen h i c) = 0 := by
    rw [show activities (seen h i c) = (seen h i c).readers + (seen h i c).writes.length +
      ((seen h i c).calls.filter Exchange.act).length from rfl, hpool.1, hpool.2.1, hpool.2.2]
    rfl
  refine ⟨Exchange.stop_lets_finish (w i) ho _ (seen h i c) hp ?_ (.inr hact), hact⟩
  intro b hb
  obtain ⟨a, ha, hba⟩ := mem_project as hb
  cases a with
  | conn j x =>
    simp only [forConn] at hba
    split at hba
    · rename_i hj
      subst hj
      simp only [List.mem_singleton] at hba
      subst hba
      refine ⟨fun e => hq (e ▸ ha), ?_, fun k e => hf k (e ▸ ha)⟩
      intro e
      subst e
      -- a step of one connection is not a stop
      exact absurd (single_of_run as (h := {}) hr ha) (by simp [single])
    · simp at hba
  | accept => simp only [forConn, List.mem_singleton] at hba; subst hba; simp
  | stop now =>
    simp only [forConn, List.mem_singleton] at hba
    subst hba
    refine ⟨by simp, ?_, by simp⟩
    intro e
    cases e
    exact hn ha
  | start => simp only [forConn, List.mem_singleton] at hba; subst hba; simp
  | prune => simp only [forConn, List.mem_singleton] at hba; subst hba; simp
  | other => simp only [forConn, List.mem_singleton] at hba; subst hba; simp
where
  single_of_run {w : Nat → World} (as : List Act) {h h' : Host} (hr : h.run w as = some h') {j : Nat} {x : Exchange.Act}
      (hm : .conn j x ∈ as) : single x = true := by
    induction as generalizing h with
    | nil => simp at hm
    | cons a as ih =>
      simp only [Verif.Host.Host.run] at hr
      cases hst : h.step w a with
      | none => rw [hst] at hr; cases hr
      | some h1 =>
        rw [hst] at hr
        rcases List.mem_cons.1 hm with rfl | hm
        · simp only [Verif.Host.Host.step] at hst
          split at hst
          · assumption
          · cases hst
        · exact ih hr hm

private theorem good_free {w : Nat → World} (ho : ∀ i n, Orderly ((w i).prog n)) {as : List Act} {h : Host} (hr : run w as = some h)
    (hg : ∀ a ∈ as, gentle a = true) {i : Nat} {c : St} (hc : h.conns[i]? = some c) :
    Exchange.Good (w i) (seen h i c) ∧ Exchange.Free (seen h i c) := by
  have hp := project_run hr hc
  refine ⟨Exchange.good_run (ho i) (Exchange.good_init (w i)) hp,
    Exchange.free_run (ho i) ?_ (Exchange.good_init (w i)) Exchange.free_init hp⟩
  intro b hb
  obtain ⟨a, ha, hba⟩ := mem_project as hb
  have hga := hg a ha
  cases a with
  | conn j x =>
    simp only [forConn] at hba
    split at hba
    · simp only [List.mem_singleton] at hba
      subst hba
      cases b with
      | close => cases hga
      | start => exact absurd (stop_waits_for_answers.single_of_run as (h := {}) hr ha) (by simp [single])
      | _ => rfl
    · simp at hba
  | accept => simp only [forConn, List.mem_singleton] at hba; subst hba; rfl
  | stop now => simp only [forConn, List.mem_singleton] at hba; subst hba; rfl
  | start => cases hga
  | prune => simp only [forConn, List.mem_singleton] at hba; subst hba; rfl
  | other => simp only [forConn, List.mem_singleton] at hba; subst hba; rfl

/-- A server is never stuck: whatever has happened, the server and the network can go on by themselves until on every connection the
    next request is waited for, or it has been given up, and the mutex is free. -/
theorem never_stuck (w : Nat → World) (ho : ∀ i n, Orderly ((w i).prog n)) (as : List Act) (hg : ∀ a ∈ as, gentle a = true) (h : Host)
    (hr : run w as = some h) :
    ∃ bs h', (∀ b ∈ bs, own b = true) ∧ h.run w bs = some h' ∧ h'.held = none ∧ h'.listening = h.listening ∧
      ∀ c ∈ h'.conns, c.readers = 1 ∨ (activities c = 0 ∧ c.pooled = false) := by
  obtain ⟨bs, h', h1, h2, h3, h4, h5, h6⟩ := all_settle (w := w) (fun a => Verif.Spec.Exchange.own a = true) (fun a => own_single)
    Exchange.Quiet (fun s hs => hs.held) (holder_run as (h := {}) (fun i hi => by cases hi) hr)
    (fun i c hc => Exchange.settles (ho i) (good_free ho hr hg hc).1 (good_free ho hr hg hc).2)
  refine ⟨bs, h', ?_, h2, h3, h4, ?_⟩
  · intro b hb
    obtain ⟨i, x, rfl, hx⟩ := h1 b hb
    exact hx
  · intro c hc
    obtain ⟨i, hi⟩ := List.getElem?_of_mem hc
    have hq := h6 i c hi
    rcases hq.waits with hx | ⟨hx, hp⟩
    · exact .inl hx
    · refine .inr ⟨?_, hp⟩
      have h7 : c.readers = 0 := hx
      have h8 : c.writes = [] := hq.writes
      have h9 : c.calls.filter Exchange.act = [] := hq.calls
      rw [show activities c = c.readers + c.writes.length + (c.calls.filter Exchange.act).length from rfl, h7, h8, h9]
      rfl

/-- A server that has been stopped comes to its end: if the clients go away, `stop` can return. -/
theorem stop_returns (w : Nat → World) (ho : ∀ i n, Orderly ((w i).prog n)) (as : List Act) (hg : ∀ a ∈ as, gentle a = true) (h : Host)
    (hr : run w as = some h) (hl : h.listening = false) :
    ∃ bs h', (∀ b ∈ bs, own b = true ∨ leaves b = true) ∧ h.run w bs = some h' ∧ h'.held = none ∧ empty h' := by
  obtain ⟨bs, h', h1, h2, h3, h4, h5, h6⟩ := all_settle (w := w) (fun a => Verif.Spec.Exchange.own a = true ∨ a = .readFails)
    (fun a ha => by rcases ha with ha | rfl; exacts [own_single ha, rfl])
    (fun s => Exchange.Quiet s ∧ s.pooled = false) (fun s hs => hs.1.held) (holder_run as (h := {}) (fun i hi => by cases hi) hr)
    (fun i c hc => ends (ho i) (good_free ho hr hg hc).1 (good_free ho hr hg hc).2 hl)
  refine ⟨bs, h', ?_, h2, h3, ?_⟩
  · intro b hb
    obtain ⟨i, x, rfl, hx | rfl⟩ := h1 b hb
    · exact .inl hx
    · exact .inr rfl
  · intro c hc
    obtain ⟨i, hi⟩ := List.getElem?_of_mem hc
    exact (h6 i c hi).2

private theorem waits_step {w : World} {s s' : St} {a : Exchange.Act} (hg : Exchange.Good w s) (hr : s.readers = 1)
    (hp : s.pooled = true) (ha : a ≠ .arrive ∧ a ≠ .readFails) (hs : s.step w a = some s') : s'.readers = 1 ∧ s'.pooled = true := by
  have hq : s.writes = [] ∧ s.calls.filter Exchange.act = [] := by
    cases hg.phase with
    | reading _ hw hc => exact ⟨hw, hc⟩
    | starting c h => omega
    | ending c h => omega
    | writing x h => omega
    | lost c h => omega
    | over h => omega
  cases a with
  | arrive => exact absurd rfl ha.1
  | readFails => exact absurd rfl ha.2
  | write i k => simp [Exchange.St.step, hq.1] at hs
  | writeEnds i => simp [Exchange.St.step, hq.1] at hs
  | writeFails i => simp [Exchange.St.step, hq.1] at hs
  | stop now =>
    simp only [Exchange.St.step] at hs
    split at hs
    · cases hs
    · simp only [Option.some.injEq] at hs; subst hs; exact ⟨hr, hp⟩
  | start =>
    simp only [Exchange.St.step] at hs
    split at hs
    · cases hs
    · simp only [Option.some.injEq] at hs; subst hs; exact ⟨hr, hp⟩
  | other =>
    simp only [Exchange.St.step] at hs
    split at hs
    · cases hs
    · simp only [Option.some.injEq] at hs; subst hs; exact ⟨hr, hp⟩
  | close => simp only [Exchange.St.step, Option.some.injEq] at hs; subst hs; exact ⟨hr, hp⟩
  | prune => simp [Exchange.St.step, hr] at hs; obtain ⟨-, rfl⟩ := hs; exact ⟨hr, hp⟩
  | call i whole =>
    simp only [Exchange.St.step] at hs
    cases hci : s.calls[i]? with
    | none => rw [hci] at hs; cases hs
    | some c =>
      have hd : c.prog = .done := by
        by_contra hne
        have : c ∈ s.calls.filter Exchange.act := List.mem_filter.2 ⟨List.mem_of_getElem? hci, by simp [Exchange.act, hne]⟩
        rw [hq.2] at this
        simp at this
      rw [hci] at hs
      simp only [Exchange.St.go, hd] at hs
      cases hout : c.outer with
      | none => simp only [hout, Option.some.injEq] at hs; subst hs; exact ⟨hr, hp⟩
      | some o =>
        obtain ⟨req, prog, guarded⟩ := o
        simp only [hout, Option.some.injEq] at hs; subst hs; exact ⟨hr, hp⟩

/-- `stop` does not end the reads of clients that send nothing: it waits until the client goes away, or the timeout of the reader
    (10 seconds, /repo/src/http_reader.cpp:22, C43) ends the read. -/
theorem stop_waits_for_idle_clients (w : Nat → World) (as bs : List Act) (h h' : Host) (hr : run w as = some h)
    (hr' : h.run w bs = some h') (i : Nat) (c : St) (hc : h.conns[i]? = some c) (ho : ∀ n, Orderly ((w i).prog n))
    (hw : c.readers = 1) (hb : .conn i .arrive ∉ bs ∧ .conn i .readFails ∉ bs) : ¬ empty h' := by
  have hp := project_run hr hc
  have hg := Exchange.good_run ho (Exchange.good_init (w i)) hp
  have hpool : (seen h i c).pooled = true := by
    by_contra hx
    have := (Exchange.pool_run ho (Exchange.good_init (w i)) Exchange.pool_init hp (by simpa using hx)).1
    have h2 : (seen h i c).readers = 1 := hw
    omega
  obtain ⟨c', hc', hrun⟩ := project_there bs (locks_run as (h := {}) locks_init hr) hr' hc
  have key : ∀ (xs : List Exchange.Act) (s s' : St), Exchange.Good (w i) s → s.readers = 1 → s.pooled = true →
      (∀ x ∈ xs, x ≠ .arrive ∧ x ≠ .readFails) → s.run (w i) xs = some s' → s'.pooled = true := by
    intro xs
    induction xs with
    | nil => intro s s' _ _ hq _ h; simp only [Exchange.St.run, Option.some.injEq] at h; subst h; exact hq
    | cons x xs ih =>
      intro s s' hg h1 h2 hx h
      simp only [Exchange.St.run] at h
      cases hst : s.step (w i) x with
      | none => rw [hst] at h; cases h
      | some s1 =>
        rw [hst] at h
        have := waits_step hg h1 h2 (hx x List.mem_cons_self) hst
        exact ih s1 s' (Exchange.good_step ho hg hst) this.1 this.2 (fun y hy => hx y (List.mem_cons_of_mem _ hy)) h
  have hpool' := key _ _ _ hg hw hpool (by
    intro x hx
    obtain ⟨a, ha, hxa⟩ := mem_project bs hx
    cases a with
    | conn j y =>
      simp only [forConn] at hxa
      split at hxa
      · rename_i hj
        subst hj
        simp only [List.mem_singleton] at hxa
        subst hxa
        exact ⟨fun e => hb.1 (e ▸ ha), fun e => hb.2 (e ▸ ha)⟩
      · simp at hxa
    | accept => simp only [forConn, List.mem_singleton] at hxa; subst hxa; simp
    | stop now => simp only [forConn, List.mem_singleton] at hxa; subst hxa; simp
    | start => simp only [forConn, List.mem_singleton] at hxa; subst hxa; simp
    | prune => simp only [forConn, List.mem_singleton] at hxa; subst hxa; simp
    | other => simp only [forConn, List.mem_singleton] at hxa; subst hxa; simp) hrun
  intro he
  have := he c' (List.mem_of_getElem? hc')
  rw [show c'.pooled = (seen h' i c').pooled from rfl, hpool'] at this
  cases this

/-- And one handler is enough to disable the server: if the handler of one client finishes the connection without sending anything,
    and the client sends two requests at once, no other client is ever accepted again, `stop` waits for ever, and no connection
    whatever can be finished. -/
theorem one_handler_blocks_all (w : Nat → World) (hw : w 0 = Exchange.finishesAtOnce) :
    ∃ h, run w [.accept, .accept, .conn 0 .arrive, .conn 0 (.call 0 true)] = some h ∧ h.conns.length = 2 ∧
      ∀ bs h', h.run w bs = some h' →
        h'.step w .accept = none ∧ (∀ now, h'.step w (.stop now) = none) ∧
        ∀ j c k d next, h'.conns[j]? = some c → c.calls[k]? = some d → d.prog = .finish next →
          ∀ whole, h'.step w (.conn j (.call k whole)) = none := by
  have h0 : run w [.accept, .accept, .conn 0 .arrive, .conn 0 (.call 0 true)] = some
      { held := some 0
        conns := [{
          held := true, next := 2, readers := 0, lifecycle := .pipelined, log := [.request 0, .finish 0, .request 1]
          calls := [{ req := 1, prog := .finish .done, guarded := true, outer := some (0, .done, true) }] }, {}] } := by
    simp [run, Verif.Host.Host.run, Verif.Host.Host.step, single, pruned, Exchange.St.step, hw, Exchange.finishesAtOnce,
      Exchange.St.go, Exchange.St.finish]
  refine ⟨_, h0, rfl, ?_⟩
  intro bs h' hb
  obtain ⟨c', hc', hrun⟩ := project_there bs (locks_run _ (h := {}) locks_init h0) hb (i := 0) rfl
  have hst := (Exchange.stuck _ rfl rfl rfl rfl rfl hrun).1
  have hheld : h'.held.isSome = true := by
    simp only [seen, beq_iff_eq] at hst
    rw [hst]; rfl
  refine ⟨by simp [Verif.Host.Host.step, hheld], fun now => by simp [Verif.Host.Host.step, hheld], ?_⟩
  intro j c k d next h1 h2 h3 whole
  simp [Verif.Host.Host.step, single, h1, Exchange.St.step, h2, Exchange.St.go, h3, hheld]

/-- Every request is answered with the number of the connection and of the request. -/
def numbered (i : Nat) : World where
  prog n := reply [UInt8.ofNat i, UInt8.ofNat n]
  life _ := .pipelined
  page _ := []

/-- A concrete case: two clients; the server is stopped while one of them is being answered and the other sends a request. -/
example :
    (∀ i n, Orderly ((numbered i).prog n)) ∧
    (∀ a ∈ ([.accept, .conn 0 .arrive, .accept, .conn 0 (.call 0 true), .conn 0 (.write 0 1), .stop false, .conn 1 .arrive] :
      List Act), gentle a = true) ∧
    (run numbered [.accept, .conn 0 .arrive, .accept, .conn 0 (.call 0 true), .conn 0 (.write 0 1), .stop false, .conn 1 .arrive,
      .conn 1 (.call 0 true), .conn 0 (.write 0 1), .conn 1 (.write 0 2), .conn 0 (.writeEnds 0), .conn 0 (.call 1 true),
      .prune, .conn 1 (.writeEnds 0), .conn 1 (.call 1 true)]).map
        (fun h => (h.listening, h.conns.map fun c => (c.wire, c.pooled))) = some (false, [([0, 0], false), ([1, 0], false)]) :=
  ⟨fun i n => (Exchange.reply_orderly _).1, by decide, by decide +kernel⟩

/-- A concrete case: while the second client waits, `stop` waits. -/
example : (run numbered [.accept, .accept, .stop false, .conn 0 .readFails, .conn 0 (.call 0 true)]).map
    (fun h => (h.listening, h.conns.map fun c => (c.readers, c.pooled))) = some (false, [(0, false), (1, true)]) := by
  decide +kernel

end Verif.Props.Host
