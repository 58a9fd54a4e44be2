import Verif.Lemmas.PluginServer
import Verif.Props.Dispatch
import Verif.Props.TcpServer
import Mathlib.Data.List.Induction
/-
C66: the life of the web services of a plug-in server.
-/
namespace Verif.Props.PluginServer
open Verif.PluginServer Verif.Spec.PluginServer Verif.Spec.Paths
open Verif.Server (stripSlash)

/-- C66: when calls do not overlap and no object is handed over twice, nothing happens to a service after it was
    destroyed: it is not called and not destroyed again. -/
theorem not_used_after_destruction {s : St} (hr : Reach Orderly s) {pre post : List Ev} {o : Nat} {how : Plugins.How}
    (h : s.trace = pre ++ .destroyed o how :: post) : ∀ e ∈ post, subject e ≠ o :=
  (reach_objs hr).silent pre o how post h

/-- C66: when calls do not overlap, services are destroyed only when there are no connections. -/
theorem destroyed_when_unused {s s' : St} {a : Act} (hr : Reach Serial s) (hs : s.step a = some s') {o : Nat}
    {how : Plugins.How} (h : .destroyed o how ∈ s'.trace) (hn : .destroyed o how ∉ s.trace) :
    ∀ c, ¬ Spec.TcpServer.Alive s.tcp c := by
  have hg := reach_good hr
  intro c hc
  have hb := hg.busy hc
  cases a with
  | addService r o' => cases hs; simp [hn] at h
  | loadService r lib opens o' =>
    simp only [St.step] at hs
    split at hs <;> cases hs <;> simp [hn] at h
  | setOption r n v =>
    simp only [St.step] at hs
    split at hs <;> cases hs <;> simp [hn] at h
  | addResource r n => cases hs; exact hn h
  | removeResource r => cases hs; exact hn h
  | addRedirect r t => cases hs; exact hn h
  | start binds =>
    simp only [St.step] at hs
    split at hs
    · cases hs
    · split at hs
      · cases hs; exact hn h
      · split at hs
        · obtain ⟨t, _, rfl⟩ := Option.map_eq_some_iff.1 hs
          simp [hn] at h
        · cases hs; simp [hn] at h
  | startListen => obtain ⟨t, _, rfl⟩ := Option.map_eq_some_iff.1 hs; exact hn h
  | conn a => obtain ⟨_, t, b, _, rfl⟩ := conn_spec hs; exact hn h
  | request c req =>
    obtain ⟨_, rfl | ⟨o, q, b, r, rfl, _⟩⟩ := request_spec hs
    · exact hn h
    · simp [hn] at h
  | stop => obtain ⟨t, _, rfl⟩ := Option.map_eq_some_iff.1 hs; exact hn h
  | stopLoop who =>
    simp only [St.step, St.stopLoop] at hs
    split at hs
    · cases hs
    · split at hs
      · cases who <;> simp only at hs <;> split at hs <;> cases hs <;> simp [hn] at h
      · cases hs; exact hn h
  | clear =>
    simp only [St.step] at hs
    split at hs
    · obtain ⟨t, _, rfl⟩ := Option.map_eq_some_iff.1 hs; exact hn h
    · cases hs; exact hn h
  | clearServices => simp [St.step, hb.2.1] at hs
  | clearResources => simp [St.step, hb.2.2] at hs

/-- C66 (partial): a service is told its resource before anything else happens to it, gets requests only between being
    started and being stopped, is stopped as often as it was started, and is destroyed when it is stopped and not
    twice. Missing: services handed over to a running server (`late_service_not_started`) or under a name in use
    (`duplicate_never_started`), failing starts (`failed_start_repeated`), overlapping calls
    (`destroyed_while_serving`). -/
theorem lifecycle_partial {s : St} (hr : Reach Prepared s) (o : Nat) : phase o s.trace ≠ .fault := by
  have h := reach_life hr
  by_cases ho : o ∈ s.objs
  · rw [h.managed o ho]
    split <;> simp
  · rcases h.rest o ho with h' | ⟨h', _⟩ <;> rw [h'] <;> simp

private theorem next_ne_new (p : Phase) (e : Ev) : p.next e ≠ .new := by
  cases p <;> cases e <;> simp [Phase.next]

private theorem phase_ne_new {o : Nat} {t : List Ev} {e : Ev} (he : e ∈ t) (hs : subject e = o) : phase o t ≠ .new := by
  obtain ⟨a, b, rfl⟩ := List.append_of_mem he
  rw [phase_append, List.foldl_cons, if_pos hs]
  have hp := next_ne_new (phase o a) e
  generalize (phase o a).next e = p at hp
  clear he
  induction b generalizing p with
  | nil => exact hp
  | cons x b ih =>
    rw [List.foldl_cons]
    by_cases hx : subject x = o
    · rw [if_pos hx]; exact ih _ (next_ne_new _ _)
    · rw [if_neg hx]; exact ih _ hp

/-- C66 (partial): every service that was handed over and not destroyed is started when the server listens and stopped
    when it does not listen and no call of `stop` is running. Missing: see `lifecycle_partial`. -/
theorem started_partial {s : St} (hr : Reach Prepared s) {o : Nat} {r : Bytes} (ht : .told o r ∈ s.trace)
    (hd : ∀ how, .destroyed o how ∉ s.trace) :
    (s.tcp.listening = true → phase o s.trace = .running) ∧
      (s.tcp.listening = false → s.tcp.stopping = 0 → phase o s.trace = .idle) := by
  have h := reach_life hr
  have ho : o ∈ s.objs := by
    by_contra hn
    rcases h.rest o hn with h' | ⟨h', _⟩
    · exact phase_ne_new ht rfl h'
    · have : ∀ t : List Ev, (∀ how, .destroyed o how ∉ t) → phase o t ≠ .gone := by
        intro t
        induction t using List.reverseRecOn with
        | nil => intro _; simp [phase]
        | append_singleton t e ih =>
          intro hd
          have ih := ih fun how hm => hd how (by simp [hm])
          rw [phase_append, List.foldl_cons, List.foldl_nil]
          split
          · rename_i hs
            cases e with
            | destroyed o' how => simp only [subject] at hs; subst hs; exact absurd (by simp) (hd how)
            | _ => cases hp : phase o t <;> simp [Phase.next, hp] at ih ⊢
          · exact ih
      exact this _ hd h'
  rw [h.managed o ho]
  constructor
  · intro hl; simp [St.up, hl]
  · intro hl hst; simp [St.up, hl, hst]

/-- C66 (partial): `clear`, and so the destructor, destroys every service that was handed over. Missing: see
    `lifecycle_partial`. -/
theorem all_destroyed_partial {s s' : St} (hr : Reach Prepared s) (hs : s.step .clearServices = some s') {o : Nat}
    {r : Bytes} (ht : .told o r ∈ s.trace) : phase o s'.trace = .gone := by
  have ho : Prepared s .clearServices :=
    ⟨⟨(by intro h; cases h), (by intro o r h; cases h)⟩, (by intro o h; cases h), (by intro r o h; cases h),
      (by intro b h; cases h)⟩
  have h := reach_life (.step hr ho hs)
  have ht' : .told o r ∈ s'.trace := by
    simp only [St.step] at hs
    split at hs <;> cases hs
    simp [ht]
  have hobj : o ∉ s'.objs := by
    simp only [St.step] at hs
    split at hs <;> cases hs
    simp [St.objs, Plugins.step]
  rcases h.rest o hobj with h' | ⟨h', _⟩
  · exact absurd h' (phase_ne_new ht' rfl)
  · exact h'

/-- What holds however calls overlap: the threads that wait in `stop` for a call of `clear` are counted, and the TCP server
    takes steps of its own. -/
private structure Waits (s : St) : Prop where
  tcp : Spec.TcpServer.Reach Spec.TcpServer.Any s.tcp
  callers : s.clearStop + s.unbindStop ≤ s.tcp.stopping

private theorem reach_waits {s : St} (hr : Reach Any s) : Waits s := by
  induction hr with
  | init => exact ⟨.init, Nat.le_refl _⟩
  | @step s s' a _ _ hs ih =>
    obtain ⟨h1, h2⟩ := ih
    cases a with
    | addService r o => cases hs; exact ⟨h1, h2⟩
    | loadService r lib opens o => simp only [St.step] at hs; split at hs <;> cases hs <;> exact ⟨h1, h2⟩
    | setOption r n v => simp only [St.step] at hs; split at hs <;> cases hs <;> exact ⟨h1, h2⟩
    | addResource r n => cases hs; exact ⟨h1, h2⟩
    | removeResource r => cases hs; exact ⟨h1, h2⟩
    | addRedirect r t => cases hs; exact ⟨h1, h2⟩
    | start binds =>
      simp only [St.step] at hs
      split at hs
      · cases hs
      · split at hs <;> rename_i hl
        · cases hs; exact ⟨h1, h2⟩
        · split at hs
          · obtain ⟨t, ht, rfl⟩ := Option.map_eq_some_iff.1 hs
            have := start_flags ht (by simpa using hl)
            exact ⟨.step h1 trivial ht, by simp only; omega⟩
          · cases hs; exact ⟨h1, h2⟩
    | startListen =>
      obtain ⟨t, ht, rfl⟩ := Option.map_eq_some_iff.1 hs
      have := startListen_flags ht
      exact ⟨.step h1 trivial ht, by simp only; omega⟩
    | conn a =>
      obtain ⟨ha, t, b, ht, rfl⟩ := conn_spec hs
      have := conn_flags ht ha
      exact ⟨.step h1 trivial ht, by simp only; omega⟩
    | request c req =>
      obtain ⟨_, rfl | ⟨o, q, b, r, rfl, _⟩⟩ := request_spec hs
      · exact ⟨h1, h2⟩
      · exact ⟨h1, h2⟩
    | stop =>
      obtain ⟨t, ht, rfl⟩ := Option.map_eq_some_iff.1 hs
      have := stop_flags ht
      exact ⟨.step h1 trivial ht, by simp only; omega⟩
    | stopLoop who =>
      simp only [St.step, St.stopLoop] at hs
      split at hs
      · cases hs
      · rename_i t ht
        have := stopLoop_spec ht
        split at hs
        · cases who <;> simp only at hs <;> split at hs <;> cases hs <;> exact ⟨.step h1 trivial ht, by simp only; omega⟩
        · cases hs; exact ⟨.step h1 trivial ht, by simp only; omega⟩
    | clear =>
      simp only [St.step] at hs
      split at hs <;> rename_i hl
      · obtain ⟨t, ht, rfl⟩ := Option.map_eq_some_iff.1 hs
        have := stop_flags ht
        rw [hl] at this
        simp only [true_and, reduceCtorEq, false_and, or_false] at this
        exact ⟨.step h1 trivial ht, by simp only; omega⟩
      · cases hs; exact ⟨h1, h2⟩
    | clearServices => simp only [St.step] at hs; split at hs <;> cases hs; exact ⟨h1, h2⟩
    | clearResources =>
      simp only [St.step] at hs
      split at hs
      · cases hs
      · split at hs
        · rename_i hl
          obtain ⟨t, ht, rfl⟩ := Option.map_eq_some_iff.1 hs
          have := stop_flags ht
          rw [hl] at this
          simp only [true_and, reduceCtorEq, false_and, or_false] at this
          exact ⟨.step h1 trivial ht, by simp only; omega⟩
        · cases hs; exact ⟨h1, h2⟩

/-- C66: however calls overlap, no thread leaves the loop of `stop` in place of another: those that wait there for a call of
    `clear` are among those that wait. -/
theorem callers_counted {s : St} (hr : Reach Any s) : s.clearStop + s.unbindStop ≤ s.tcp.stopping := (reach_waits hr).callers

/-- C66: when all connections are finished, each thread that waits in `stop` can go on, and those that wait for a call of `clear`
    go on with that call. -/
theorem callers_go_on {s : St} (hr : Reach Any s) (hd : s.tcp.dead = false) (hc : ∀ c, ¬ Spec.TcpServer.Alive s.tcp c) :
    (0 < s.clearStop → ∃ s', s.step (.stopLoop .clear) = some s' ∧ s'.clearStop + 1 = s.clearStop ∧ s'.clearing = s.clearing + 1 ∧
      s'.trace = s.trace ++ s.objs.map .stop) ∧
    (0 < s.unbindStop → ∃ s', s.step (.stopLoop .unbind) = some s' ∧ s'.unbindStop + 1 = s.unbindStop ∧ s'.tables.resources = []) ∧
    (s.clearStop + s.unbindStop < s.tcp.stopping → ∃ s', s.step (.stopLoop .stop) = some s' ∧
      s'.tcp.stopping + 1 = s.tcp.stopping ∧ s'.trace = s.trace ++ s.objs.map .stop) := by
  obtain ⟨h1, h2⟩ := reach_waits hr
  have hp : s.tcp.prune.pool = [] := by
    have : s.tcp.pool = [] := List.eq_nil_iff_forall_not_mem.2 fun c hm => hc c (((Verif.Props.TcpServer.pool_exact h1).2 c).1 hm)
    simp [TcpServer.St.prune, this]
  have key : 0 < s.tcp.stopping → ∃ t, s.tcp.step .stopLoop = some t ∧ t.stopping + 1 = s.tcp.stopping := by
    intro h0
    refine ⟨_, by simp [TcpServer.St.step, hd, hp, Nat.pos_iff_ne_zero.1 h0]; rfl, ?_⟩
    simp only
    omega
  refine ⟨fun h => ?_, fun h => ?_, fun h => ?_⟩
  · obtain ⟨t, ht, hlt⟩ := key (by omega)
    simp only [St.step, St.stopLoop, ht]
    rw [if_pos (by omega), if_neg (by omega)]
    exact ⟨_, rfl, by simp only; omega, rfl, rfl⟩
  · obtain ⟨t, ht, hlt⟩ := key (by omega)
    simp only [St.step, St.stopLoop, ht]
    rw [if_pos (by omega), if_neg (by omega)]
    exact ⟨_, rfl, by simp only; omega, rfl⟩
  · obtain ⟨t, ht, hlt⟩ := key (by omega)
    simp only [St.step, St.stopLoop, ht]
    rw [if_pos (by omega), if_pos h]
    exact ⟨_, rfl, hlt, rfl⟩

private theorem strip_clean {r : Bytes} (h : ∀ p, r ≠ p ++ b! "//") : stripSlash (stripSlash r) = stripSlash r := by
  by_cases hl : (stripSlash r).getLast? = some (c! "/")
  · exfalso
    unfold stripSlash at hl
    split at hl
    · rename_i h1
      obtain ⟨p, rfl⟩ := List.getLast?_eq_some_iff.1 h1
      rw [List.dropLast_concat] at hl
      obtain ⟨q, rfl⟩ := List.getLast?_eq_some_iff.1 hl
      exact h q (by simp)
    · contradiction
  · exact if_neg hl

/-- What services have been told: each one thing, and the paths they are bound to. -/
private structure Told (s : St) : Prop where
  once : ∀ o r r', .told o r ∈ s.trace → .told o r' ∈ s.trace → r = r'
  bound : ∀ k o, (k, .service o) ∈ s.tables.resources → .told o k ∈ s.trace

private theorem Told.calls {s s' : St} (h : Told s) {l : List Ev} (hl : ∀ o r, .told o r ∉ l)
    (h3 : s'.trace = s.trace ++ l)
    (h2 : ∀ k o, (k, .service o) ∈ s'.tables.resources → (k, .service o) ∈ s.tables.resources) : Told s' := by
  refine ⟨fun o r r' h1 h2' => ?_, fun k o hk => ?_⟩
  · rw [h3] at h1 h2'
    rcases List.mem_append.1 h1 with h1 | h1
    · rcases List.mem_append.1 h2' with h2' | h2'
      · exact h.once o r r' h1 h2'
      · exact absurd h2' (hl _ _)
    · exact absurd h1 (hl _ _)
  · rw [h3]; simp [h.bound k o (h2 k o hk)]

private theorem Told.hand {s s' : St} (hob : Objs s) (h : Told s) {k : Bytes} {o : Nat}
    (hk : stripSlash k = k) (hf : ∀ r, .told o r ∉ s.trace)
    (h2 : s'.tables = Server.step s.tables (.addResource k (.service o)))
    (h3 : s'.trace = s.trace ++ [.told o k]) : Told s' := by
  refine ⟨fun o' r r' h1 h2' => ?_, fun k' o' hk' => ?_⟩
  · rw [h3] at h1 h2'
    simp only [List.mem_append, List.mem_singleton, Ev.told.injEq] at h1 h2'
    rcases h1 with h1 | ⟨rfl, rfl⟩
    · rcases h2' with h2' | ⟨rfl, rfl⟩
      · exact h.once o' r r' h1 h2'
      · exact absurd h1 (hf _)
    · rcases h2' with h2' | ⟨_, rfl⟩
      · exact absurd h2' (hf _)
      · rfl
  · rw [h2] at hk'
    simp only [Server.step] at hk'
    rw [h3]
    rcases mem_insert hob.sorted' hk' with ⟨hk', _⟩ | hk'
    · cases hk'; rw [hk]; simp
    · simp [h.bound k' o' hk']

private theorem Told.step {s s' : St} {a : Act} (hob : Objs s) (h : Told s) (ho : Clean s a)
    (hs : s.step a = some s') : Told s' := by
  cases a with
  | addService r o =>
    cases hs
    exact h.hand hob (strip_clean (ho.clean r rfl)) (fun r => ho.orderly.2 o r rfl) rfl rfl
  | loadService r lib opens o =>
    simp only [St.step] at hs
    split at hs <;> cases hs
    · exact h.hand hob (strip_clean (ho.clean r rfl)) (fun r => ho.orderly.2 o r rfl) rfl rfl
    · exact h
  | setOption r n v =>
    simp only [St.step] at hs
    split at hs <;> cases hs
    · exact h.calls (l := [.option _ n v]) (by simp) rfl (fun _ _ hk => hk)
    · exact h
  | addResource r n =>
    cases hs
    refine h.calls (l := []) (by simp) (by simp) ?_
    intro k o hk
    simp only [Server.step] at hk
    rcases mem_insert hob.sorted' hk with ⟨hk, _⟩ | hk
    · cases hk
    · exact hk
  | removeResource r =>
    cases hs
    exact h.calls (l := []) (by simp) (by simp) (fun _ _ hk => (List.mem_filter.1 hk).1)
  | addRedirect r t => cases hs; exact h.calls (l := []) (by simp) (by simp) (fun _ _ hk => hk)
  | start binds =>
    simp only [St.step] at hs
    split at hs
    · cases hs
    · split at hs
      · cases hs; exact h
      · split at hs
        · obtain ⟨t, _, rfl⟩ := Option.map_eq_some_iff.1 hs
          exact h.calls (l := s.objs.map .start) (by simp) rfl (fun _ _ hk => hk)
        · cases hs
          exact h.calls (l := s.objs.map .start) (by simp) rfl (fun _ _ hk => hk)
  | startListen =>
    obtain ⟨t, _, rfl⟩ := Option.map_eq_some_iff.1 hs
    exact h.calls (l := []) (by simp) (by simp) (fun _ _ hk => hk)
  | conn a =>
    obtain ⟨_, t, b, _, rfl⟩ := conn_spec hs
    exact h.calls (l := []) (by simp) (by simp) (fun _ _ hk => hk)
  | request c req =>
    obtain ⟨_, rfl | ⟨o, q, b, r, rfl, _⟩⟩ := request_spec hs
    · exact h
    · exact h.calls (l := [.request o c q]) (by simp) rfl (fun _ _ hk => hk)
  | stop =>
    obtain ⟨t, _, rfl⟩ := Option.map_eq_some_iff.1 hs
    exact h.calls (l := []) (by simp) (by simp) (fun _ _ hk => hk)
  | stopLoop who =>
    simp only [St.step, St.stopLoop] at hs
    split at hs
    · cases hs
    · split at hs
      · cases who <;> simp only at hs <;> split at hs <;> cases hs
        · exact h.calls (l := s.objs.map .stop) (by simp) rfl (fun _ _ hk => hk)
        · exact h.calls (l := s.objs.map .stop) (by simp) rfl (fun _ _ hk => hk)
        · exact h.calls (l := s.objs.map .stop) (by simp) rfl (fun _ _ hk => by cases hk)
      · cases hs; exact h.calls (l := []) (by simp) (by simp) (fun _ _ hk => hk)
  | clear =>
    simp only [St.step] at hs
    split at hs
    · obtain ⟨t, _, rfl⟩ := Option.map_eq_some_iff.1 hs
      exact h.calls (l := []) (by simp) (by simp) (fun _ _ hk => hk)
    · cases hs; exact h.calls (l := []) (by simp) (by simp) (fun _ _ hk => hk)
  | clearServices =>
    simp only [St.step] at hs
    split at hs <;> cases hs
    exact h.calls (by simp) rfl (fun _ _ hk => hk)
  | clearResources =>
    simp only [St.step] at hs
    split at hs
    · cases hs
    · split at hs
      · obtain ⟨t, _, rfl⟩ := Option.map_eq_some_iff.1 hs
        exact h.calls (l := []) (by simp) (by simp) (fun _ _ hk => hk)
      · cases hs; exact h.calls (l := []) (by simp) (by simp) (fun _ _ hk => by cases hk)

private theorem reach_told {s : St} (hr : Reach Clean s) : Told s := by
  induction hr with
  | init => exact ⟨by simp, by simp⟩
  | step hr ho hs ih => exact ih.step (reach_objs (Reach.mono (fun _ _ h => h.orderly) hr)) ho hs

/-- C66 (partial): a service gets only requests for resources under the one path it was told: the requested path, or
    what it is redirected to in at most ten steps, is that path or continues it after a slash. Missing: names that end
    with two slashes (`told_another_path`). -/
theorem own_requests_partial {s s' : St} (hr : Reach Clean s) {c o : Nat} {req q : Msg}
    (hs : s.step (.request c req) = some s') (h : s'.trace = s.trace ++ [.request o c q]) :
    ∃ path t, (∀ r, .told o r ∈ s.trace ↔ r = path) ∧ Covers path t ∧ (∃ n ≤ 10,
      Follows (fun k => s.tables.redirects.lookup k) n (Spec.Dispatch.noSlash req.resource) t ∧
      q = if n = 0 then req else { req with resource := t }) := by
  have hob := reach_objs (Reach.mono (fun _ _ h => h.orderly) hr)
  have ht := reach_told hr
  obtain ⟨_, rfl | ⟨o', q', b, r, rfl, hl, hf⟩⟩ := request_spec hs
  · simp at h
  · simp only [List.append_cancel_left_eq, List.cons.injEq, Ev.request.injEq, true_and, and_true] at h
    obtain ⟨rfl, rfl⟩ := h
    obtain ⟨k, hk, hc⟩ := found_bound hob.sorted' hf
    obtain ⟨n, hn, hfl, _, hq⟩ := (Server.redirectLoop_some _ _ _ _ _ _).1 hl
    refine ⟨k, r, fun p => ⟨fun hp => ht.once _ _ _ hp (ht.bound k _ hk), fun hp => hp ▸ ht.bound k _ hk⟩, hc, n, hn, ?_, hq⟩
    rw [← Server.stripSlash_eq]; exact hfl

private theorem history_tables {s : St} {ops : List (Server.Op Handler)} (h : History s ops) : s.tables = Server.build ops := by
  induction h with
  | init => rfl
  | @step s s' ops a _ hs ih =>
    have snoc : ∀ op, Server.build (ops ++ [op]) = Server.step (Server.build ops) op := fun op => by
      simp [Server.build]
    cases a with
    | addService r o =>
      cases hs
      simp only [registers]
      rw [snoc, ← ih, ← Server.stripSlash_eq]
    | loadService r lib opens o =>
      simp only [St.step] at hs
      split at hs
      · cases hs
        simp only [registers]
        rw [if_neg (by simp), snoc, ← ih, ← Server.stripSlash_eq]
      · cases hs; simp [registers, ih]
    | setOption r n v =>
      simp only [St.step] at hs
      split at hs <;> (cases hs; simpa [registers] using ih)
    | addResource r n => cases hs; simp only [registers]; rw [snoc, ← ih]
    | removeResource r => cases hs; simp only [registers]; rw [snoc, ← ih]
    | addRedirect r t => cases hs; simp only [registers]; rw [snoc, ← ih]
    | start b =>
      simp only [St.step] at hs
      simp only [registers, List.append_nil]
      split at hs
      · cases hs
      · split at hs
        · cases hs; exact ih
        · split at hs
          · obtain ⟨t, _, rfl⟩ := Option.map_eq_some_iff.1 hs; exact ih
          · cases hs; exact ih
    | startListen =>
      obtain ⟨t, _, rfl⟩ := Option.map_eq_some_iff.1 hs
      simpa [registers] using ih
    | conn a =>
      simp only [St.step] at hs
      simp only [registers, List.append_nil]
      rw [← ih]
      cases a <;> simp only [St.conn, Option.map_eq_some_iff, reduceCtorEq] at hs
      all_goals (obtain ⟨t, _, rfl⟩ := hs; rfl)
    | request c req =>
      simp only [registers, List.append_nil]
      obtain ⟨_, rfl | ⟨o', q', b, r, rfl, _⟩⟩ := request_spec hs
      · exact ih
      · exact ih
    | stop =>
      obtain ⟨t, _, rfl⟩ := Option.map_eq_some_iff.1 hs
      simpa [registers] using ih
    | stopLoop who =>
      simp only [St.step] at hs
      unfold St.stopLoop at hs
      split at hs
      · cases hs
      · rename_i t ht
        split at hs
        · cases who with
          | stop =>
            simp only at hs
            split at hs
            · cases hs; simpa [registers] using ih
            · cases hs
          | clear =>
            simp only at hs
            split at hs
            · cases hs
            · cases hs; simpa [registers] using ih
          | unbind =>
            simp only at hs
            split at hs
            · cases hs
            · cases hs
              simp only [registers]
              rw [if_pos (by omega), snoc, ← ih]
        · cases hs
          cases who <;> simpa [registers] using ih
    | clear =>
      simp only [St.step] at hs
      simp only [registers, List.append_nil]
      split at hs
      · obtain ⟨t, _, rfl⟩ := Option.map_eq_some_iff.1 hs; exact ih
      · cases hs; exact ih
    | clearServices =>
      simp only [St.step] at hs
      simp only [registers, List.append_nil]
      split at hs
      · cases hs
      · cases hs; exact ih
    | clearResources =>
      simp only [St.step] at hs
      split at hs
      · cases hs
      · split at hs
        · obtain ⟨t, _, rfl⟩ := Option.map_eq_some_iff.1 hs
          simp only [registers]
          rw [if_neg (by simp), List.append_nil]; exact ih
        · cases hs
          simp only [registers]
          rw [if_pos trivial, snoc, ← ih]

private theorem handler_only {tb : Server.Tables Handler} {req q : Msg} {h : Handler}
    (hm : .handler h q ∈ (Server.handleRequest (σ := Unit) (fun _ => .returns) none tb () .ok req).1) :
    (Server.handleRequest (σ := Unit) (fun _ => .returns) none tb () .ok req).1 = [.handler h q] := by
  unfold Server.handleRequest at hm ⊢
  split
  · rename_i hc; rw [if_pos hc] at hm; simp at hm
  · rename_i hc
    rw [if_neg hc] at hm
    split
    · rename_i hl; rw [hl] at hm; simp at hm
    · rename_i r q' hl
      rw [hl] at hm
      simp only [Server.dispatch] at hm ⊢
      split
      · rename_i hf; rw [hf] at hm; simp at hm
      · rename_i h' hf
        rw [hf] at hm
        simp only [List.mem_singleton] at hm
        rw [hm]

/-- C66: a valid request on a connection goes to the service whose name is the longest of all that cover the requested
    path (after the redirects, if there are not too many), and to no other. -/
theorem requests_delivered {s : St} {ops : List (Server.Op Handler)} (h : History s ops) {c : Nat}
    (hs : s.tcp.status c = .serving) (hb : s.busy c = none) {req : Msg} (hv : req.isValid = true) {n : Nat} {t : Bytes}
    (he : Props.Dispatch.Ends ops req n t) :
    ∃ s', s.step (.request c req) = some s' ∧ (∀ o, Longest (Spec.Dispatch.handlers ops) t (.service o) →
      s'.trace = s.trace ++ [.request o c (Props.Dispatch.redirected req n t)]) ∧
      ((∀ o, ¬ Longest (Spec.Dispatch.handlers ops) t (.service o)) → s'.trace = s.trace) := by
  have ht := history_tables h
  have hd := fun o q => Props.Dispatch.delivered (σ := Unit) (fun _ => .returns) ops () req hv he (.service o) q
  rw [← ht] at hd
  simp only [St.step]
  unfold St.request
  rw [if_pos ⟨hs, hb⟩]
  split
  · rename_i o q hcall
    have h1 := (hd o q).1 (by rw [hcall]; simp)
    refine ⟨_, rfl, ?_, fun hn => absurd h1.1 (hn o)⟩
    intro o' ho'
    have h2 := (hd o' _).2 ⟨ho', rfl⟩
    rw [hcall, List.mem_singleton] at h2
    injection h2 with h2 h3
    injection h2 with h2
    dsimp only
    rw [h2, h3]
  · rename_i hcall
    exact ⟨_, rfl, fun o ho => absurd (handler_only ((hd o _).2 ⟨ho, rfl⟩)) (hcall o _), fun _ => rfl⟩

/-! ### Examples and findings -/

/-- `Serial`, `Fresh`, `Prepared` and `Clean`, computed. -/
private def serialB (s : St) (a : Act) : Bool :=
  !isCall a || (s.tcp.starting == 0 && s.tcp.stopping == 0 && s.clearing == 0 && s.unbinding == 0)
private def freshB (s : St) (a : Act) : Bool :=
  match handed a with
  | none => true
  | some o => s.trace.all fun e => match e with | .told o' _ => o' != o | _ => true
private def preparedB (s : St) (a : Act) : Bool :=
  serialB s a && freshB s a && ((handed a).isNone || !s.tcp.listening) &&
    (match a with
     | .addService r _ => (Plugins.get s.services (stripSlash r)).isNone
     | .start b => b
     | _ => true)
private def cleanB (s : St) (a : Act) : Bool :=
  serialB s a && freshB s a &&
    (match handedFor a with | some r => r.drop (r.length - 2) != b! "//" | none => true)

private theorem serialB_ok {s : St} {a : Act} (h : serialB s a = true) : Serial s a := by
  intro hc
  simpa [serialB, hc, and_assoc] using h

private theorem freshB_ok {s : St} {a : Act} (h : freshB s a = true) : Fresh s a := by
  intro o r ho hm
  simp only [freshB, ho, List.all_eq_true] at h
  have := h _ hm
  simp at this

private theorem preparedB_ok {s : St} {a : Act} (h : preparedB s a = true) : Prepared s a := by
  simp only [preparedB, Bool.and_eq_true] at h
  obtain ⟨⟨⟨h1, h2⟩, h3⟩, h4⟩ := h
  refine ⟨⟨serialB_ok h1, freshB_ok h2⟩, ?_, ?_, ?_⟩
  · intro o ho; simpa [ho] using h3
  · rintro r o rfl; simpa using h4
  · rintro b rfl; exact h4

private theorem cleanB_ok {s : St} {a : Act} (h : cleanB s a = true) : Clean s a := by
  simp only [cleanB, Bool.and_eq_true] at h
  obtain ⟨⟨h1, h2⟩, h3⟩ := h
  refine ⟨⟨serialB_ok h1, freshB_ok h2⟩, ?_⟩
  rintro r hr p rfl
  simp only [hr] at h3
  simp at h3

/-- A run whose steps pass a test. -/
private def runB (ok : St → Act → Bool) (s : St) : List Act → Option St
  | [] => some s
  | a :: as => if ok s a then (s.step a).bind fun s' => runB ok s' as else none

private theorem reach_runB {ok : St → Act → Prop} {okB : St → Act → Bool} (hok : ∀ s a, okB s a = true → ok s a)
    (l : List Act) {s s' : St} : Reach ok s → runB okB s l = some s' → Reach ok s' := by
  induction l generalizing s with
  | nil => intro hr h; cases h; exact hr
  | cons a l ih =>
    intro hr h
    unfold runB at h
    split at h
    · rename_i ha
      obtain ⟨t, ht, h⟩ := Option.bind_eq_some_iff.1 h
      exact ih (.step hr (hok s a ha) ht) h
    · cases h

private theorem reached {ok : St → Act → Prop} {okB : St → Act → Bool} (hok : ∀ s a, okB s a = true → ok s a)
    (l : List Act) (P : St → Bool) (h : ((runB okB {} l).map P) = some true) : ∃ s, Reach ok s ∧ P s = true := by
  obtain ⟨s, hs, hp⟩ := Option.map_eq_some_iff.1 h
  exact ⟨s, reach_runB hok l .init hs, hp⟩

/-- A request for a resource. -/
def get (r : Bytes) : Msg := { isValid := true, resource := r }

/-- A client is accepted and its request handled. -/
def client (r : Bytes) : List Act :=
  [.startListen, .conn (.accept 0 true), .conn (.listen 0), .conn (.serve 0), .request 0 (get r)]

/-- An event, without its texts. -/
def brief : Ev → List Nat
  | .told o _ => [0, o]
  | .option o _ _ => [1, o]
  | .start o => [2, o]
  | .stop o => [3, o]
  | .request o c _ => [4, o, c]
  | .destroyed o _ => [5, o]

/-- Two services, one request, stop, clear. -/
def ordinary : List Act :=
  [.addService (b! "/a/") 1, .loadService (b! "/b") (b! "Echo") true 2, .setOption (b! "/b") (b! "x") (b! "y"), .start true] ++
    client (b! "/b/c") ++
    [.stop, .conn (.finish 0 true false), .conn (.accept 1 false), .conn (.fail 1), .stopLoop .stop, .clear, .clearServices,
      .clearResources]

/-- The ordinary use meets all contracts. -/
example : ∃ s, Reach Prepared s ∧ s.trace.map brief =
    [[0, 1], [0, 2], [1, 2], [2, 1], [2, 2], [4, 2, 0], [3, 1], [3, 2], [5, 1], [5, 2]] := by
  simpa using reached (fun _ _ => preparedB_ok) ordinary (fun s => s.trace.map brief ==
    [[0, 1], [0, 2], [1, 2], [2, 1], [2, 2], [4, 2, 0], [3, 1], [3, 2], [5, 1], [5, 2]]) (by decide +kernel)
example : ∃ s, Reach Clean s ∧ s.trace.length = 10 := by
  simpa using reached (fun _ _ => cleanB_ok) ordinary (fun s => s.trace.length == 10) (by decide +kernel)

/-- The history of a list of steps. -/
private def track (s : St) (ops : List (Server.Op Handler)) : List Act → Option (St × List (Server.Op Handler))
  | [] => some (s, ops)
  | a :: as => (s.step a).bind fun s' => track s' (ops ++ registers s s' a) as

private theorem history_track : ∀ (as : List Act) {s : St} {ops : List (Server.Op Handler)}, History s ops →
    ∀ {r}, track s ops as = some r → History r.1 r.2
  | [], _, _, h, _, hr => by cases hr; exact h
  | a :: as, s, ops, h, r, hr => by
    obtain ⟨s', hs, hr⟩ := Option.bind_eq_some_iff.1 hr
    exact history_track as (.step h hs) hr

/-- A request as in the theorem. -/
example : ∃ s ops, History s ops ∧ s.tcp.status 0 = .serving ∧ s.busy 0 = none ∧
    Longest (Spec.Dispatch.handlers ops) (b! "/b/c") (.service 2) ∧ Props.Dispatch.Ends ops (get (b! "/old/")) 1 (b! "/b/c") := by
  have h : (track {} [] (.addRedirect (b! "/old") (b! "/b/c") :: ordinary.take 8)).any (fun r =>
      decide (r.1.tcp.status 0 = .serving) && (r.1.busy 0).isNone &&
      decide (Server.findHandler (Server.build r.2).resources (b! "/b/c") = some (.service 2)) &&
      decide (Spec.Dispatch.redirects r.2 (b! "/old") = some (b! "/b/c")) &&
      decide (Spec.Dispatch.redirects r.2 (b! "/b/c") = none)) = true := by decide +kernel
  obtain ⟨hi, hc⟩ := (Option.any_eq_true_iff_get _ _).1 h
  simp only [Bool.and_eq_true, decide_eq_true_eq, Option.isNone_iff_eq_none] at hc
  obtain ⟨⟨⟨⟨h1, h2⟩, h3⟩, h4⟩, h5⟩ := hc
  exact ⟨_, _, history_track _ .init (Option.some_get hi).symm, h1, h2, (Props.Dispatch.find_longest _ _ _).1 h3, by decide, .next h4 (.stay _), h5⟩

/-- Finding: a thread that calls `clear` (or the destructor) while another is in `stop` finds that the server does not
    listen, and destroys a service that is handling a request. -/
theorem destroyed_while_serving : ∃ s s', Reach Fresh s ∧ s.step .clearServices = some s' ∧
    s.tcp.status 0 = .serving ∧ s.busy 0 = some 1 ∧ s'.trace.map brief = s.trace.map brief ++ [[5, 1]] := by
  obtain ⟨s, hr, h⟩ := reached (ok := Fresh) (fun _ _ => freshB_ok)
    ([.addService (b! "/a") 1, .start true] ++ client (b! "/a") ++ [.stop, .clear])
    (fun s => (decide (s.tcp.status 0 = .serving) && decide (s.busy 0 = some 1)) &&
      ((s.step .clearServices).map fun s' => s'.trace.map brief) == some (s.trace.map brief ++ [[5, 1]])) (by decide +kernel)
  simp only [Bool.and_eq_true, decide_eq_true_eq, beq_iff_eq] at h
  obtain ⟨s', hs, h'⟩ := Option.map_eq_some_iff.1 h.2
  exact ⟨s, s', hr, hs, h.1.1, h.1.2, h'⟩

/-- Two threads in `stop`, one of them for a call of `clear`: both go on. -/
example : ∃ s, Reach Any s ∧ s.tcp.stopping = 2 ∧ s.clearStop = 1 ∧ s.tcp.pool = [] := by
  simpa using reached (ok := Any) (okB := fun _ _ => true) (fun _ _ _ => trivial)
    [.addService (b! "/a") 1, .start true, .startListen, .stop, .start true, .clear, .conn (.accept 0 false), .conn (.fail 0)]
    (fun s => decide (s.tcp.stopping = 2) && (decide (s.clearStop = 1) && decide (s.tcp.pool = []))) (by decide +kernel)

/-- Finding: a service handed over to a server that is running gets requests although it was never started. -/
theorem late_service_not_started : ∃ s, Reach Orderly s ∧ s.trace.map brief = [[0, 1], [4, 1, 0]] ∧
    phase 1 s.trace = .fault := by
  simpa using reached (ok := Orderly) (okB := fun s a => serialB s a && freshB s a)
    (fun _ _ h => by simp only [Bool.and_eq_true] at h; exact ⟨serialB_ok h.1, freshB_ok h.2⟩)
    [.start true, .startListen, .addService (b! "/a") 1, .conn (.accept 0 true), .conn (.listen 0), .conn (.serve 0),
      .request 0 (get (b! "/a"))]
    (fun s => decide (s.trace.map brief = [[0, 1], [4, 1, 0]]) && decide (phase 1 s.trace = .fault)) (by decide +kernel)

/-- Finding: a call of `start` that cannot bind the port leaves the services started; the next call starts them again. -/
theorem failed_start_repeated : ∃ s, Reach Orderly s ∧ s.trace.map brief = [[0, 1], [2, 1], [2, 1]] ∧
    phase 1 s.trace = .fault := by
  simpa using reached (ok := Orderly) (okB := fun s a => serialB s a && freshB s a)
    (fun _ _ h => by simp only [Bool.and_eq_true] at h; exact ⟨serialB_ok h.1, freshB_ok h.2⟩)
    [.addService (b! "/a") 1, .start false, .start true]
    (fun s => decide (s.trace.map brief = [[0, 1], [2, 1], [2, 1]]) && decide (phase 1 s.trace = .fault)) (by decide +kernel)

/-- Finding: a service handed over under the name of another one, whose resource was removed, gets requests but is never
    started, and is never destroyed. -/
theorem duplicate_never_started : ∃ s, Reach Orderly s ∧ s.services.map = [] ∧
    s.trace.map brief = [[0, 1], [0, 2], [2, 1], [4, 2, 0], [3, 1], [5, 1]] ∧ phase 2 s.trace = .fault := by
  simpa using reached (ok := Orderly) (okB := fun s a => serialB s a && freshB s a)
    (fun _ _ h => by simp only [Bool.and_eq_true] at h; exact ⟨serialB_ok h.1, freshB_ok h.2⟩)
    ([.addService (b! "/a") 1, .removeResource (b! "/a"), .addService (b! "/a") 2, .start true] ++ client (b! "/a") ++
      [.clear, .conn (.finish 0 true false), .conn (.accept 1 false), .conn (.fail 1), .stopLoop .clear, .clearServices,
       .clearResources])
    (fun s => decide (s.services.map = []) && (decide (s.trace.map brief = [[0, 1], [0, 2], [2, 1], [4, 2, 0], [3, 1], [5, 1]])
      && decide (phase 2 s.trace = .fault))) (by decide +kernel)

/-- Finding: a service handed over for "/a//" is told "/a/" but gets the requests for "/a". -/
theorem told_another_path : ∃ s s', Reach Orderly s ∧ s.step (.request 0 (get (b! "/a/x"))) = some s' ∧
    s'.trace.map brief = s.trace.map brief ++ [[4, 1, 0]] ∧ .told 1 (b! "/a/") ∈ s.trace ∧
    ¬ Covers (b! "/a/") (b! "/a/x") := by
  obtain ⟨s, hr, h⟩ := reached (ok := Orderly) (okB := fun s a => serialB s a && freshB s a)
    (fun _ _ h => by simp only [Bool.and_eq_true] at h; exact ⟨serialB_ok h.1, freshB_ok h.2⟩)
    [.addService (b! "/a//") 1, .start true, .startListen, .conn (.accept 0 true), .conn (.listen 0), .conn (.serve 0)]
    (fun s => (match s.trace with | .told 1 r :: _ => decide (r = b! "/a/") | _ => false) &&
      ((s.step (.request 0 (get (b! "/a/x")))).map fun s' => s'.trace.map brief) == some (s.trace.map brief ++ [[4, 1, 0]]))
    (by decide +kernel)
  simp only [Bool.and_eq_true, beq_iff_eq] at h
  obtain ⟨s', hs, h'⟩ := Option.map_eq_some_iff.1 h.2
  refine ⟨s, s', hr, hs, h', ?_, ?_⟩
  · have := h.1
    split at this
    · rename_i r l heq
      simp only [decide_eq_true_eq] at this
      rw [heq, this]; simp
    · cases this
  · rw [← Server.matchKey_iff]; decide

end Verif.Props.PluginServer
