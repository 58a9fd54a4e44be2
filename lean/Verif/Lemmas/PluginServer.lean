import Verif.Spec.PluginServer
import Verif.Lemmas.TcpServer
import Verif.Lemmas.PluginManager
import Verif.Lemmas.Dispatch
import Mathlib.Data.List.Nodup
import Mathlib.Tactic.Common
/-
Invariants of the plug-in server.
-/
namespace Verif.PluginServer
open Verif.Spec.PluginServer Verif.SMap
open Verif.Server (stripSlash Tables)

theorem Reach.mono {ok ok' : St → Act → Prop} (h : ∀ s a, ok s a → ok' s a) {s : St} (hr : Reach ok s) :
    Reach ok' s := by
  induction hr with
  | init => exact .init
  | step _ ho hs ih => exact .step ih (h _ _ ho) hs

/-! ### The TCP server -/

theorem stopLoop_spec {t t' : TcpServer.St} (h : t.step .stopLoop = some t') :
    t'.listening = t.listening ∧ t'.starting = t.starting ∧ 0 < t.stopping ∧
      (t'.stopping = t.stopping ∨ t'.stopping + 1 = t.stopping) := by
  unfold TcpServer.St.step at h
  simp only at h
  split at h
  · cases h
  · rename_i hd
    split at h <;> cases h
    · refine ⟨rfl, rfl, by omega, .inr ?_⟩
      show t.stopping - 1 + 1 = t.stopping
      omega
    · exact ⟨rfl, rfl, by omega, .inl rfl⟩

theorem listen_flags (t : TcpServer.St) :
    t.listen.listening = t.listening ∧ t.listen.stopping = t.stopping ∧ t.listen.starting = t.starting := by
  unfold TcpServer.St.listen
  split <;> simp [TcpServer.St.prune]

/-- Steps of connections change none of the flags. -/
theorem conn_flags {t t' : TcpServer.St} {a : TcpServer.Act} (h : t.step a = some t')
    (ha : a ≠ .start ∧ a ≠ .startListen ∧ a ≠ .stop ∧ a ≠ .stopLoop) :
    t'.listening = t.listening ∧ t'.stopping = t.stopping ∧ t'.starting = t.starting := by
  unfold TcpServer.St.step at h
  cases a with
  | start => exact absurd rfl ha.1
  | startListen => exact absurd rfl ha.2.1
  | stop => exact absurd rfl ha.2.2.1
  | stopLoop => exact absurd rfl ha.2.2.2
  | accept c ok => simp only at h; split at h <;> cases h; exact ⟨rfl, rfl, rfl⟩
  | listen c =>
    simp only at h
    split at h
    · split at h
      · cases h
      · cases h; exact listen_flags _
    · cases h
  | serve c => simp only at h; split at h <;> cases h; exact ⟨rfl, rfl, rfl⟩
  | fail c =>
    simp only at h; split at h <;> cases h
    simp [TcpServer.St.finish, TcpServer.St.remove]
  | finish c k n =>
    simp only at h; split at h <;> cases h
    unfold TcpServer.St.finish
    split <;> simp [TcpServer.St.remove]
  | drop c => simp only at h; split at h <;> cases h; exact ⟨rfl, rfl, rfl⟩

theorem startListen_flags {t t' : TcpServer.St} (h : t.step .startListen = some t') :
    t'.listening = t.listening ∧ t'.stopping = t.stopping ∧ t'.starting ≤ t.starting := by
  unfold TcpServer.St.step at h
  simp only at h
  split at h
  · cases h
  · cases h
    have := listen_flags t
    exact ⟨this.1, this.2.1, Nat.sub_le _ _⟩

theorem start_flags {t t' : TcpServer.St} (h : t.step .start = some t') (hl : t.listening = false) :
    t'.listening = true ∧ t'.stopping = t.stopping := by
  unfold TcpServer.St.step at h
  simp only [hl] at h
  split at h
  · cases h
  · cases h; exact ⟨rfl, rfl⟩

theorem stop_flags {t t' : TcpServer.St} (h : t.step .stop = some t') :
    t'.starting = t.starting ∧ t'.listening = false ∧
      ((t.listening = true ∧ t'.stopping = t.stopping + 1) ∨ (t.listening = false ∧ t'.stopping = t.stopping)) := by
  unfold TcpServer.St.step at h
  simp only at h
  split at h
  · cases h
  · split at h <;> rename_i hl
    · cases h; exact ⟨rfl, rfl, .inl ⟨hl, rfl⟩⟩
    · have hl : t.listening = false := by simpa using hl
      cases h; exact ⟨rfl, hl, .inr ⟨hl, rfl⟩⟩

/-- What holds when calls do not overlap. -/
structure Good (s : St) : Prop where
  tcp : Spec.TcpServer.Reach Spec.TcpServer.Serial s.tcp
  quiet : 0 < s.clearing + s.unbinding → s.tcp.listening = false ∧ s.tcp.starting = 0 ∧ s.tcp.stopping = 0
  wait : s.clearStop ≤ s.tcp.stopping
  base : s.unbindStop = 0

theorem Good.calm {s : St} (h : Good s) : TcpServer.Calm s.tcp := TcpServer.reach_calm h.tcp

/-- While a connection is open the server is up and nothing is being destroyed. -/
theorem Good.busy {s : St} (h : Good s) {c : Nat} (hc : Spec.TcpServer.Alive s.tcp c) :
    (s.tcp.listening = true ∨ 0 < s.tcp.stopping) ∧ s.clearing = 0 ∧ s.unbinding = 0 := by
  have hm := ((TcpServer.reach_inv h.tcp).mem c).2 hc
  have hup : s.tcp.listening = true ∨ 0 < s.tcp.stopping := by
    by_contra hn
    push Not at hn
    have := h.calm.idle (by simpa using hn.1) (by omega)
    rw [this] at hm
    cases hm
  refine ⟨hup, ?_⟩
  by_contra hn
  have := h.quiet (by omega)
  rcases hup with hup | hup
  · rw [this.1] at hup; cases hup
  · omega

theorem tcp_free (t : TcpServer.St) (a : TcpServer.Act) (ha : a ≠ .start ∧ a ≠ .stop) : Spec.TcpServer.Serial t a := by
  intro h
  rcases h with h | h
  · exact absurd h ha.1
  · exact absurd h ha.2

/-- The steps of connections, as far as the rest of the server is concerned. -/
theorem conn_spec {s s' : St} {a : TcpServer.Act} (h : s.conn a = some s') :
    (a ≠ .start ∧ a ≠ .startListen ∧ a ≠ .stop ∧ a ≠ .stopLoop) ∧
      ∃ t b, s.tcp.step a = some t ∧ s' = { s with tcp := t, busy := b } := by
  unfold St.conn at h
  cases a <;> simp only at h
  all_goals first
    | cases h
    | (obtain ⟨t, ht, rfl⟩ := Option.map_eq_some_iff.1 h
       exact ⟨by simp, t, _, ht, rfl⟩)

/-- A request leaves everything alone, or goes to a service that is bound to a path. -/
theorem request_spec {s s' : St} {c : Nat} {req : Msg} (h : s.request c req = some s') :
    s.tcp.status c = .serving ∧ (s' = s ∨ ∃ o q b r, s' = { s with busy := b, trace := s.trace ++ [.request o c q] } ∧
      Server.redirectLoop s.tables.redirects Server.MAX_REDIRECTS (stripSlash req.resource) req = some (r, q) ∧
      Server.findHandler s.tables.resources r = some (.service o)) := by
  unfold St.request at h
  split at h
  · rename_i hc
    refine ⟨hc.1, ?_⟩
    split at h
    · rename_i o q hcall
      cases h
      right
      have hm : Server.Call.handler (.service o) q ∈
          (Server.handleRequest (σ := Unit) (fun _ => .returns) none s.tables () .ok req).1 := by rw [hcall]; simp
      unfold Server.handleRequest at hm
      split at hm
      · simp at hm
      · split at hm
        · simp at hm
        · rename_i r q' hl
          simp only at hm
          obtain ⟨hf, rfl⟩ := Server.mem_dispatch_handler.1 hm
          exact ⟨o, q, _, r, rfl, hl, hf⟩
    · cases h; exact .inl rfl
  · cases h

theorem Good.step {s s' : St} {a : Act} (h : Good s) (ho : Serial s a) (hs : s.step a = some s') : Good s' := by
  cases a with
  | addService r o => cases hs; exact ⟨h.tcp, h.quiet, h.wait, h.base⟩
  | loadService r lib opens o =>
    simp only [St.step] at hs
    split at hs <;> cases hs
    · exact ⟨h.tcp, h.quiet, h.wait, h.base⟩
    · exact h
  | setOption r n v =>
    simp only [St.step] at hs
    split at hs <;> cases hs
    · exact ⟨h.tcp, h.quiet, h.wait, h.base⟩
    · exact h
  | addResource r n => cases hs; exact ⟨h.tcp, h.quiet, h.wait, h.base⟩
  | removeResource r => cases hs; exact ⟨h.tcp, h.quiet, h.wait, h.base⟩
  | addRedirect r t => cases hs; exact ⟨h.tcp, h.quiet, h.wait, h.base⟩
  | start binds =>
    obtain ⟨o1, o2, o3, o4⟩ := ho rfl
    simp only [St.step] at hs
    split at hs
    · cases hs
    · split at hs
      · cases hs; exact h
      · rename_i hl
        split at hs
        · obtain ⟨t, ht, rfl⟩ := Option.map_eq_some_iff.1 hs
          have := start_flags ht (by simpa using hl)
          refine ⟨.step h.tcp (fun _ => ⟨o1, o2⟩) ht, fun hq => ?_, ?_, h.base⟩
          · simp only at hq; omega
          · simp only [this.2]; exact h.wait
        · cases hs; exact ⟨h.tcp, h.quiet, h.wait, h.base⟩
  | startListen =>
    obtain ⟨t, ht, rfl⟩ := Option.map_eq_some_iff.1 hs
    obtain ⟨h1, h2, h3⟩ := startListen_flags ht
    refine ⟨.step h.tcp (tcp_free _ _ (by simp)) ht, fun hq => ?_, by simp only [h2]; exact h.wait, h.base⟩
    have := h.quiet hq
    simp only [h1, h2]
    exact ⟨this.1, by omega, this.2.2⟩
  | conn a =>
    obtain ⟨ha, t, b, ht, rfl⟩ := conn_spec hs
    obtain ⟨h1, h2, h3⟩ := conn_flags ht ha
    refine ⟨.step h.tcp (tcp_free _ _ ⟨ha.1, ha.2.2.1⟩) ht, fun hq => ?_, by simp only [h2]; exact h.wait, h.base⟩
    simp only [h1, h2, h3]
    exact h.quiet hq
  | request c req =>
    obtain ⟨_, rfl | ⟨o, q, b, r, rfl, _⟩⟩ := request_spec hs
    · exact h
    · exact ⟨h.tcp, h.quiet, h.wait, h.base⟩
  | stop =>
    obtain ⟨o1, o2, o3, o4⟩ := ho rfl
    obtain ⟨t, ht, rfl⟩ := Option.map_eq_some_iff.1 hs
    have := stop_flags ht
    refine ⟨.step h.tcp (fun _ => ⟨o1, o2⟩) ht, fun hq => ?_, ?_, h.base⟩
    · simp only at hq; omega
    · have := h.wait; simp only; omega
  | stopLoop who =>
    simp only [St.step, St.stopLoop] at hs
    split at hs
    · cases hs
    · rename_i t ht
      obtain ⟨h1, h2, h3, h4⟩ := stopLoop_spec ht
      have hr := Spec.TcpServer.Reach.step h.tcp (tcp_free _ _ (by simp)) ht
      have hcalm := h.calm
      have hl := hcalm.stop h3
      have hst : s.tcp.starting = 0 := by
        by_contra hne
        have := (hcalm.start (by omega)).2.1
        rw [hl] at this; cases this
      have hsg := hcalm.single
      have hb := h.base
      have hw := h.wait
      split at hs
      · rename_i hlt
        cases who with
        | stop =>
          simp only at hs
          split at hs <;> cases hs
          exact ⟨hr, fun hq => by simp only; exact ⟨h1.trans hl, h2.trans hst, by omega⟩, by simp only; omega, hb⟩
        | clear =>
          simp only at hs
          split at hs <;> cases hs
          exact ⟨hr, fun hq => by simp only; exact ⟨h1.trans hl, h2.trans hst, by omega⟩, by simp only; omega, hb⟩
        | unbind =>
          simp only at hs
          cases hs
      · cases hs
        refine ⟨hr, fun hq => ?_, by simp only; omega, hb⟩
        have := h.quiet hq
        omega
  | clear =>
    obtain ⟨o1, o2, o3, o4⟩ := ho rfl
    simp only [St.step] at hs
    split at hs
    · obtain ⟨t, ht, rfl⟩ := Option.map_eq_some_iff.1 hs
      rename_i hl
      have := stop_flags ht
      have hw := h.wait
      refine ⟨.step h.tcp (fun _ => ⟨o1, o2⟩) ht, fun hq => ?_, ?_, h.base⟩
      · simp only at hq; omega
      · simp only
        rcases this.2.2 with h' | h'
        · omega
        · rw [hl] at h'; cases h'.1
    · rename_i hl
      cases hs
      exact ⟨h.tcp, fun _ => ⟨by simpa using hl, o1, o2⟩, h.wait, h.base⟩
  | clearServices =>
    simp only [St.step] at hs
    split at hs
    · cases hs
    · cases hs
      exact ⟨h.tcp, fun _ => h.quiet (by omega), h.wait, h.base⟩
  | clearResources =>
    simp only [St.step] at hs
    split at hs
    · cases hs
    · rename_i hu
      have := h.quiet (by omega)
      rw [this.1] at hs
      cases hs
      exact ⟨h.tcp, fun _ => h.quiet (by omega), h.wait, h.base⟩

theorem reach_good {s : St} (hr : Reach Serial s) : Good s := by
  induction hr with
  | init => exact ⟨.init, by simp, by simp, rfl⟩
  | step _ ho hs ih => exact ih.step ho hs

/-! ### Objects -/

theorem mem_insert {V : Type} {m : SMap V} (hm : Sorted m) {k : Bytes} {v : V} {e : Bytes × V} (h : e ∈ m.insert k v) :
    (e = (k, v) ∧ m.lookup k = none) ∨ e ∈ m := by
  cases hl : m.lookup k with
  | none =>
    rcases List.mem_cons.1 ((perm_insert hl).mem_iff.1 h) with h | h
    · exact .inl ⟨h, rfl⟩
    · exact .inr h
  | some w => rw [insert_present hm hl] at h; exact .inr h

/-- Nothing happens to a service after it was destroyed. -/
def Silent (trace : List Ev) : Prop :=
  ∀ pre o how post, trace = pre ++ .destroyed o how :: post → ∀ e ∈ post, subject e ≠ o

theorem silent_append {t l : List Ev} (ht : Silent t) (hl : Silent l)
    (h : ∀ e ∈ l, ∀ how, .destroyed (subject e) how ∉ t) : Silent (t ++ l) := by
  intro pre o how post heq e he hsub
  rcases List.append_eq_append_iff.1 heq with ⟨as, h1, h2⟩ | ⟨bs, h1, h2⟩
  · exact hl as o how post h2 e he hsub
  · cases bs with
    | nil =>
      simp only [List.nil_append] at h2
      exact hl [] o how post (by simpa using h2.symm) e he hsub
    | cons b bs =>
      simp only [List.cons_append, List.cons.injEq] at h2
      obtain ⟨rfl, rfl⟩ := h2
      rcases List.mem_append.1 he with he | he
      · exact ht pre o how bs h1 e he hsub
      · refine h e he how ?_
        rw [h1, hsub]
        simp

theorem silent_live {l : List Ev} (h : ∀ o how, .destroyed o how ∉ l) : Silent l := by
  intro pre o how post heq
  exact absurd (by rw [heq]; simp) (h o how)

theorem silent_nodup {l : List Ev} (h : (l.map subject).Nodup) : Silent l := by
  intro pre o how post heq e he hsub
  rw [heq, List.map_append, List.map_cons, List.nodup_append] at h
  have := (List.nodup_cons.1 h.2.1).1
  exact this (List.mem_map.2 ⟨e, he, hsub⟩)

/-- What is known about the objects when calls do not overlap and no object is handed over twice. -/
structure Objs (s : St) : Prop where
  sorted : Sorted s.services.map
  sorted' : Sorted s.tables.resources
  nodup : s.objs.Nodup
  told : ∀ o ∈ s.objs, ∃ r, .told o r ∈ s.trace
  bound : ∀ k o, (k, .service o) ∈ s.tables.resources → ∃ r, .told o r ∈ s.trace
  dead : ∀ o how, .destroyed o how ∈ s.trace →
    o ∉ s.objs ∧ (s.unbinding = 0 → ∀ k, (k, .service o) ∉ s.tables.resources) ∧ ∃ r, .told o r ∈ s.trace
  silent : Silent s.trace

/-- Steps that leave the objects alone. -/
theorem Objs.same {s s' : St} (h : Objs s) (h1 : s'.services = s.services) (h2 : s'.tables = s.tables)
    (h3 : s'.trace = s.trace) (h4 : s'.unbinding = s.unbinding) : Objs s' := by
  obtain ⟨a, b, c, d, e, f, g⟩ := h
  have ho : s'.objs = s.objs := by unfold St.objs; rw [h1]
  refine ⟨h1 ▸ a, h2 ▸ b, ho ▸ c, ?_, ?_, ?_, h3 ▸ g⟩
  · rw [ho, h3]; exact d
  · rw [h2, h3]; exact e
  · rw [h2, h3, h4, ho]; exact f

/-- Steps that call services which are not destroyed. -/
theorem Objs.calls {s s' : St} (h : Objs s) (l : List Ev) (h1 : s'.services = s.services) (h2 : s'.tables = s.tables)
    (h3 : s'.trace = s.trace ++ l) (h4 : s'.unbinding = s.unbinding) (hl : ∀ o how, .destroyed o how ∉ l)
    (hd : ∀ e ∈ l, ∀ how, .destroyed (subject e) how ∉ s.trace) : Objs s' := by
  obtain ⟨a, b, c, d, e, f, g⟩ := h
  have ho : s'.objs = s.objs := by unfold St.objs; rw [h1]
  have hmem : ∀ x, x ∈ s.trace → x ∈ s'.trace := fun x hx => by rw [h3]; simp [hx]
  refine ⟨h1 ▸ a, h2 ▸ b, ho ▸ c, ?_, ?_, ?_, ?_⟩
  · intro o hoo; obtain ⟨r, hr⟩ := d o (ho ▸ hoo); exact ⟨r, hmem _ hr⟩
  · intro k o hk; obtain ⟨r, hr⟩ := e k o (h2 ▸ hk); exact ⟨r, hmem _ hr⟩
  · intro o how hm
    rw [h3] at hm
    rcases List.mem_append.1 hm with hm | hm
    · obtain ⟨f1, f2, r, f3⟩ := f o how hm
      refine ⟨ho ▸ f1, ?_, r, hmem _ f3⟩
      rw [h4, h2]; exact f2
    · exact absurd hm (hl o how)
  · rw [h3]; exact silent_append g (silent_live hl) hd

/-- Steps of the resource table that bind no service. -/
theorem Objs.table {s s' : St} (h : Objs s) (h1 : s'.services = s.services)
    (hs : Sorted s'.tables.resources)
    (h2 : ∀ k o, (k, .service o) ∈ s'.tables.resources → (k, .service o) ∈ s.tables.resources)
    (h3 : s'.trace = s.trace) (h4 : s'.unbinding = s.unbinding ∨ s'.tables.resources = []) : Objs s' := by
  obtain ⟨a, b, c, d, e, f, g⟩ := h
  have ho : s'.objs = s.objs := by unfold St.objs; rw [h1]
  refine ⟨h1 ▸ a, hs, ho ▸ c, ?_, ?_, ?_, h3 ▸ g⟩
  · rw [ho, h3]; exact d
  · rw [h3]; exact fun k o hk => e k o (h2 k o hk)
  · rw [h3, ho]
    intro o how hm
    obtain ⟨f1, f2, f3⟩ := f o how hm
    refine ⟨f1, fun hu k hk => ?_, f3⟩
    rcases h4 with h4 | h4
    · exact f2 (h4 ▸ hu) k (h2 k o hk)
    · rw [h4] at hk; cases hk

theorem Objs.live {s : St} (h : Objs s) {o : Nat} (ho : o ∈ s.objs) : ∀ how, .destroyed o how ∉ s.trace :=
  fun how hm => (h.dead o how hm).1 ho

/-- A new object is handed over. -/
theorem Objs.hand {s s' : St} (h : Objs s) {r : Bytes} {o : Nat} {e : Plugins.Entry} (heo : e.obj = o) {k : Bytes}
    (hf : ∀ r, .told o r ∉ s.trace)
    (h1 : s'.services.map = s.services.map.insert k e)
    (h2 : s'.tables = Server.step s.tables (.addResource r (.service o)))
    (h3 : s'.trace = s.trace ++ [.told o k]) (h4 : s'.unbinding = s.unbinding) : Objs s' := by
  obtain ⟨a, b, c, d, e', f, g⟩ := h
  have hmem : ∀ x, x ∈ s.trace → x ∈ s'.trace := fun x hx => by rw [h3]; simp [hx]
  have hnew : o ∉ s.objs := fun hm => by obtain ⟨r, hr⟩ := d o hm; exact hf r hr
  have htold : .told o k ∈ s'.trace := by rw [h3]; simp
  have hobj : ∀ x ∈ s'.objs, x = o ∨ x ∈ s.objs := by
    intro x hx
    unfold St.objs at hx
    rw [h1] at hx
    obtain ⟨en, hen, rfl⟩ := List.mem_map.1 hx
    rcases mem_insert a hen with ⟨rfl, _⟩ | hen
    · exact .inl heo
    · exact .inr (List.mem_map.2 ⟨en, hen, rfl⟩)
  have hbound : ∀ k' x, (k', .service x) ∈ s'.tables.resources → x = o ∨ (k', .service x) ∈ s.tables.resources := by
    intro k' x hx
    rw [h2] at hx
    simp only [Server.step] at hx
    rcases mem_insert b hx with ⟨hx, _⟩ | hx
    · cases hx; exact .inl rfl
    · exact .inr hx
  refine ⟨h1 ▸ sorted_insert a _ _, ?_, ?_, ?_, ?_, ?_, ?_⟩
  · rw [h2]; exact sorted_insert b _ _
  · unfold St.objs
    rw [h1]
    cases hl : s.services.map.lookup k with
    | some w => rw [insert_present a hl]; exact c
    | none =>
      rw [((perm_insert hl).map _).nodup_iff, List.map_cons, List.nodup_cons]
      simp only [heo]
      exact ⟨hnew, c⟩
  · intro x hx
    rcases hobj x hx with rfl | hx
    · exact ⟨_, htold⟩
    · obtain ⟨r, hr⟩ := d x hx; exact ⟨r, hmem _ hr⟩
  · intro k' x hx
    rcases hbound k' x hx with rfl | hx
    · exact ⟨_, htold⟩
    · obtain ⟨r, hr⟩ := e' k' x hx; exact ⟨r, hmem _ hr⟩
  · intro x how hm
    rw [h3] at hm
    rcases List.mem_append.1 hm with hm | hm
    · obtain ⟨f1, f2, r', f3⟩ := f x how hm
      have hne : x ≠ o := by rintro rfl; exact hf _ f3
      refine ⟨fun hx => ?_, fun hu k' hk => ?_, r', hmem _ f3⟩
      · rcases hobj x hx with hx | hx
        · exact hne hx
        · exact f1 hx
      · rcases hbound k' x hk with hk | hk
        · exact hne hk
        · exact f2 (h4 ▸ hu) k' hk
    · simp at hm
  · rw [h3]
    refine silent_append g (silent_live (by simp)) ?_
    intro e he how hm
    rw [List.mem_singleton.1 he] at hm
    obtain ⟨r, hr⟩ := (f _ how hm).2.2
    exact hf r hr

/-- The handler found is in the table. -/
theorem found_bound {s : St} (h : Sorted s.tables.resources) {r : Bytes} {hd : Handler}
    (hf : Server.findHandler s.tables.resources r = some hd) :
    ∃ k, (k, hd) ∈ s.tables.resources ∧ Spec.Paths.Covers k r := by
  rw [Server.findHandler_eq] at hf
  obtain ⟨e, he, rfl⟩ := Option.map_eq_some_iff.1 hf
  obtain ⟨h1, h2, _⟩ := Server.walkBack_some h he
  exact ⟨e.1, h1, h2⟩

theorem get_mem {s : St} (h : Sorted s.services.map) {k : Bytes} {o : Nat} (hg : Plugins.get s.services k = some o) :
    o ∈ s.objs := by
  unfold Plugins.get at hg
  obtain ⟨e, he, rfl⟩ := Option.map_eq_some_iff.1 hg
  exact List.mem_map.2 ⟨_, (lookup_eq_some h).1 he, rfl⟩

theorem load_spec {m m' : Plugins.Mgr} {k lib : Bytes} {opens : Bool} {o : Nat}
    (h : Plugins.step m (.load k lib opens o) = (.ok, m')) :
    m.map.lookup k = none ∧ m'.map = m.map.insert k { obj := o, lib := some lib } := by
  simp only [Plugins.step] at h
  cases hl : m.map.lookup k with
  | some w => rw [hl] at h; cases h
  | none =>
    rw [hl] at h
    simp only at h
    split at h
    · cases h; exact ⟨rfl, rfl⟩
    · cases h

theorem Objs.step {s s' : St} {a : Act} (hg : Good s) (h : Objs s) (hf : Fresh s a) (hs : s.step a = some s') :
    Objs s' := by
  have mapEv : ∀ f : Nat → Ev, (∀ o, subject (f o) = o) → ∀ e ∈ s.objs.map f, ∀ how, .destroyed (subject e) how ∉ s.trace := by
    intro f hfs e he
    obtain ⟨o, ho, rfl⟩ := List.mem_map.1 he
    rw [hfs]
    exact h.live ho
  cases a with
  | addService r o =>
    cases hs
    exact h.hand (e := { obj := o }) rfl (fun r => hf o r rfl) rfl rfl rfl rfl
  | loadService r lib opens o =>
    simp only [St.step] at hs
    split at hs
    · rename_i m hm
      cases hs
      exact h.hand (e := { obj := o, lib := some lib }) rfl (fun r => hf o r rfl) (load_spec hm).2 rfl rfl rfl
    · cases hs; exact h
  | setOption r n v =>
    simp only [St.step] at hs
    split at hs
    · rename_i o ho
      cases hs
      refine h.calls [.option o n v] rfl rfl rfl rfl (by simp) ?_
      intro e he
      rw [List.mem_singleton.1 he]
      exact h.live (get_mem h.sorted ho)
    · cases hs; exact h
  | addResource r n =>
    cases hs
    refine h.table rfl (sorted_insert h.sorted' _ _) ?_ rfl (.inl rfl)
    intro k o hk
    simp only [Server.step] at hk
    rcases mem_insert h.sorted' hk with ⟨hk, _⟩ | hk
    · cases hk
    · exact hk
  | removeResource r =>
    cases hs
    exact h.table rfl (sorted_erase h.sorted' _) (fun k o hk => (List.mem_filter.1 hk).1) rfl (.inl rfl)
  | addRedirect r t => cases hs; exact h.table rfl h.sorted' (fun k o hk => hk) rfl (.inl rfl)
  | start binds =>
    simp only [St.step] at hs
    split at hs
    · cases hs
    · split at hs
      · cases hs; exact h
      · have hl : ∀ o how, .destroyed o how ∉ s.objs.map Ev.start := by simp
        split at hs
        · obtain ⟨t, ht, rfl⟩ := Option.map_eq_some_iff.1 hs
          exact h.calls (s.objs.map .start) rfl rfl rfl rfl hl (mapEv _ (fun _ => rfl))
        · cases hs
          exact h.calls (s.objs.map .start) rfl rfl rfl rfl hl (mapEv _ (fun _ => rfl))
  | startListen =>
    obtain ⟨t, ht, rfl⟩ := Option.map_eq_some_iff.1 hs
    exact h.same rfl rfl rfl rfl
  | conn a =>
    obtain ⟨_, t, b, _, rfl⟩ := conn_spec hs
    exact h.same rfl rfl rfl rfl
  | request c req =>
    obtain ⟨hc, rfl | ⟨o, q, b, r, rfl, _, hfound⟩⟩ := request_spec hs
    · exact h
    · refine h.calls [.request o c q] rfl rfl rfl rfl (by simp) ?_
      intro e he how hm
      rw [List.mem_singleton.1 he] at hm
      obtain ⟨k, hk, _⟩ := found_bound h.sorted' hfound
      exact (h.dead _ how hm).2.1 (hg.busy (c := c) (by simp [Spec.TcpServer.Alive, hc])).2.2 k hk
  | stop =>
    obtain ⟨t, ht, rfl⟩ := Option.map_eq_some_iff.1 hs
    exact h.same rfl rfl rfl rfl
  | stopLoop who =>
    simp only [St.step, St.stopLoop] at hs
    have hl : ∀ o how, .destroyed o how ∉ s.objs.map Ev.stop := by simp
    split at hs
    · cases hs
    · split at hs
      · cases who with
        | stop =>
          simp only at hs
          split at hs <;> cases hs
          exact h.calls (s.objs.map .stop) rfl rfl rfl rfl hl (mapEv _ (fun _ => rfl))
        | clear =>
          simp only at hs
          split at hs <;> cases hs
          exact h.calls (s.objs.map .stop) rfl rfl rfl rfl hl (mapEv _ (fun _ => rfl))
        | unbind =>
          have := hg.base
          simp only [this] at hs
          cases hs
      · cases hs; exact h.same rfl rfl rfl rfl
  | clear =>
    simp only [St.step] at hs
    split at hs
    · obtain ⟨t, ht, rfl⟩ := Option.map_eq_some_iff.1 hs
      exact h.same rfl rfl rfl rfl
    · cases hs; exact h.same rfl rfl rfl rfl
  | clearServices =>
    simp only [St.step] at hs
    split at hs
    · cases hs
    · cases hs
      have hsub : (s.services.map.map fun e => Ev.destroyed e.2.destroy.1 e.2.destroy.2).map subject = s.objs := by
        unfold St.objs
        rw [List.map_map]
        rfl
      have hin : ∀ e ∈ (s.services.map.map fun e => Ev.destroyed e.2.destroy.1 e.2.destroy.2), subject e ∈ s.objs := by
        intro e he
        rw [← hsub]
        exact List.mem_map.2 ⟨e, he, rfl⟩
      refine ⟨sorted_nil, h.sorted', List.nodup_nil, by simp [St.objs, Plugins.step], ?_, ?_, ?_⟩
      · intro k o hk
        obtain ⟨r, hr⟩ := h.bound k o hk
        exact ⟨r, by simp [hr]⟩
      · intro o how hm
        refine ⟨by simp [St.objs, Plugins.step], by simp, ?_⟩
        rcases List.mem_append.1 hm with hm | hm
        · obtain ⟨r, hr⟩ := (h.dead o how hm).2.2
          exact ⟨r, by simp [hr]⟩
        · obtain ⟨r, hr⟩ := h.told o (hin _ hm)
          exact ⟨r, by simp [hr]⟩
      · refine silent_append h.silent (silent_nodup (hsub ▸ h.nodup)) ?_
        intro e he how
        exact h.live (hin e he) how
  | clearResources =>
    simp only [St.step] at hs
    split at hs
    · cases hs
    · rename_i hu
      rw [(hg.quiet (by omega)).1] at hs
      cases hs
      refine h.table rfl sorted_nil ?_ rfl (.inr rfl)
      intro k o hk
      cases hk

theorem reach_objs {s : St} (hr : Reach Orderly s) : Objs s := by
  induction hr with
  | init => exact ⟨sorted_nil, sorted_nil, List.nodup_nil, by simp [St.objs], by simp, by simp, silent_live (by simp)⟩
  | step hr ho hs ih => exact ih.step (reach_good (Reach.mono (fun _ _ h => h.1) hr)) ho.2 hs

/-! ### The life of services -/

/-- The server is listening, or a call of `stop` has not finished. -/
def St.up (s : St) : Bool := s.tcp.listening || decide (0 < s.tcp.stopping)

theorem phase_append (o : Nat) (t l : List Ev) :
    phase o (t ++ l) = l.foldl (fun p e => if subject e = o then p.next e else p) (phase o t) := List.foldl_append

theorem fold_absent {o : Nat} {l : List Ev} (h : ∀ e ∈ l, subject e ≠ o) (p : Phase) :
    l.foldl (fun p e => if subject e = o then p.next e else p) p = p := by
  induction l generalizing p with
  | nil => rfl
  | cons e l ih =>
    rw [List.foldl_cons, if_neg (h e (by simp))]
    exact ih (fun e he => h e (by simp [he])) p

theorem fold_once {o : Nat} {l : List Ev} (h : (l.map subject).Nodup) {e : Ev} (he : e ∈ l) (hs : subject e = o)
    (p : Phase) : l.foldl (fun p e => if subject e = o then p.next e else p) p = p.next e := by
  obtain ⟨l1, l2, rfl⟩ := List.append_of_mem he
  rw [List.map_append, List.map_cons, List.nodup_append] at h
  have h1 : ∀ x ∈ l1, subject x ≠ o := fun x hx hxo =>
    h.2.2 (subject x) (List.mem_map.2 ⟨x, hx, rfl⟩) (subject e) (by simp) (hxo.trans hs.symm)
  have h2 : ∀ x ∈ l2, subject x ≠ o := fun x hx hxo =>
    (List.nodup_cons.1 h.2.1).1 (List.mem_map.2 ⟨x, hx, hxo.trans hs.symm⟩)
  rw [List.foldl_append, fold_absent h1, List.foldl_cons, if_pos hs, fold_absent h2]

structure Life (s : St) : Prop where
  managed : ∀ o ∈ s.objs, phase o s.trace = if s.up then .running else .idle
  rest : ∀ o, o ∉ s.objs → phase o s.trace = .new ∨ (phase o s.trace = .gone ∧ ∃ r, .told o r ∈ s.trace)
  bound : s.unbinding = 0 → ∀ k o, (k, .service o) ∈ s.tables.resources → o ∈ s.objs

theorem Life.same {s s' : St} (h : Life s) (h1 : s'.services = s.services)
    (h2 : s'.unbinding = 0 → ∀ k o, (k, .service o) ∈ s'.tables.resources →
      s.unbinding = 0 ∧ (k, .service o) ∈ s.tables.resources)
    (h3 : s'.trace = s.trace) (h4 : s'.up = s.up) : Life s' := by
  have ho : s'.objs = s.objs := by unfold St.objs; rw [h1]
  refine ⟨?_, ?_, ?_⟩
  · rw [ho, h3, h4]; exact h.managed
  · rw [ho, h3]; exact h.rest
  · rw [ho]; intro hu k o hk; exact h.bound (h2 hu k o hk).1 k o (h2 hu k o hk).2

/-- All services get one call. -/
theorem Life.all {s s' : St} (hob : Objs s) (h : Life s) (l : List Ev) (hsub : l.map subject = s.objs)
    (h1 : s'.services = s.services)
    (h2 : s'.unbinding = s.unbinding ∧ s'.tables = s.tables)
    (h3 : s'.trace = s.trace ++ l)
    (h4 : ∀ e ∈ l, (if s.up then Phase.running else .idle).next e = if s'.up then .running else .idle) : Life s' := by
  have ho : s'.objs = s.objs := by unfold St.objs; rw [h1]
  refine ⟨?_, ?_, ?_⟩
  · rw [ho, h3]
    intro o hoo
    rw [phase_append, h.managed o hoo]
    have hin : o ∈ l.map subject := by rw [hsub]; exact hoo
    obtain ⟨e, he, hes⟩ := List.mem_map.1 hin
    rw [fold_once (by rw [hsub]; exact hob.nodup) he hes, h4 e he]
  · rw [ho, h3]
    intro o hoo
    rw [phase_append, fold_absent]
    · rcases h.rest o hoo with h' | ⟨h', r, hr⟩
      · exact .inl h'
      · exact .inr ⟨h', r, by simp [hr]⟩
    · intro e he hes
      exact hoo (by rw [← hsub]; exact List.mem_map.2 ⟨e, he, hes⟩)
  · rw [ho, h2.1, h2.2]; exact h.bound

/-- One service gets a call. -/
theorem Life.one {s s' : St} (h : Life s) {o : Nat} (hoo : o ∈ s.objs) (e : Ev) (hsub : subject e = o)
    (h1 : s'.services = s.services)
    (h2 : s'.unbinding = s.unbinding ∧ s'.tables = s.tables)
    (h3 : s'.trace = s.trace ++ [e]) (h5 : s'.up = s.up)
    (h4 : (if s.up then Phase.running else .idle).next e = if s.up then .running else .idle) : Life s' := by
  have ho : s'.objs = s.objs := by unfold St.objs; rw [h1]
  have hp : ∀ x, phase x s'.trace = if o = x then (phase x s.trace).next e else phase x s.trace := by
    intro x; rw [h3, phase_append, List.foldl_cons, List.foldl_nil, hsub]
  refine ⟨?_, ?_, ?_⟩
  · rw [ho, h5]
    intro x hx
    rw [hp, h.managed x hx]
    split
    · exact h4
    · rfl
  · rw [ho]
    intro x hx
    rw [hp, if_neg (fun heq : o = x => hx (heq ▸ hoo))]
    rcases h.rest x hx with h' | ⟨h', r, hr⟩
    · exact .inl h'
    · exact .inr ⟨h', r, by rw [h3]; simp [hr]⟩
  · rw [ho, h2.1, h2.2]; exact h.bound

/-- A new object is handed over. -/
theorem Life.hand {s s' : St} (hob : Objs s) (h : Life s) {r : Bytes} {o : Nat} {e : Plugins.Entry} (heo : e.obj = o)
    {k : Bytes} (hf : ∀ r, .told o r ∉ s.trace) (hl : s.services.map.lookup k = none) (hup : s.up = false)
    (h1 : s'.services.map = s.services.map.insert k e)
    (h2 : s'.tables = Server.step s.tables (.addResource r (.service o)))
    (h3 : s'.trace = s.trace ++ [.told o k]) (h4 : s'.unbinding = s.unbinding) (h5 : s'.tcp = s.tcp) : Life s' := by
  have hobj : ∀ x, x ∈ s'.objs ↔ x = o ∨ x ∈ s.objs := by
    intro x
    unfold St.objs
    rw [h1, ((perm_insert hl).map _).mem_iff, List.map_cons, List.mem_cons]
    simp only [heo]
  have hnew : o ∉ s.objs := fun hm => by obtain ⟨r, hr⟩ := hob.told o hm; exact hf r hr
  have hup' : s'.up = false := by unfold St.up at hup ⊢; rw [h5]; exact hup
  have hp : ∀ x, phase x s'.trace = if o = x then (phase x s.trace).next (.told o k) else phase x s.trace := by
    intro x; rw [h3, phase_append, List.foldl_cons, List.foldl_nil]; rfl
  have hpo : phase o s.trace = .new := by
    rcases h.rest o hnew with h' | ⟨_, r, hr⟩
    · exact h'
    · exact absurd hr (hf r)
  refine ⟨?_, ?_, ?_⟩
  · intro x hx
    rw [hp, hup']
    rcases (hobj x).1 hx with rfl | hx
    · rw [if_pos rfl, hpo]; rfl
    · rw [if_neg (fun heq : o = x => hnew (heq ▸ hx)), h.managed x hx, hup]
  · intro x hx
    rw [hobj] at hx
    push Not at hx
    rw [hp, if_neg (fun heq => hx.1 heq.symm)]
    rcases h.rest x hx.2 with h' | ⟨h', r, hr⟩
    · exact .inl h'
    · exact .inr ⟨h', r, by rw [h3]; simp [hr]⟩
  · intro hu k' x hx
    rw [hobj]
    rw [h2] at hx
    simp only [Server.step] at hx
    rcases mem_insert hob.sorted' hx with ⟨hx, _⟩ | hx
    · cases hx; exact .inl rfl
    · exact .inr (h.bound (h4 ▸ hu) k' x hx)

theorem Life.step {s s' : St} {a : Act} (hg : Good s) (hob : Objs s) (h : Life s) (ho : Prepared s a)
    (hs : s.step a = some s') : Life s' := by
  have hser := ho.orderly.1
  have hf := ho.orderly.2
  cases a with
  | addService r o =>
    obtain ⟨o1, o2, o3, o4⟩ := hser rfl
    have hl := ho.unused r o rfl
    have hup : s.up = false := by simp [St.up, ho.stopped o rfl, o2]
    cases hs
    exact h.hand hob (e := { obj := o }) rfl (fun r => hf o r rfl) (by simpa [Plugins.get] using hl) hup rfl rfl rfl rfl rfl
  | loadService r lib opens o =>
    obtain ⟨o1, o2, o3, o4⟩ := hser rfl
    have hup : s.up = false := by simp [St.up, ho.stopped o rfl, o2]
    simp only [St.step] at hs
    split at hs
    · rename_i m hm
      cases hs
      exact h.hand hob (e := { obj := o, lib := some lib }) rfl (fun r => hf o r rfl) (load_spec hm).1 hup
        (load_spec hm).2 rfl rfl rfl rfl
    · cases hs; exact h
  | setOption r n v =>
    simp only [St.step] at hs
    split at hs
    · rename_i o hoo
      cases hs
      refine h.one (get_mem hob.sorted hoo) (.option o n v) rfl rfl ⟨rfl, rfl⟩ rfl rfl ?_
      cases s.up <;> rfl
    · cases hs; exact h
  | addResource r n =>
    cases hs
    refine h.same rfl ?_ rfl rfl
    intro hu k o hk
    refine ⟨hu, ?_⟩
    simp only [Server.step] at hk
    rcases mem_insert hob.sorted' hk with ⟨hk, _⟩ | hk
    · cases hk
    · exact hk
  | removeResource r =>
    cases hs
    exact h.same rfl (fun hu k o hk => ⟨hu, (List.mem_filter.1 hk).1⟩) rfl rfl
  | addRedirect r t => cases hs; exact h.same rfl (fun hu k o hk => ⟨hu, hk⟩) rfl rfl
  | start binds =>
    have := ho.binds binds rfl
    subst this
    obtain ⟨o1, o2, o3, o4⟩ := hser rfl
    simp only [St.step] at hs
    split at hs
    · cases hs
    · split at hs
      · cases hs; exact h
      · rename_i hl
        have hl : s.tcp.listening = false := by simpa using hl
        obtain ⟨t, ht, rfl⟩ := Option.map_eq_some_iff.1 (by simpa using hs)
        have hfl := start_flags ht hl
        refine h.all hob (s.objs.map .start) (by simp [List.map_map, Function.comp_def, subject]) rfl ⟨rfl, rfl⟩ rfl ?_
        intro e he
        obtain ⟨o, _, rfl⟩ := List.mem_map.1 he
        simp [St.up, hl, o2, hfl.1, Phase.next]
  | startListen =>
    obtain ⟨t, ht, rfl⟩ := Option.map_eq_some_iff.1 hs
    obtain ⟨h1, h2, _⟩ := startListen_flags ht
    exact h.same rfl (fun hu k o hk => ⟨hu, hk⟩) rfl (by simp [St.up, h1, h2])
  | conn a =>
    obtain ⟨ha, t, b, ht, rfl⟩ := conn_spec hs
    obtain ⟨h1, h2, _⟩ := conn_flags ht ha
    exact h.same rfl (fun hu k o hk => ⟨hu, hk⟩) rfl (by simp [St.up, h1, h2])
  | request c req =>
    obtain ⟨hc, rfl | ⟨o, q, b, r, rfl, _, hfound⟩⟩ := request_spec hs
    · exact h
    · obtain ⟨k, hk, _⟩ := found_bound hob.sorted' hfound
      have hb := hg.busy (c := c) (by simp [Spec.TcpServer.Alive, hc])
      refine h.one (h.bound hb.2.2 k o hk) (.request o c q) rfl rfl ⟨rfl, rfl⟩ rfl rfl ?_
      have : s.up = true := by unfold St.up; simpa using hb.1
      rw [this]; rfl
  | stop =>
    obtain ⟨o1, o2, o3, o4⟩ := hser rfl
    obtain ⟨t, ht, rfl⟩ := Option.map_eq_some_iff.1 hs
    obtain ⟨_, h1, h2⟩ := stop_flags ht
    refine h.same rfl (fun hu k o hk => ⟨hu, hk⟩) rfl ?_
    rcases h2 with h2 | h2 <;> simp [St.up, h1, h2]
  | stopLoop who =>
    simp only [St.step, St.stopLoop] at hs
    split at hs
    · cases hs
    · rename_i t ht
      obtain ⟨h1, h2, h3, h4⟩ := stopLoop_spec ht
      have hl := hg.calm.stop h3
      have hsg := hg.calm.single
      have hsub : (s.objs.map Ev.stop).map subject = s.objs := by simp [List.map_map, Function.comp_def, subject]
      split at hs
      · rename_i hlt
        have h0 : t.stopping = 0 := by omega
        have hl' : t.listening = false := h1.trans hl
        have key : ∀ e ∈ s.objs.map Ev.stop, (if s.up then Phase.running else .idle).next e = .idle := by
          intro e he
          obtain ⟨o, _, rfl⟩ := List.mem_map.1 he
          have : s.up = true := by simp [St.up, h3]
          rw [this]; rfl
        cases who with
        | stop =>
          simp only at hs
          split at hs <;> cases hs
          refine h.all hob _ hsub rfl ⟨rfl, rfl⟩ rfl fun e he => ?_
          rw [key e he]; simp [St.up, hl', h0]
        | clear =>
          simp only at hs
          split at hs <;> cases hs
          refine h.all hob _ hsub rfl ⟨rfl, rfl⟩ rfl fun e he => ?_
          rw [key e he]; simp [St.up, hl', h0]
        | unbind =>
          have := hg.base
          simp only [this] at hs
          cases hs
      · rename_i hlt
        cases hs
        have h0 : t.stopping = s.tcp.stopping := by omega
        exact h.same rfl (fun hu k o hk => ⟨hu, hk⟩) rfl (by simp [St.up, h1, h0])
  | clear =>
    simp only [St.step] at hs
    split at hs
    · obtain ⟨t, ht, rfl⟩ := Option.map_eq_some_iff.1 hs
      obtain ⟨_, h1, h2⟩ := stop_flags ht
      refine h.same rfl (fun hu k o hk => ⟨hu, hk⟩) rfl ?_
      rcases h2 with h2 | h2 <;> simp [St.up, h1, h2]
    · cases hs; exact h.same rfl (fun hu k o hk => ⟨hu, hk⟩) rfl rfl
  | clearServices =>
    simp only [St.step] at hs
    split at hs
    · cases hs
    · rename_i hcl
      cases hs
      have hq := hg.quiet (by omega)
      have hup : s.up = false := by simp [St.up, hq.1, hq.2.2]
      have hsub : (s.services.map.map fun e => Ev.destroyed e.2.destroy.1 e.2.destroy.2).map subject = s.objs := by
        unfold St.objs
        rw [List.map_map]
        rfl
      refine ⟨by simp [St.objs, Plugins.step], ?_, by simp⟩
      intro o _
      rw [phase_append]
      by_cases hoo : o ∈ s.objs
      · right
        have hin := hoo
        rw [← hsub] at hin
        obtain ⟨e, he, hes⟩ := List.mem_map.1 hin
        rw [fold_once (by rw [hsub]; exact hob.nodup) he hes, h.managed o hoo, hup]
        obtain ⟨en, _, rfl⟩ := List.mem_map.1 he
        obtain ⟨r, hr⟩ := hob.told o hoo
        exact ⟨rfl, r, by simp [hr]⟩
      · rw [fold_absent]
        · rcases h.rest o hoo with h' | ⟨h', r, hr⟩
          · exact .inl h'
          · exact .inr ⟨h', r, by simp [hr]⟩
        · intro e he hes
          exact hoo (by rw [← hsub]; exact List.mem_map.2 ⟨e, he, hes⟩)
  | clearResources =>
    simp only [St.step] at hs
    split at hs
    · cases hs
    · rename_i hu
      rw [(hg.quiet (by omega)).1] at hs
      cases hs
      refine h.same rfl ?_ rfl rfl
      intro _ k o hk
      cases hk

theorem reach_life {s : St} (hr : Reach Prepared s) : Life s := by
  induction hr with
  | init => exact ⟨by simp [St.objs], fun _ _ => .inl rfl, by simp⟩
  | step hr ho hs ih =>
    exact ih.step (reach_good (Reach.mono (fun _ _ h => h.orderly.1) hr)) (reach_objs (Reach.mono (fun _ _ h => h.orderly) hr))
      ho hs

end Verif.PluginServer
