import Verif.Lemmas.Process
/-
C70: `wait_for_shutdown` returns if and only if a shutdown was asked for, by a call or by a signal, whatever the order of
things; no wake-up is lost. Missing: a signal that arrives on a thread while this thread has the mutex
(`signal_deadlock`, `two_signals_deadlock`).
C71: a daemon has no descriptors of the process it was started from.
-/
namespace Verif.Props.Process
open Verif.Process Verif.Spec.Process

/-- Reachability by computation, for the examples. -/
private theorem reach_run {ok : St → Nat → Act → Prop} (hok : ∀ s t a, a ≠ .signal → ok s t a) {s s' : St} (l : List (Nat × Act))
    (hl : ∀ x ∈ l, x.2 ≠ .signal) : Reach ok s → s.run l = some s' → Reach ok s' := by
  induction l generalizing s with
  | nil => intro h he; simp only [St.run, Option.some.injEq] at he; exact he ▸ h
  | cons x l ih =>
    obtain ⟨t, a⟩ := x
    intro h he
    simp only [St.run] at he
    cases hs : s.step t a with
    | none => rw [hs] at he; cases he
    | some s1 =>
      rw [hs] at he
      exact ih (fun y hy => hl y (List.mem_cons_of_mem _ hy)) (.step h (hok _ _ _ (hl _ List.mem_cons_self)) hs) he

private theorem reach_any {s s' : St} (l : List (Nat × Act)) : Reach Any s → s.run l = some s' → Reach Any s' := by
  induction l generalizing s with
  | nil => intro h he; simp only [St.run, Option.some.injEq] at he; exact he ▸ h
  | cons x l ih =>
    obtain ⟨t, a⟩ := x
    intro h he
    simp only [St.run] at he
    cases hs : s.step t a with
    | none => rw [hs] at he; cases he
    | some s1 => rw [hs] at he; exact ih (.step h trivial hs) he

/-- C70, no condition at all: when a `wait_for_shutdown` returns, `shutdown` was called or a signal has arrived before. -/
theorem waits {s : St} (hr : Reach Any s) {l₁ l₂ : List Ev} (h : s.log = l₁ ++ .waited :: l₂) : Ev.asked ∈ l₁ :=
  (inv hr).order l₁ l₂ h

/-- Thread 0 waits, thread 1 shuts down, thread 0 returns. -/
def waitRun : List (Nat × Act) :=
  [(0, .wait), (0, .go), (0, .go), (0, .spurious), (0, .go), (0, .go), (1, .shutdown), (1, .go), (1, .go), (1, .go), (1, .go),
    (0, .go), (0, .go), (0, .go)]

example : (St.init.run waitRun).map (·.log) = some [.asked, .shut, .waited] := rfl

/-- C70: a shutdown is for good. Once a call of `shutdown` has returned the flag is set, and nothing takes it back. -/
theorem permanent {ok : St → Nat → Act → Prop} {s : St} (hr : Reach ok s) (h : Ev.shut ∈ s.log) {l : List (Nat × Act)} {s' : St}
    (hl : s.run l = some s') : s'.flag = true := by
  have hf := (inv hr).shut h
  clear hr h
  induction l generalizing s with
  | nil => simp only [St.run, Option.some.injEq] at hl; exact hl ▸ hf
  | cons x l ih =>
    obtain ⟨t, a⟩ := x
    simp only [St.run] at hl
    cases hs : s.step t a with
    | none => rw [hs] at hl; cases hl
    | some s1 => rw [hs] at hl; exact ih hl (flag_stays hf hs)

/-- C70: no notification is lost. While a thread sleeps without having been notified although the flag is set, a thread
    is about to notify it. -/
theorem no_lost_wakeup {ok : St → Nat → Act → Prop} {s : St} (hr : Reach ok s) (hf : s.flag = true) {t : Nat}
    (h : .waitSleep false ∈ s.stack t) : ∃ u, .shutNotify ∈ s.stack u :=
  (inv hr).wake hf ⟨t, h⟩

private theorem run_calm {l : List (Nat × Act)} {s s' : St} (hr : Reach Calm s) (hg : ∀ x ∈ l, x.2 ≠ .signal)
    (hl : s.run l = some s') : Reach Calm s' :=
  reach_run (fun _ _ _ h hx => absurd hx h) l hg hr hl

private theorem asked_stays {s s' : St} {t : Nat} {a : Act} (ha : Ev.asked ∈ s.log) (hs : s.step t a = some s') :
    Ev.asked ∈ s'.log := by
  cases a with
  | go =>
    simp only [St.step, St.go] at hs
    split at hs <;> (try split at hs) <;> cases hs <;> first | exact ha | exact List.mem_append_left _ ha
  | spurious =>
    simp only [St.step] at hs
    split at hs <;> cases hs
    exact ha
  | signal => simp only [St.step] at hs; cases hs; exact List.mem_append_left _ ha
  | shutdown =>
    simp only [St.step] at hs
    split at hs <;> cases hs
    exact List.mem_append_left _ ha
  | wait =>
    simp only [St.step] at hs
    split at hs <;> cases hs
    exact ha

private theorem run_asked {l : List (Nat × Act)} {s s' : St} (ha : Ev.asked ∈ s.log) (hl : s.run l = some s') :
    Ev.asked ∈ s'.log := by
  induction l generalizing s with
  | nil => simp only [St.run, Option.some.injEq] at hl; exact hl ▸ ha
  | cons x l ih =>
    obtain ⟨t, a⟩ := x
    simp only [St.run] at hl
    cases hs : s.step t a with
    | none => rw [hs] at hl; cases hl
    | some s1 => rw [hs] at hl; exact ih (asked_stays ha hs) hl

private theorem idle_blocked {s : St} {t : Nat} (h : Idle s t) : s.step t .go = none ∧ s.step t .spurious = none := by
  unfold Idle at h
  simp [St.step, St.go, h]

private theorem idle_stays {s s' : St} {t u : Nat} {a : Act} (ha : a = .go ∨ a = .spurious) (h : Idle s u)
    (hs : s.step t a = some s') : Idle s' u := by
  have hne : u ≠ t := by
    rintro rfl
    rcases ha with rfl | rfl
    · rw [(idle_blocked h).1] at hs; cases hs
    · rw [(idle_blocked h).2] at hs; cases hs
  obtain ⟨st, h1, -, h3⟩ := step_change hs (by rcases ha with rfl | rfl <;> simp)
  unfold Idle at h ⊢
  rcases h3 with h3 | h3 <;> rw [h3]
  · rw [h1 u hne, h]
  · simp only [h1 u hne, h, List.map_nil]

/-- C70, partially: once a shutdown was asked for, every schedule of the threads comes to an end, after a number of steps
    that does not depend on the schedule, and when nothing can go on any more all calls have returned, those of
    `wait_for_shutdown` too. `ts` are the threads that are in calls. Missing: signals that arrive on a thread while that
    thread has the mutex. -/
theorem returns_partial {s : St} (hr : Reach Calm s) (ha : Ev.asked ∈ s.log) {ts : List Nat} (hts : ∀ t, t ∉ ts → Idle s t) :
    ∃ n, ∀ l s', (∀ x ∈ l, x.2 = .go) → s.run l = some s' → l.length ≤ n ∧ (Still s' → ∀ t, Idle s' t) := by
  refine ⟨work0 s ts, fun l s' hg hl => ⟨?_, fun hst => ?_⟩⟩
  · clear ha
    induction l generalizing s with
    | nil => simp
    | cons x l ih =>
      obtain ⟨t, a⟩ := x
      have hgo : a = .go := hg _ List.mem_cons_self
      subst hgo
      simp only [St.run] at hl
      cases hs : s.step t .go with
      | none => rw [hs] at hl; cases hl
      | some s1 =>
        rw [hs] at hl
        have ht : t ∈ ts := by
          by_cases h : t ∈ ts
          · exact h
          · rw [(idle_blocked (hts t h)).1] at hs; cases hs
        have h1 := work0_lt (inv hr) hs ht
        have h2 := ih (.step (a := .go) hr (fun h => by cases h) hs) (fun u hu => idle_stays (.inl rfl) (hts u hu) hs)
          (fun y hy => hg y (List.mem_cons_of_mem _ hy)) hl
        simp only [List.length_cons]
        omega
  · exact still_idle (run_calm hr (fun x hx => by rw [hg x hx]; simp) hl) (run_asked ha hl) hst

/-- C70: and once the flag is set, threads that are woken for no reason do not change that. -/
theorem returns_spurious_partial {s : St} (hr : Reach Calm s) (hf : s.flag = true) {ts : List Nat} (hts : ∀ t, t ∉ ts → Idle s t) :
    ∃ n, ∀ l s', Inner l → s.run l = some s' → l.length ≤ n ∧ (Still s' → ∀ t, Idle s' t) := by
  refine ⟨work s ts, fun l s' hg hl => ⟨?_, fun hst => ?_⟩⟩
  · induction l generalizing s with
    | nil => simp
    | cons x l ih =>
      obtain ⟨t, a⟩ := x
      have hin : a = .go ∨ a = .spurious := hg _ List.mem_cons_self
      simp only [St.run] at hl
      cases hs : s.step t a with
      | none => rw [hs] at hl; cases hl
      | some s1 =>
        rw [hs] at hl
        have ht : t ∈ ts := by
          by_cases h : t ∈ ts
          · exact h
          · rcases hin with rfl | rfl
            · rw [(idle_blocked (hts t h)).1] at hs; cases hs
            · rw [(idle_blocked (hts t h)).2] at hs; cases hs
        have h1 := work_lt hf hin hs ht
        have h2 := ih (.step hr (fun h => by rcases hin with rfl | rfl <;> cases h) hs) (flag_stays hf hs)
          (fun u hu => idle_stays hin (hts u hu) hs) (fun y hy => hg y (List.mem_cons_of_mem _ hy)) hl
        simp only [List.length_cons]
        omega
  · have hsig : ∀ x ∈ l, x.2 ≠ .signal := fun x hx h => by rcases hg x hx with h' | h' <;> rw [h] at h' <;> cases h'
    exact still_idle (run_calm hr hsig hl) (run_asked ((inv hr).asked hf) hl) hst

/-- Two threads wait, one asleep and one about to look at the flag, and a third has begun to shut down. -/
def threeRun : List (Nat × Act) := [(0, .wait), (0, .go), (0, .go), (1, .wait), (1, .go), (2, .shutdown)]

example : ∃ s, St.init.run threeRun = some s ∧ Reach Calm s ∧ Ev.asked ∈ s.log ∧ (∀ t, t ∉ [0, 1, 2] → Idle s t) ∧
    s.stack 0 = [.waitSleep false] ∧ s.stack 1 = [.waitTest] := by
  refine ⟨_, rfl, run_calm (l := threeRun) .init (by decide) rfl, by decide, fun t ht => ?_, rfl, rfl⟩
  simp only [List.mem_cons, List.not_mem_nil, or_false, not_or] at ht
  simp [Idle, St.init, setStack, ht]

/-- Nothing left behind: after the steps of `threeRun` all calls return. -/
example : (St.init.run (threeRun ++ [(1, .go), (2, .go), (2, .go), (2, .go), (2, .go), (0, .go), (0, .go), (0, .go), (1, .go),
    (1, .go), (1, .go)])).map (fun s => (s.log, s.stack 0, s.stack 1, s.stack 2)) =
    some ([.asked, .shut, .waited, .waited], [], [], []) := rfl

/-- A thread that has the mutex and waits for it in a signal handler has it for ever, and no call of any thread returns. -/
theorem stuck_for_ever {s : St} (ho : Owned s) {t : Nat} {fs : List Frame} {f : Frame} (hs : s.stack t = .shutLock :: f :: fs)
    (hw : s.owner = some t) :
    ∀ l s', s.run l = some s' → s'.owner = some t ∧ (∃ pre, s'.stack t = pre ++ s.stack t) ∧
      Ev.waited ∉ s'.log.drop s.log.length := by
  suffices H : ∀ l (s1 s' : St), Owned s1 → s1.owner = some t → (∃ pre, s1.stack t = pre ++ s.stack t ∧ ∀ g ∈ pre, g = .shutLock) →
      (∃ k, s1.log = s.log ++ List.replicate k .asked) → s1.run l = some s' → s'.owner = some t ∧
      (∃ pre, s'.stack t = pre ++ s.stack t ∧ ∀ g ∈ pre, g = .shutLock) ∧ ∃ k, s'.log = s.log ++ List.replicate k .asked by
    intro l s' hl
    obtain ⟨h1, ⟨pre, h2, -⟩, k, h3⟩ := H l s s' ho hw ⟨[], rfl, by simp⟩ ⟨0, by simp⟩ hl
    refine ⟨h1, ⟨pre, h2⟩, ?_⟩
    rw [h3, List.drop_left]
    intro h
    cases List.eq_of_mem_replicate h
  intro l
  induction l with
  | nil => intro s1 s' _ h1 h2 h3 h4; simp only [St.run, Option.some.injEq] at h4; exact h4 ▸ ⟨h1, h2, h3⟩
  | cons x l ih =>
    obtain ⟨u, a⟩ := x
    intro s1 s' ho1 h1 h2 h3 h4
    simp only [St.run] at h4
    cases hst : s1.step u a with
    | none => rw [hst] at h4; cases h4
    | some s2 =>
      rw [hst] at h4
      refine ih s2 s' (owned_step ho1 hst) ?_ ?_ ?_ h4
      all_goals
        obtain ⟨pre, hp, hpre⟩ := h2
        obtain ⟨k, hk⟩ := h3
        -- the stuck thread only gets more handlers
        have htop : ∃ gs, s1.stack t = .shutLock :: gs := by
          cases pre with
          | nil => exact ⟨f :: fs, by rw [hp, hs]; rfl⟩
          | cons g pre => exact ⟨pre ++ s.stack t, by rw [hp, hpre g List.mem_cons_self]; rfl⟩
        obtain ⟨gs, htop⟩ := htop
        -- no other thread has the mutex
        have hother : ∀ i g gs', s1.stack i = g :: gs' → g.holds = true → i = t ∧ False := by
          intro i g gs' hi hg
          have := ho1 i
          rw [hi, held, hg] at this
          by_cases e : i = t
          · subst e; rw [htop] at hi; cases hi; cases hg
          · rw [h1, if_neg (fun hc => e (Option.some.inj hc).symm)] at this; simp at this
        have hstk : ∀ {x : List Frame}, u ≠ t → setStack s1.stack u x t = s1.stack t := fun h => setStack_other (Ne.symm h)
        cases a with
        | shutdown =>
          simp only [St.step] at hst
          split at hst <;> cases hst
          rename_i he
          have hut : u ≠ t := by rintro rfl; rw [he] at htop; cases htop
          first
            | exact h1
            | exact ⟨pre, by simp only [hstk hut, hp], hpre⟩
            | exact ⟨k + 1, by simp only [hk, List.replicate_succ', List.append_assoc]⟩
        | wait =>
          simp only [St.step] at hst
          split at hst <;> cases hst
          rename_i he
          have hut : u ≠ t := by rintro rfl; rw [he] at htop; cases htop
          first
            | exact h1
            | exact ⟨pre, by simp only [hstk hut, hp], hpre⟩
            | exact ⟨k, hk⟩
        | signal =>
          simp only [St.step] at hst
          cases hst
          first
            | exact h1
            | exact ⟨k + 1, by simp only [hk, List.replicate_succ', List.append_assoc]⟩
            | by_cases hut : u = t
              · subst hut
                refine ⟨.shutLock :: pre, by simp only [setStack_self, hp]; rfl, fun g hg => ?_⟩
                rcases List.mem_cons.mp hg with rfl | hg
                · rfl
                · exact hpre g hg
              · exact ⟨pre, by simp only [hstk hut, hp], hpre⟩
        | spurious =>
          simp only [St.step] at hst
          split at hst
          · rename_i he
            cases hst
            have hut : u ≠ t := by rintro rfl; rw [he] at htop; cases htop
            first
              | exact h1
              | exact ⟨pre, by simp only [hstk hut, hp], hpre⟩
              | exact ⟨k, hk⟩
          · cases hst
        | go =>
          exfalso
          simp only [St.step, St.go, h1] at hst
          split at hst <;> (try cases hst)
          all_goals (rename_i he; exact (hother u _ _ he rfl).2)

/-- Finding: SIGINT or SIGTERM arrives on a thread that is in `wait_for_shutdown` and has the mutex. The handler waits for
    the mutex of its own thread. From then on no call of `wait_for_shutdown` returns, of no thread and whatever happens, and
    the process does not end. -/
theorem signal_deadlock : ∃ s, Reach Any s ∧ Ev.asked ∈ s.log ∧ s.stack 0 = [.shutLock, .waitTest] ∧
    ∀ l s', s.run l = some s' → Ev.waited ∉ s'.log ∧ s'.stack 0 ≠ [] := by
  have hr : Reach Any _ := reach_any [(0, .wait), (0, .go), (0, .signal)] .init rfl
  refine ⟨_, hr, by decide, rfl, fun l s' hl => ?_⟩
  obtain ⟨-, ⟨pre, h2⟩, h3⟩ := stuck_for_ever (owned hr) (t := 0) (f := .waitTest) (fs := []) rfl rfl l s' hl
  refine ⟨fun h => ?_, by rw [h2]; simp [setStack]⟩
  have hlog : ∃ x, s'.log = [.asked] ++ x := by
    have : ∀ l (s1 s2 : St), s1.run l = some s2 → ∃ x, s2.log = s1.log ++ x := by
      intro l
      induction l with
      | nil => intro s1 s2 h; simp only [St.run, Option.some.injEq] at h; exact ⟨[], by rw [h]; simp⟩
      | cons y l ih =>
        obtain ⟨t, a⟩ := y
        intro s1 s2 h
        simp only [St.run] at h
        cases hs : s1.step t a with
        | none => rw [hs] at h; cases h
        | some s3 =>
          rw [hs] at h
          obtain ⟨x, hx⟩ := ih s3 s2 h
          have : ∃ y, s3.log = s1.log ++ y := by
            cases a <;> simp only [St.step, St.go] at hs <;> (repeat' split at hs) <;> cases hs <;>
              first | exact ⟨_, rfl⟩ | exact ⟨[], (List.append_nil _).symm⟩
          obtain ⟨y, hy⟩ := this
          exact ⟨y ++ x, by rw [hx, hy, List.append_assoc]⟩
    exact this l _ s' hl
  obtain ⟨x, hx⟩ := hlog
  rw [hx] at h
  rcases List.mem_append.mp h with h | h
  · cases List.mem_singleton.mp h
  · rw [hx] at h3
    exact h3 (by simpa [St.init] using h)

/-- Finding: the same when two signals arrive on one thread, the second while the handler of the first has the mutex.
    A thread 1 that waits for the shutdown waits for ever. -/
theorem two_signals_deadlock : ∃ s, Reach Any s ∧ s.stack 0 = [.shutLock, .shutTest] ∧ s.stack 1 = [.waitSleep false] ∧
    ∀ l s', s.run l = some s' → Ev.waited ∉ s'.log.drop s.log.length ∧ s'.stack 0 ≠ [] := by
  have hr : Reach Any _ := reach_any [(1, .wait), (1, .go), (1, .go), (0, .signal), (0, .go), (0, .signal)] .init rfl
  refine ⟨_, hr, rfl, rfl, fun l s' hl => ?_⟩
  obtain ⟨-, ⟨pre, h2⟩, h3⟩ := stuck_for_ever (owned hr) (t := 0) (f := .shutTest) (fs := []) rfl rfl l s' hl
  exact ⟨h3, by rw [h2]; simp [St.init, setStack]⟩

/-! ### C71 -/

private theorem closeDown_eq (n : Nat) : ∀ fds : Nat → Option File, closeDown fds n = fun i => if i ≤ n then none else fds i := by
  induction n with
  | zero => intro fds; funext i; simp [closeDown]
  | succ n ih =>
    intro fds
    rw [closeDown, ih]
    funext i
    by_cases h : i ≤ n
    · simp [h, Nat.le_succ_of_le h]
    · by_cases h2 : i = n + 1
      · simp [h2]
      · have : ¬ i ≤ n + 1 := by omega
        simp [h, h2, this]

private theorem lowest_eq {fds : Nat → Option File} {limit k : Nat} (h1 : ∀ i, i < k → fds i ≠ none) (h2 : fds k = none)
    (hk : k < limit) : lowest fds limit = some k := by
  unfold lowest
  rw [List.find?_eq_some_iff_append]
  refine ⟨by simp [h2], List.range k, (List.range (limit - k - 1)).map (fun j => k + 1 + j), ?_, fun i hi => ?_⟩
  · apply List.ext_getElem
    · simp; omega
    · intro i h3 h4
      simp only [List.length_range] at h3
      by_cases e : i < k
      · simp [e]
      · by_cases e2 : i = k
        · simp [e2]
        · rw [List.getElem_append_right (by simp; omega)]
          have : ∃ j, i - (List.range k).length = j + 1 := ⟨i - k - 1, by simp; omega⟩
          obtain ⟨j, hj⟩ := this
          simp only [hj, List.getElem_cons_succ, List.getElem_map, List.getElem_range]
          simp at hj; omega
  · have := h1 i (by simpa using hi)
    cases hf : fds i with
    | none => exact absurd hf this
    | some _ => rfl

/-- C71: the child that goes on as a daemon has nothing open but standard input, output and error, which are `/dev/null`;
    if `/dev/null` cannot be opened they are closed. All descriptors are below the limit, and the limit is at least 3. -/
theorem daemon_clean {p : Proc} {limit : Nat} (hlim : 3 ≤ limit) (hp : ∀ i, limit ≤ i → p.fds i = none) (opens : Bool) :
    ∃ child, daemonize false true opens limit p = .forked child ∧ child.session = true ∧ child.umask = 0o27 ∧
      ∀ i, child.fds i = if opens = true ∧ i < 3 then some .null else none := by
  have hclose : closeDown p.fds limit = fun _ => none := by
    rw [closeDown_eq]
    funext i
    by_cases h : i ≤ limit
    · simp [h]
    · simp [h, hp i (by omega)]
  refine ⟨_, rfl, rfl, rfl, ?_⟩
  simp only [hclose]
  cases opens with
  | false => simp
  | true =>
    have e1 : lowest (fun _ => none) limit = some 0 := lowest_eq (by simp) rfl (by omega)
    have e2 : lowest (fun i => if i = 0 then some File.null else none) limit = some 1 :=
      lowest_eq (fun i hi => by simp [show i = 0 by omega]) rfl (by omega)
    have e3 : lowest (fun i => if i = 1 then some File.null else if i = 0 then some File.null else none) limit = some 2 :=
      lowest_eq (fun i hi => by rcases (show i = 0 ∨ i = 1 by omega) with rfl | rfl <;> simp) rfl (by omega)
    intro i
    simp only [alloc, e1, if_true, dup, e2, e3]
    by_cases h2 : i = 2
    · simp [h2]
    · by_cases h1 : i = 1
      · simp [h1]
      · by_cases h0 : i = 0
        · simp [h0]
        · have : ¬ i < 3 := by omega
          simp [h0, h1, h2, this]

/-- A process with a log file and a socket. -/
def shellProc : Proc := ⟨fun i => if i < 5 then some (.inherited i) else none, 0o22, false⟩

/-- What a daemon has open among the first descriptors. -/
def firstFds : Daemon → List (Option File)
  | .forked c => (List.range 6).map c.fds
  | _ => []

example : firstFds (daemonize false true true 64 shellProc) = [some .null, some .null, some .null, none, none, none] := by
  decide +kernel

/-- C71: a process whose parent is `init` is left as it is, and if the fork fails the process exits. -/
theorem daemon_other (p : Proc) (limit : Nat) (forks opens : Bool) :
    daemonize true forks opens limit p = .already p ∧ daemonize false false opens limit p = .failed := ⟨rfl, rfl⟩

/-- Finding: descriptors at and above the limit, which may have been lowered after they were opened, stay open. -/
theorem descriptor_above_limit_kept : ∃ p : Proc, ∃ child, daemonize false true true 4 p = .forked child ∧
    child.fds 7 = some (.inherited 7) :=
  ⟨⟨fun i => if i = 7 then some (.inherited 7) else none, 0, false⟩, _, rfl, by decide +kernel⟩

end Verif.Props.Process
