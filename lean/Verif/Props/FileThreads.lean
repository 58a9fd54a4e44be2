import Verif.Lemmas.FileThreadsStep
/-
A file is sent to several clients at once, while it changes.
-/
namespace Verif.Props.FileThreads
open Verif.FileThreads Verif.Spec.FileThreads

/-! ### Examples -/

def old : Version := ⟨b! "ab", 1⟩
def new : Version := ⟨b! "wxyz", 2⟩

/-- `n` steps of call `i`, each byte being read from version `k`. -/
def steps (i k n : Nat) : List Act := List.replicate n (.step i fun _ => k)

/-- Two requests, one of which reads the file, which is then changed, and another request. -/
def story : List Act :=
  [.call 0 {}, .call 1 {}] ++ steps 0 0 4 ++ steps 1 0 3 ++ steps 0 0 5 ++ steps 1 0 6 ++ [.change (some new), .call 2 {}] ++
    steps 2 1 8

def stateAfter (cfg : Cfg) (v : Option Version) (tr : List Act) : Option (List (Option Pc)) :=
  (run cfg v tr).map fun s => (List.range 4).map fun i => (s.calls i).map (·.pc)

theorem distinct_two (v w : Version) (h : v.time ≠ w.time) : DistinctTimes [some v, some w] := by
  intro j k a b ha hb e
  match j, k with
  | 0, 0 => rfl
  | 1, 1 => rfl
  | 0, 1 => cases ha; cases hb; exact absurd e h
  | 1, 0 => cases ha; cases hb; exact absurd e.symm h
  | (n + 2), _ => cases ha
  | 0, (n + 2) => cases hb
  | 1, (n + 2) => cases hb

/-! ### What is sent -/

/-- The setting is not changed by `start` across the line that matters. -/
theorem started_lt {cfg : Cfg} : (started cfg).cache < 2 ↔ cfg.cache < 2 := by
  unfold started; split <;> simp_all

theorem good_of {cfg : Cfg} {h : List (Option Version)} (hc : cfg.cache < 2) (hd : DistinctTimes h) :
    Good (started cfg) h := ⟨fun _ => hd, fun h2 => absurd (started_lt.2 hc) (by omega)⟩

theorem known {cfg : Cfg} {v : Option Version} {tr₁ tr₂ : List Act} {i : Nat} {req : Req} {s : St} {a : Answer}
    (h : run cfg v (tr₁ ++ .call i req :: tr₂) = some s) (hs : Steady (tr₁ ++ .call i req :: tr₂))
    (hc : cfg.cache < 2) (hd : DistinctTimes (history v (tr₁ ++ .call i req :: tr₂))) (ha : Answered s i a) :
    ∃ c, c.came = present tr₁ ∧ c.req = req ∧ lo (started cfg) c = present tr₁ ∧
      PcOk (started cfg) (history v (tr₁ ++ .call i req :: tr₂)) s.sh.heap s.sh.entry c (.done a) := by
  obtain ⟨c, hcl, hcame, hreq⟩ := run_came h
  obtain ⟨c', hcl', hp⟩ := ha
  rw [hcl] at hcl'; cases hcl'
  have h2 := inv2_run h (fun h2 => by omega) hs (good_of hc hd)
  have := (h2.calls i c hcl).2
  rw [hp, run_hist h] at this
  exact ⟨c, hcame, hreq, by simp [lo, started_lt.2 hc, hcame], this⟩

/-- A file that is sent with "200 OK" consists of what the file was while the request was open: its length, its time and
    each byte. -/
theorem composed_partial {cfg : Cfg} {v : Option Version} {tr₁ tr₂ : List Act} {i : Nat} {req : Req} {s : St}
    {n t : Nat} {body : List (Option UInt8)}
    (h : run cfg v (tr₁ ++ .call i req :: tr₂) = some s) (hs : Steady (tr₁ ++ .call i req :: tr₂))
    (hc : cfg.cache < 2) (hd : DistinctTimes (history v (tr₁ ++ .call i req :: tr₂)))
    (ha : Answered s i (.file n t body)) :
    Composed (history v (tr₁ ++ .call i req :: tr₂)) (present tr₁) (present (tr₁ ++ .call i req :: tr₂)) n t body := by
  obtain ⟨c, _, _, hl, hp⟩ := known h hs hc hd ha
  simp only [PcOk, hl, length_history] at hp
  exact hp

example : stateAfter {} (some old) story =
    some [some (.done (.file 2 1 [some 97, some 98])), some (.done (.file 2 1 [some 97, some 98])),
      some (.done (.file 4 2 [some 119, some 120, some 121, some 122])), none] := by
  decide +kernel

example : DistinctTimes (history (some old) story) := distinct_two old new (by decide)

example : Steady story := by
  intro i hi
  simp [story, steps] at hi

/-- If the file is not changed while the request is open, it is the file, with its time. -/
theorem fresh {cfg : Cfg} {v : Option Version} {tr₁ tr₂ : List Act} {i : Nat} {req : Req} {s : St}
    {n t : Nat} {body : List (Option UInt8)}
    (h : run cfg v (tr₁ ++ .call i req :: tr₂) = some s) (hs : Steady (tr₁ ++ .call i req :: tr₂))
    (hc : cfg.cache < 2) (hd : DistinctTimes (history v (tr₁ ++ .call i req :: tr₂)))
    (hu : ∀ w, Act.change w ∉ tr₂) (ha : Answered s i (.file n t body)) :
    ∃ f, current v tr₁ = some f ∧ n = f.content.length ∧ t = f.time ∧ body = f.content.map some := by
  have hcmp := composed_partial h hs hc hd ha
  have hh : history v (tr₁ ++ .call i req :: tr₂) = history v tr₁ := by
    have : tr₂.filterMap changed = [] := by
      rw [List.filterMap_eq_nil_iff]
      intro x hx
      cases x <;> first | rfl | exact absurd hx (hu _)
    simp only [history, List.filterMap_append, List.filterMap_cons, changed, this, List.append_nil]
  have hpr : present (tr₁ ++ .call i req :: tr₂) = present tr₁ := by
    have := congrArg List.length hh
    simpa [history, present] using this
  rw [hh, hpr] at hcmp
  obtain ⟨⟨k, f, h1, h2, h3, h4⟩, ⟨k', f', q1, q2, q3, q4⟩, h5, h6⟩ := hcmp
  have : k = present tr₁ := by omega
  subst this
  have : k' = present tr₁ := by omega
  subst this
  have hff : ∀ g, At (history v tr₁) (present tr₁) g → g = f := fun g hg => by
    rw [At] at hg h3; rw [h3] at hg; simpa using hg.symm
  have := hff f' q3
  subst this
  refine ⟨f', ?_, h4.symm, q4.symm, ?_⟩
  · unfold current
    rw [List.getLast?_eq_getElem?, length_history, show (history v tr₁)[present tr₁]? = some (some f') from h3]
    rfl
  · apply List.ext_getElem?
    intro p
    rw [List.getElem?_map]
    cases hx : body[p]? with
    | none =>
      rw [List.getElem?_eq_none_iff] at hx
      rw [List.getElem?_eq_none (by omega)]; rfl
    | some x =>
      obtain ⟨k, g, r1, r2, r3, y, r4, r5⟩ := h6 p x hx
      have : k = present tr₁ := by omega
      subst this
      rw [hff g r3] at r5
      rw [r5, r4]; rfl

/-- "304 Not Modified" is answered only if the file had the time that the client knows while the request was open. -/
theorem not_modified {cfg : Cfg} {v : Option Version} {tr₁ tr₂ : List Act} {i : Nat} {req : Req} {s : St} {t : Nat}
    (h : run cfg v (tr₁ ++ .call i req :: tr₂) = some s) (hs : Steady (tr₁ ++ .call i req :: tr₂))
    (hc : cfg.cache < 2) (hd : DistinctTimes (history v (tr₁ ++ .call i req :: tr₂)))
    (ha : Answered s i (.notModified t)) :
    req.since = some t ∧
      TimeWithin (history v (tr₁ ++ .call i req :: tr₂)) (present tr₁) (present (tr₁ ++ .call i req :: tr₂)) t := by
  obtain ⟨c, _, hr, hl, hp⟩ := known h hs hc hd ha
  simp only [PcOk, hl, length_history, hr] at hp
  exact hp

example : stateAfter {} (some old) ([.call 0 {}] ++ steps 0 0 9 ++ [.call 1 { since := some 1 }] ++ steps 1 0 4) =
    some [some (.done (.file 2 1 [some 97, some 98])), some (.done (.notModified 1)), none, none] := by
  decide +kernel

/-- The headers alone have a time that the file had while the request was open. -/
theorem headers {cfg : Cfg} {v : Option Version} {tr₁ tr₂ : List Act} {i : Nat} {req : Req} {s : St} {t : Nat}
    (h : run cfg v (tr₁ ++ .call i req :: tr₂) = some s) (hs : Steady (tr₁ ++ .call i req :: tr₂))
    (hc : cfg.cache < 2) (hd : DistinctTimes (history v (tr₁ ++ .call i req :: tr₂)))
    (ha : Answered s i (.headers t)) :
    TimeWithin (history v (tr₁ ++ .call i req :: tr₂)) (present tr₁) (present (tr₁ ++ .call i req :: tr₂)) t := by
  obtain ⟨c, _, _, hl, hp⟩ := known h hs hc hd ha
  simp only [PcOk, hl, length_history] at hp
  exact hp

example : stateAfter {} (some old) ([.call 0 {}] ++ steps 0 0 9 ++ [.call 1 { head := true }] ++ steps 1 0 4) =
    some [some (.done (.file 2 1 [some 97, some 98])), some (.done (.headers 1)), none, none] := by
  decide +kernel

/-- "404 Not Found" is answered only if there was no file at a moment while the request was open, or files that were not
    found when the service was started are refused. -/
theorem not_found {cfg : Cfg} {v : Option Version} {tr₁ tr₂ : List Act} {i : Nat} {req : Req} {s : St}
    (h : run cfg v (tr₁ ++ .call i req :: tr₂) = some s) (hs : Steady (tr₁ ++ .call i req :: tr₂))
    (hc : cfg.cache < 2) (hd : DistinctTimes (history v (tr₁ ++ .call i req :: tr₂))) (ha : Answered s i .notFound) :
    (cfg.scan = 1 ∨ cfg.scan = 3) ∨
      GoneWithin (history v (tr₁ ++ .call i req :: tr₂)) (present tr₁) (present (tr₁ ++ .call i req :: tr₂)) := by
  obtain ⟨c, _, _, hl, hp⟩ := known h hs hc hd ha
  simp only [PcOk, hl, length_history] at hp
  rw [show (started cfg).scan = cfg.scan by unfold started; split <;> rfl] at hp
  exact hp

example : stateAfter {} (some old) ([.change none, .call 0 {}] ++ steps 0 0 2) =
    some [some (.done .notFound), none, none, none] := by decide +kernel

/-- An error is answered, or sending given up, only if the file was removed or became shorter while the request was open. -/
theorem failed {cfg : Cfg} {v : Option Version} {tr₁ tr₂ : List Act} {i : Nat} {req : Req} {s : St} {a : Answer}
    (h : run cfg v (tr₁ ++ .call i req :: tr₂) = some s) (hs : Steady (tr₁ ++ .call i req :: tr₂))
    (hc : cfg.cache < 2) (hd : DistinctTimes (history v (tr₁ ++ .call i req :: tr₂))) (hea : a = .error ∨ a = .gaveUp)
    (ha : Answered s i a) :
    GoneWithin (history v (tr₁ ++ .call i req :: tr₂)) (present tr₁) (present (tr₁ ++ .call i req :: tr₂)) ∨
    ResizedWithin (history v (tr₁ ++ .call i req :: tr₂)) (present tr₁) (present (tr₁ ++ .call i req :: tr₂)) := by
  obtain ⟨c, _, _, hl, hp⟩ := known h hs hc hd ha
  rcases hea with rfl | rfl <;>
  · simp only [PcOk, Trouble, hl, length_history] at hp
    exact hp

example : stateAfter {} (some new) ([.call 0 {}] ++ steps 0 0 3 ++ [.change (some old)] ++ steps 0 1 3) =
    some [some (.done .error), none, none, none] := by decide +kernel

/-- With cached files that are not checked for changes, a file that is sent consists of what the file was since the service
    was started. -/
theorem kept_partial {cfg : Cfg} {v : Option Version} {tr : List Act} {i : Nat} {s : St} {n t : Nat}
    {body : List (Option UInt8)} (h : run cfg v tr = some s) (hs : Steady tr) (hc : 2 ≤ cfg.cache) (h1 : cfg.scan ≠ 1)
    (hd : Dated (history v tr)) (ha : Answered s i (.file n t body)) :
    Composed (history v tr) 0 (present tr) n t body := by
  obtain ⟨c, hcl, hp⟩ := ha
  have hc2 : ¬ (started cfg).cache < 2 := by rw [started_lt]; omega
  have h2 := inv2_run h (fun _ => h1) hs ⟨fun h => absurd h hc2, fun _ => hd⟩
  have := (h2.calls i c hcl).2
  rw [hp, run_hist h] at this
  simp only [PcOk, lo, if_neg hc2, length_history] at this
  exact this

example : stateAfter { cache := 2 } (some old)
    ([.call 0 {}] ++ steps 0 0 9 ++ [.change (some new), .call 1 {}] ++ steps 1 1 4) =
    some [some (.done (.file 2 1 [some 97, some 98])), some (.done (.file 2 1 [some 97, some 98])), none, none] := by
  decide +kernel

/-- Nothing is read beyond a buffer. -/
theorem no_overrun {cfg : Cfg} {v : Option Version} {tr : List Act} {i : Nat} {s : St}
    (h : run cfg v tr = some s) (hs : Steady tr) (h1 : 2 ≤ cfg.cache → cfg.scan ≠ 1)
    (hd : DistinctTimes (history v tr)) (hz : Dated (history v tr)) : ¬ Answered s i .overrun := by
  rintro ⟨c, hcl, hp⟩
  have h2 := inv2_run h h1 hs ⟨fun _ => hd, fun _ => hz⟩
  have := (h2.calls i c hcl).2
  rw [hp] at this
  exact this

example : Dated (history (some old) story) := by
  intro k v hv
  match k with
  | 0 => cases hv; decide
  | 1 => cases hv; decide
  | (k + 2) => cases hv

/-! ### The cache -/

/-- The content that is being sent from memory is not changed by anything, even if reading fails. -/
theorem content_stable {cfg : Cfg} {v : Option Version} {tr : List Act} {s s' : St} {x : Act} {i b : Nat} {c : Call}
    {sent : List (Option UInt8)} {op : Option Nat} (h : run cfg v tr = some s) (hs : s.step (started cfg) x = some s')
    (hc : s.calls i = some c) (hp : c.pc = .send sent op) (hb : c.file.buf = some b) :
    s'.sh.heap[b]? = s.sh.heap[b]? := by
  have hi := inv1_run h
  have hlt := hi.refC i c b hc hb
  have key : ∀ k d sh' d', s.calls k = some d → Eff k s.sh d sh' d' → sh'.heap[b]? = s.sh.heap[b]? := by
    intro k d sh' d' hk he
    rw [List.getElem?_eq_getElem hlt]
    rcases he.heap_ b _ (List.getElem?_eq_getElem hlt) with h | ⟨h, h'⟩ | ⟨h, e, h', h''⟩
    · exact h
    · exfalso
      obtain ⟨b', q1, _, q2⟩ := hi.ownFill k d hk h
      rw [h'] at q1; cases q1
      by_cases hki : i = k
      · subst hki; rw [hc] at hk; cases hk; rw [hp] at h; cases h
      · exact q2 i c hki hc hb
    · exfalso
      obtain ⟨e', b', q1, q2, q3⟩ := hi.entryFill k d hk h
      rw [h'] at q1; cases q1
      rw [h''] at q2; cases q2
      exact q3 i c hc hb
  cases run_steps h hs with
  | call _ => rfl
  | own hk ho => exact key _ _ _ _ hk (eff_own hi hk ho)
  | fail hk hf => exact key _ _ _ _ hk (eff_throw hi hk (.inr (.inr hf)))
  | change => rfl
  | clear _ => rfl

/-- While a call holds the mutex, no other changes the entry. -/
theorem entry_exclusive {cfg : Cfg} {v : Option Version} {tr : List Act} {s s' : St} {i k : Nat} {pick : Nat → Nat}
    (h : run cfg v tr = some s) (hl : s.sh.lock = some k) (hk : i ≠ k)
    (hs : s.step (started cfg) (.step i pick) = some s') : s'.sh.entry = s.sh.entry := by
  have hi := inv1_run h
  cases run_steps h hs with
  | own hc ho => exact (eff_own hi hc ho).entry_ k (Ne.symm hk) hl

example : (run {} (some old) ([.call 0 {}] ++ steps 0 0 9 ++ [.call 1 {}, .call 2 {}] ++ steps 1 0 1)).map
    (fun s => (s.sh.lock, (s.calls 2).map (·.pc))) = some (some 1, some .lookup) := by decide +kernel

/-- Nothing waits for ever: a call that is not answered can go on, or the one that holds the mutex can. -/
theorem no_deadlock {cfg : Cfg} {v : Option Version} {tr : List Act} {s : St} {i : Nat} {c : Call}
    (h : run cfg v tr = some s) (hc : s.calls i = some c) (hn : ∀ a, c.pc ≠ .done a) :
    (∃ pick s', s.step (started cfg) (.step i pick) = some s') ∨
      ∃ k, s.sh.lock = some k ∧ ∃ pick s', s.step (started cfg) (.step k pick) = some s' := by
  have hi := inv1_run h
  have ho : ∀ k d, s.calls k = some d → ∀ o, (∃ u, d.pc = .fill u o) ∨ (∃ t, d.pc = .send t (some o)) →
      o < s.sh.hist.length := by
    refine run_induct (P := fun _ s => ∀ k d, s.calls k = some d → ∀ o,
      (∃ u, d.pc = .fill u o) ∨ (∃ t, d.pc = .send t (some o)) → o < s.sh.hist.length) ?_ ?_ h
    · intro k d hd; cases hd
    · intro tr s x s' hr hP hst k d hd o hod
      have hi := inv1_run hr
      cases run_steps hr hst with
      | @call j req hj =>
        by_cases hkj : k = j
        · subst hkj; rw [set_self] at hd; cases hd
          rcases hod with ⟨_, h⟩ | ⟨_, h⟩ <;> cases h
        · rw [set_other s hkj] at hd; exact hP k d hd o hod
      | @own j pick c sh' c' hc hown =>
        have he := eff_own hi hc hown
        rw [set_sh, show (sh', c').1.hist = s.sh.hist from he.hist_]
        by_cases hkj : k = j
        · subst hkj; rw [set_self] at hd; cases hd
          have h1 := hP k c hc o
          have h2 := index_lt hi.ne
          cases hown <;> grind [respond, Verif.FileThreads.throw]
        · rw [set_other s hkj] at hd; exact hP k d hd o hod
      | @fail j c u hc hf =>
        have he := eff_throw hi hc (.inr (.inr hf))
        rw [set_sh, he.hist_]
        by_cases hkj : k = j
        · subst hkj; rw [set_self] at hd; cases hd
          rcases hod with ⟨_, h⟩ | ⟨_, h⟩ <;> cases h
        · rw [set_other s hkj] at hd; exact hP k d hd o hod
      | change =>
        have := hP k d hd o hod
        simp; omega
      | clear _ => exact hP k d hd o hod
  have hvalid : ∀ o pos n, o < s.sh.hist.length → validPick s.sh.hist o pos n (fun _ => o) = true := by
    intro o pos n h
    simp [validPick, h]
  have key : ∀ k d, s.calls k = some d → (∀ a, d.pc ≠ .done a) →
      (s.sh.lock.isSome → d.pc ≠ .lookup ∧ d.pc ≠ .insert) →
      ∃ pick s', s.step (started cfg) (.step k pick) = some s' := by
    intro k d hd hnd hlk
    have : ∃ pick r, own (started cfg) k pick s.sh d = some r := by
      unfold own
      cases hp : d.pc with
      | lookup =>
        refine ⟨fun _ => 0, ?_⟩
        have : s.sh.lock.isSome = false := by
          by_contra hl
          exact (hlk (by cases hq : s.sh.lock <;> simp_all)).1 hp
        simp only [lookUp, this]
        split
        · exact ⟨_, rfl⟩
        · cases s.sh.entry <;> exact ⟨_, rfl⟩
      | size u => cases s.sh.now <;> exact ⟨fun _ => 0, _, rfl⟩
      | time u n => cases s.sh.now <;> exact ⟨fun _ => 0, _, rfl⟩
      | read u => exact ⟨fun _ => 0, _, rfl⟩
      | fill u o =>
        have := hvalid o 0 (target u s.sh d).size (ho k d hd o (.inl ⟨u, hp⟩))
        exact ⟨fun _ => o, by simp [this]⟩
      | copy u => exact ⟨fun _ => 0, _, rfl⟩
      | exist => cases s.sh.now <;> exact ⟨fun _ => 0, _, rfl⟩
      | insert =>
        have : s.sh.lock.isSome = false := by
          by_contra hl
          exact (hlk (by cases hq : s.sh.lock <;> simp_all)).2 hp
        exact ⟨fun _ => 0, by simp [this]⟩
      | send t op =>
        cases op with
        | none =>
          refine ⟨fun _ => 0, ?_⟩
          simp only [sending]
          split
          · exact ⟨_, rfl⟩
          · cases d.file.buf with
            | none => cases s.sh.now <;> exact ⟨_, rfl⟩
            | some b => dsimp only; (repeat' split) <;> exact ⟨_, rfl⟩
        | some o =>
          have hv := fun n => hvalid o t.length n (ho k d hd o (.inr ⟨t, hp⟩))
          refine ⟨fun _ => o, ?_⟩
          simp only [sending]
          split
          · exact ⟨_, rfl⟩
          · cases d.file.buf with
            | none =>
              simp only [hv, if_true]
              split <;> exact ⟨_, rfl⟩
            | some b => dsimp only; (repeat' split) <;> exact ⟨_, rfl⟩
      | done a => exact absurd hp (hnd a)
    obtain ⟨pick, r, hr⟩ := this
    exact ⟨pick, s.set k r, by simp [St.step, hd, hr]⟩
  cases hl : s.sh.lock with
  | none => exact .inl (key i c hc hn (by simp [hl]))
  | some k =>
    obtain ⟨d, hd, hh⟩ := hi.holder k hl
    refine .inr ⟨k, rfl, key k d hd ?_ ?_⟩
    · intro a ha; rw [ha] at hh; cases hh
    · intro _; constructor <;> (intro ha; rw [ha] at hh; cases hh)

/-! ### Findings -/

theorem answered_of {cfg : Cfg} {v : Option Version} {tr : List Act} {l : List (Option Pc)}
    (h : stateAfter cfg v tr = some l) : ∃ s, run cfg v tr = some s ∧
      ∀ i a, i < 4 → l[i]? = some (some (.done a)) → Answered s i a := by
  unfold stateAfter at h
  cases hr : run cfg v tr with
  | none => rw [hr] at h; cases h
  | some s =>
    rw [hr] at h; cases h
    refine ⟨s, rfl, fun i a hi h => ?_⟩
    rw [List.getElem?_map, List.getElem?_range hi] at h
    cases hc : s.calls i with
    | none => simp [hc] at h
    | some c =>
      simp only [Option.map_some, hc, Option.some.injEq] at h
      exact ⟨c, hc, h⟩

/-- The file becomes longer between the reading of its length and of its time. -/
def cutTrace : List Act :=
  [.call 0 {}] ++ steps 0 0 3 ++ [.change (some new)] ++ steps 0 1 6 ++ [.call 1 { since := some 2 }] ++ steps 1 1 6

/-- A file that becomes longer between the reading of its length and of its time is sent cut short, with the new time: the
    client gets a file that never was, and is told from then on that it has not changed. -/
theorem truncated_for_good : ∃ tr s, run {} (some old) tr = some s ∧ Steady tr ∧ DistinctTimes (history (some old) tr) ∧
    current (some old) tr = some new ∧ Answered s 0 (.file 2 2 [some 119, some 120]) ∧ Answered s 1 (.notModified 2) := by
  obtain ⟨s, h, ha⟩ := answered_of (show stateAfter {} (some old) cutTrace =
    some [some (.done (.file 2 2 [some 119, some 120])), some (.done (.notModified 2)), none, none] by decide +kernel)
  refine ⟨cutTrace, s, h, ?_, distinct_two old new (by decide), rfl, ha 0 _ (by decide) rfl, ha 1 _ (by decide) rfl⟩
  intro i hi
  simp [cutTrace, steps] at hi

/-- The file is replaced by one of the same length while it is sent from the disk in two pieces. -/
def mixTrace : List Act :=
  [.call 0 {}] ++ steps 0 0 6 ++ [.change (some ⟨b! "cd", 2⟩)] ++ steps 0 1 2

/-- A file that is overwritten while it is sent from the disk is sent as a mixture of both contents, with the old time. -/
theorem mixed : ∃ tr s, run { cache := 0, maxChunk := 1 } (some old) tr = some s ∧ Steady tr ∧
    DistinctTimes (history (some old) tr) ∧ Answered s 0 (.file 2 1 [some 97, some 100]) := by
  obtain ⟨s, h, ha⟩ := answered_of (show stateAfter { cache := 0, maxChunk := 1 } (some old) mixTrace =
    some [some (.done (.file 2 1 [some 97, some 100])), none, none, none] by decide +kernel)
  refine ⟨mixTrace, s, h, ?_, distinct_two old ⟨b! "cd", 2⟩ (by decide), ha 0 _ (by decide) rfl⟩
  intro i hi
  simp [mixTrace, steps] at hi

/-- The file, found at the start but not read, becomes shorter while it is read. -/
def shrinkTrace : List Act :=
  [.call 0 {}] ++ steps 0 0 2 ++ [.change (some old)] ++ steps 0 1 3 ++ [.call 1 {}] ++ steps 1 1 4

/-- With files that are found at the start, and not checked for changes: a file that becomes shorter while it is read is
    answered with an error, and from then on sent from memory that was never written. -/
theorem uninitialised_kept : ∃ tr s, run { cache := 2, scan := 1 } (some new) tr = some s ∧ Steady tr ∧
    DistinctTimes (history (some new) tr) ∧ Dated (history (some new) tr) ∧ Answered s 0 .error ∧
    Answered s 1 (.file 4 1 [none, none, none, none]) := by
  obtain ⟨s, h, ha⟩ := answered_of (show stateAfter { cache := 2, scan := 1 } (some new) shrinkTrace =
    some [some (.done .error), some (.done (.file 4 1 [none, none, none, none])), none, none] by decide +kernel)
  refine ⟨shrinkTrace, s, h, ?_, distinct_two new old (by decide), ?_, ha 0 _ (by decide) rfl, ha 1 _ (by decide) rfl⟩
  · intro i hi
    simp [shrinkTrace, steps] at hi
  · intro k v hv
    match k with
    | 0 => cases hv; decide
    | 1 => cases hv; decide
    | (k + 2) => cases hv

/-- The file becomes longer, and there is no memory to read it. -/
def failTrace : List Act :=
  [.call 0 {}] ++ steps 0 0 9 ++ [.change (some new), .call 1 {}] ++ steps 1 1 3 ++ [.fail 1, .call 2 {}] ++ steps 2 1 5

/-- If a file that became longer cannot be read again, the next request is answered from beyond the end of the old buffer. -/
theorem overrun_after_failure : ∃ tr s, run {} (some old) tr = some s ∧ DistinctTimes (history (some old) tr) ∧
    Dated (history (some old) tr) ∧ Answered s 1 .error ∧ Answered s 2 .overrun := by
  obtain ⟨s, h, ha⟩ := answered_of (show stateAfter {} (some old) failTrace =
    some [some (.done (.file 2 1 [some 97, some 98])), some (.done .error), some (.done .overrun), none] by
      decide +kernel)
  refine ⟨failTrace, s, h, distinct_two old new (by decide), ?_, ha 1 _ (by decide) rfl, ha 2 _ (by decide) rfl⟩
  intro k v hv
  match k with
  | 0 => cases hv; decide
  | 1 => cases hv; decide
  | (k + 2) => cases hv

end Verif.Props.FileThreads
