import Verif.Props.ServiceConfig
import Verif.Props.FileAnswers
import Verif.Props.BasicSession
import Verif.Props.Piond
import Verif.Spec.FileSite
/-
Facts about sites: what the calls of a configuration lead to, and the services over time.
-/
namespace Verif.FileSite
open Verif.FileService (Cfg Fs Cache)
open Verif.Spec.FileSite Verif.Spec.Dispatch Verif.Server Verif.Spec.FileService
open Verif.Config (Call)

theorem calls_append (w : World) (a b : List Call) : ∀ s : Site, s.calls w (a ++ b) = (s.calls w a).bind fun s => s.calls w b := by
  induction a with
  | nil => intro s; rfl
  | cons c a ih =>
    intro s
    show (s.call w c).bind _ = ((s.call w c).bind _).bind _
    cases s.call w c with
    | none => rfl
    | some s => exact ih s

theorem calls_snoc (w : World) (a : List Call) (c : Call) (s : Site) :
    s.calls w (a ++ [c]) = (s.calls w a).bind fun s => s.call w c := by
  rw [calls_append]
  congr 1
  funext s
  show (s.call w c).bind _ = _
  cases s.call w c <;> rfl

/-! ### The configuration file -/

theorem perform_calls {w : World} {s : Site} {q q' : Spec.Config.State} {c : Spec.Config.Cmd}
    (hq : (s.calls w q.2).isSome) (h : Spec.Config.perform (throws w s) q c = .ok q') : (s.calls w q'.2).isSome := by
  have hmake : ∀ c, Spec.Config.make (throws w s) q c = .ok q' → (s.calls w q'.2).isSome := by
    intro c h
    unfold Spec.Config.make at h
    split at h
    · cases h
    · next hn =>
      cases h
      unfold throws at hn
      show (s.calls w (q.2 ++ [c])).isSome = true
      rw [calls_snoc]
      cases h' : (s.calls w q.2).bind fun s => s.call w c with
      | none => rw [h'] at hn; exact absurd rfl hn
      | some _ => rfl
  cases c with
  | path d =>
    cases h
    show (s.calls w (q.2 ++ [_])).isSome = true
    rw [calls_snoc]
    obtain ⟨s', hs⟩ := Option.isSome_iff_exists.1 hq
    rw [hs]; rfl
  | auth k => cases h; exact hq
  | restrict r =>
    simp only [Spec.Config.perform] at h
    split at h <;> cases h
    exact hq
  | user n p =>
    simp only [Spec.Config.perform] at h
    split at h <;> cases h
    exact hq
  | service r n => exact hmake _ h
  | option r n v => exact hmake _ h

private theorem performAll_calls {w : World} {s : Site} (ls : List Bytes) : ∀ {q q' : Spec.Config.State},
    (s.calls w q.2).isSome → Spec.Config.performAll (throws w s) q ls = .ok q' → (s.calls w q'.2).isSome := by
  induction ls with
  | nil => intro q q' hq h; cases h; exact hq
  | cons l ls ih =>
    intro q q' hq h
    unfold Spec.Config.performAll at h
    split at h
    · cases h
    · exact ih hq h
    · split at h
      · cases h
      · next hp => exact ih (perform_calls hq hp) h

/-- When the file was read to its end, none of the calls has thrown. -/
theorem load_calls {w : World} {s : Site} {text : Bytes} {a : Option Config.Auth} {cs : List Call}
    (h : Config.load (throws w s) text = .finished a cs) : (s.calls w cs).isSome := by
  rw [Props.ServiceConfig.load_exact] at h
  cases hp : Spec.Config.performAll (throws w s) (none, []) (Spec.Config.lines text).1 with
  | error o =>
    rw [hp] at h
    have : ∀ (ls : List Bytes) (q : Spec.Config.State) o, Spec.Config.performAll (throws w s) q ls = .error o → ∀ a cs, o ≠ .finished a cs := by
      intro ls
      induction ls with
      | nil => intro q o h; cases h
      | cons l ls ih =>
        intro q o h a cs
        unfold Spec.Config.performAll at h
        split at h
        · cases h; simp
        · exact ih _ _ h a cs
        · split at h
          · next hc =>
            have h := Except.error.inj h
            subst h
            clear * - hc
            rename_i c _
            cases c <;> simp only [Spec.Config.perform, Spec.Config.make] at hc <;> (try split at hc) <;> cases hc <;> simp
          · exact ih _ _ h a cs
    exact absurd h (this _ _ _ hp _ _)
  | ok q =>
    rw [hp] at h
    obtain ⟨a', cs'⟩ := q
    dsimp only at h
    split at h
    · cases h
      exact performAll_calls _ (by rfl) hp
    · cases h

/-! ### What the calls make -/

theorem settings_append (w : World) (fs : Fs) (a b : List (Bytes × Bytes)) : ∀ c,
    settings w fs c (a ++ b) = (settings w fs c a).bind fun c => settings w fs c b := by
  induction a with
  | nil => intro c; rfl
  | cons o a ih =>
    intro c
    simp only [List.cons_append, settings]
    cases FileService.setOption w.number fs c o.1 o.2 with
    | ok c => exact ih c
    | thrown c => rfl

/-- The site after some calls. -/
structure Made (w : World) (fs : Fs) (cs : List Call) (s : Site) : Prop where
  same : s.fs = fs
  guard : s.guard = .open_
  sorted : SMap.Sorted s.services
  ops : s.ops = (loaded cs).map fun id => .addResource id id
  nodup : (loaded cs).Nodup
  present : ∀ id, (s.services.lookup id).isSome ↔ id ∈ loaded cs
  file : ∀ id, Loads cs id (b! "FileService") ↔ ∃ c, s.services.lookup id = some (.file c [])
  other : ∀ id p, s.services.lookup id = some (.other p) → Loads cs id p ∧ p ≠ b! "FileService"
  caches : ∀ id c m, s.services.lookup id = some (.file c m) → m = [] ∧ settings w fs (fresh w id) (optionsOf id cs) = some c
  options : ∀ id, id ∉ loaded cs → optionsOf id cs = []

private theorem loads_snoc (cs : List Call) (c : Call) (id p : Bytes) :
    Loads (cs ++ [c]) id p ↔ Loads cs id p ∨ ∃ r, noSlash r = id ∧ c = .loadService r p := by
  unfold Loads
  constructor
  · rintro ⟨r, hr, h⟩
    rcases List.mem_append.1 h with h | h
    · exact .inl ⟨r, hr, h⟩
    · exact .inr ⟨r, hr, (List.mem_singleton.1 h).symm⟩
  · rintro (⟨r, hr, h⟩ | ⟨r, hr, rfl⟩)
    · exact ⟨r, hr, List.mem_append_left _ h⟩
    · exact ⟨r, hr, List.mem_append_right _ (by simp)⟩

private theorem loads_loaded {cs : List Call} {id p : Bytes} (h : Loads cs id p) : id ∈ loaded cs := by
  obtain ⟨r, rfl, h⟩ := h
  exact List.mem_filterMap.2 ⟨_, h, rfl⟩

theorem made {w : World} {fs : Fs} (cs : List Call) : ∀ {s : Site}, ({ fs := fs } : Site).calls w cs = some s → Made w fs cs s := by
  induction cs using List.reverseRecOn with
  | nil =>
    intro s h
    cases h
    refine ⟨rfl, rfl, List.Pairwise.nil, rfl, List.nodup_nil, ?_, ?_, ?_, ?_, ?_⟩
    · intro id; simp [loaded, SMap.lookup]
    · intro id
      constructor
      · rintro ⟨r, -, h⟩; cases h
      · rintro ⟨c, h⟩; cases h
    · intro id p h; cases h
    · intro id c m h; cases h
    · intro id _; rfl
  | append_singleton cs c ih =>
    intro s' h
    rw [calls_snoc] at h
    obtain ⟨s, hs, h⟩ := Option.bind_eq_some_iff.1 h
    have M := ih hs
    cases c with
    | addDirectory d =>
      cases h
      have e1 : loaded (cs ++ [.addDirectory d]) = loaded cs := by simp [loaded]
      have e2 : ∀ id, optionsOf id (cs ++ [.addDirectory d]) = optionsOf id cs := by intro id; simp [optionsOf]
      have e3 : ∀ id p, Loads (cs ++ [.addDirectory d]) id p ↔ Loads cs id p := by
        intro id p; rw [loads_snoc]; simp
      refine ⟨M.same, M.guard, M.sorted, by rw [e1]; exact M.ops, by rw [e1]; exact M.nodup, by rw [e1]; exact M.present,
        ?_, ?_, ?_, ?_⟩
      · intro id; rw [e3]; exact M.file id
      · intro id p; rw [e3]; exact M.other id p
      · intro id; rw [e2]; exact M.caches id
      · intro id; rw [e1, e2]; exact M.options id
    | loadService r p =>
      have h : s.load w r p = some s' := h
      unfold Site.load at h
      rw [stripSlash_eq] at h
      simp only at h
      split at h
      · cases h
      next hno =>
      have hno : s.services.lookup (noSlash r) = none := by
        simp only [Bool.or_eq_true, not_or, Option.not_isSome_iff_eq_none] at hno
        exact hno.1
      have hnl : noSlash r ∉ loaded cs := fun hm => by
        have := (M.present _).2 hm
        rw [hno] at this; cases this
      have e1 : loaded (cs ++ [.loadService r p]) = loaded cs ++ [noSlash r] := by simp [loaded]
      have e2 : ∀ id, optionsOf id (cs ++ [.loadService r p]) = optionsOf id cs := by intro id; simp [optionsOf]
      have e3 : ∀ id q, Loads (cs ++ [.loadService r p]) id q ↔ Loads cs id q ∨ (noSlash r = id ∧ p = q) := by
        intro id q; rw [loads_snoc]
        refine or_congr Iff.rfl ?_
        constructor
        · rintro ⟨r', hr, h⟩; cases h; exact ⟨hr, rfl⟩
        · rintro ⟨hr, rfl⟩; exact ⟨r, hr, rfl⟩
      have hlook : ∀ id v, (s.services.insert (noSlash r) v).lookup id = if id = noSlash r then some v else s.services.lookup id := by
        intro id v
        rw [SMap.lookup_insert M.sorted]
        by_cases hid : id = noSlash r
        · subst hid; simp [hno]
        · simp [hid]
      cases h
      refine ⟨M.same, M.guard, SMap.sorted_insert M.sorted _ _, ?_, ?_, ?_, ?_, ?_, ?_, ?_⟩
      · rw [e1, List.map_append, ← M.ops]; rfl
      · rw [e1]
        exact List.nodup_append.2 ⟨M.nodup, by simp, by
          intro a ha b hb hab
          rw [List.mem_singleton.1 hb] at hab
          exact hnl (hab ▸ ha)⟩
      · intro id
        rw [e1, hlook, List.mem_append, List.mem_singleton, ← M.present]
        split
        · next h => simp [h]
        · next h => simp [h]
      · intro id
        rw [e3]
        dsimp only
        rw [hlook]
        by_cases hid : id = noSlash r
        · subst hid
          rw [if_pos rfl]
          have : ¬ Loads cs (noSlash r) (b! "FileService") := fun hl => hnl (loads_loaded hl)
          simp only [this, true_and, false_or, Option.some.injEq]
          constructor
          · rintro rfl; exact ⟨_, rfl⟩
          · rintro ⟨c, hc⟩
            by_cases hp : p = b! "FileService"
            · exact hp
            · rw [if_neg hp] at hc; cases hc
        · rw [if_neg hid, M.file]
          simp [Ne.symm hid]
      · intro id q
        rw [e3]
        dsimp only
        rw [hlook]
        by_cases hid : id = noSlash r
        · subst hid
          rw [if_pos rfl, Option.some.injEq]
          intro hq
          by_cases hp : p = b! "FileService"
          · rw [if_pos hp] at hq; cases hq
          · rw [if_neg hp] at hq; cases hq
            exact ⟨.inr ⟨rfl, rfl⟩, hp⟩
        · rw [if_neg hid]
          intro hq
          exact ⟨.inl (M.other _ _ hq).1, (M.other _ _ hq).2⟩
      · intro id c m
        rw [e2]
        dsimp only
        rw [hlook]
        by_cases hid : id = noSlash r
        · subst hid
          rw [if_pos rfl, Option.some.injEq, M.options _ hnl]
          intro hq
          by_cases hp : p = b! "FileService"
          · rw [if_pos hp] at hq; cases hq
            exact ⟨rfl, rfl⟩
          · rw [if_neg hp] at hq; cases hq
        · rw [if_neg hid]
          exact M.caches id c m
      · intro id hid
        rw [e2]
        refine M.options id fun hm => hid ?_
        rw [e1]; exact List.mem_append_left _ hm
    | setOption r n v =>
      have h : s.option w r n v = some s' := h
      unfold Site.option at h
      rw [stripSlash_eq] at h
      simp only at h
      split at h
      case h_2 => cases h
      next c0 cache0 hl =>
      split at h
      case h_2 => cases h
      next c1 hset =>
      cases h
      obtain ⟨rfl, hc0⟩ := M.caches _ _ _ hl
      have e1 : loaded (cs ++ [.setOption r n v]) = loaded cs := by simp [loaded]
      have e2 : ∀ id, optionsOf id (cs ++ [.setOption r n v]) = optionsOf id cs ++ (if noSlash r = id then [(n, v)] else []) := by
        intro id
        unfold optionsOf
        rw [List.filterMap_append]
        congr 1
        by_cases hid : noSlash r = id <;> simp [hid]
      have e3 : ∀ id p, Loads (cs ++ [.setOption r n v]) id p ↔ Loads cs id p := by
        intro id p; rw [loads_snoc]; simp
      have hlook : ∀ id v, (s.services.assign (noSlash r) v).lookup id = if id = noSlash r then some v else s.services.lookup id := by
        intro id v
        rw [SMap.lookup_assign]
        by_cases hid : id = noSlash r
        · subst hid; simp [hl]
        · simp [hid]
      refine ⟨M.same, M.guard, SMap.sorted_assign M.sorted _ _, by rw [e1]; exact M.ops, by rw [e1]; exact M.nodup, ?_, ?_, ?_, ?_, ?_⟩
      · intro id
        dsimp only
        rw [e1, hlook, ← M.present]
        split
        · next h => rw [h, hl]; simp
        · rfl
      · intro id
        rw [e3, M.file]
        dsimp only
        rw [hlook]
        by_cases hid : id = noSlash r
        · subst hid; rw [if_pos rfl, hl]; simp
        · rw [if_neg hid]
      · intro id p
        rw [e3]
        dsimp only
        rw [hlook]
        by_cases hid : id = noSlash r
        · rw [if_pos hid]; intro h; cases h
        · rw [if_neg hid]; exact M.other id p
      · intro id c m
        dsimp only
        rw [e2, hlook]
        by_cases hid : id = noSlash r
        · subst hid
          rw [if_pos rfl, if_pos rfl]
          intro h; cases h
          refine ⟨rfl, ?_⟩
          rw [settings_append, hc0]
          show settings w fs c0 [(n, v)] = _
          have := M.same
          simp only [settings]
          rw [← this, hset]
        · rw [if_neg hid, if_neg (Ne.symm hid), List.append_nil]; exact M.caches id c m
      · intro id hid
        rw [e1] at hid
        rw [e2, M.options id hid, if_neg (by
          rintro rfl
          exact hid ((M.present _).1 (by rw [hl]; rfl)))]
        rfl

/-! ### Which service gets a request -/

theorem handlers_loaded (l : List Bytes) (hl : ∀ id ∈ l, noSlash id = id) (p : Bytes) :
    handlers (l.map fun id => Op.addResource id id) p = if p ∈ l then some p else none := by
  induction l using List.reverseRecOn with
  | nil => rfl
  | append_singleton l id ih =>
    have ih := ih fun x hx => hl x (List.mem_append_left _ hx)
    have hid := hl id (by simp)
    unfold handlers at ih ⊢
    rw [List.map_append, List.foldl_append]
    simp only [List.map_cons, List.map_nil, List.foldl_cons, List.foldl_nil, handlerStep, hid, ih, List.mem_append, List.mem_singleton]
    by_cases h1 : p ∈ l
    · simp [h1]
    · by_cases h2 : p = id
      · subst h2; simp [h1]
      · simp [h1, h2]

theorem redirects_loaded (l : List Bytes) (p : Bytes) : redirects (l.map fun id => Op.addResource id id) p = none := by
  unfold redirects
  suffices h : ∀ t : Spec.Paths.Table Bytes, List.foldl redirectStep t (l.map fun id => Op.addResource id id) = t by rw [h]
  induction l with
  | nil => intro t; rfl
  | cons id l ih => intro t; exact ih t

/-! ### Starting -/

/-- The settings of a file service once it is started: keeping files in memory is turned on if a scan is to load them. -/
def running (c : Cfg) : Cfg := if c.cache = 0 ∧ 1 < c.scan then { c with cache := 1 } else c

theorem start_running {c c' : Cfg} {s s' : FileService.St} {files : List (List Bytes)} (h : FileService.start c s files = some (c', s')) :
    c' = running c ∧ s'.fs = s.fs ∧ FileService.start (running c) s files = some (running c, s') := by
  have hadd : ∀ {c : Cfg} {s s' : FileService.St} {rel path : Bytes} {b : Bool}, FileService.addEntry c s rel path b = some s' → s'.fs = s.fs := by
    intro c s s' rel path b h
    unfold FileService.addEntry at h
    simp only at h
    repeat' split at h
    all_goals (cases h; try rfl)
  have hscan : ∀ (files : List (List Bytes)) {c : Cfg} {s s' : FileService.St}, FileService.scanFiles c s files = some s' → s'.fs = s.fs := by
    intro files
    induction files with
    | nil => intro c s s' h; cases h; rfl
    | cons ns files ih =>
      intro c s s' h
      unfold FileService.scanFiles at h
      simp only at h
      split at h
      · cases h
      · next h1 => exact (ih h).trans (hadd h1)
  have key : ∀ c : Cfg, c.scan ≠ 0 → ¬ (c.cache = 0 ∧ 1 < c.scan) → ∀ {c' s'}, FileService.start c s files = some (c', s') → c' = c ∧ s'.fs = s.fs := by
    intro c h0 h1 c' s' h
    unfold FileService.start at h
    rw [if_neg h0] at h
    simp only [if_neg h1] at h
    split at h
    · cases h
    · next s1 hs1 =>
      have hfs1 : s1.fs = s.fs := by
        split at hs1
        · cases hs1; rfl
        · exact hadd hs1
      split at h
      · cases h; exact ⟨rfl, hfs1⟩
      · obtain ⟨s2, hs2, he⟩ := Option.map_eq_some_iff.1 h
        cases he
        exact ⟨rfl, (hscan _ hs2).trans hfs1⟩
  by_cases h0 : c.scan = 0
  · have hr : running c = c := by unfold running; rw [if_neg (by omega)]
    rw [hr]
    have h' := h
    unfold FileService.start at h'
    rw [if_pos h0] at h'
    cases h'
    exact ⟨rfl, rfl, h⟩
  · by_cases h1 : c.cache = 0 ∧ 1 < c.scan
    · have hr : running c = { c with cache := 1 } := by unfold running; rw [if_pos h1]
      have he : FileService.start c s files = FileService.start (running c) s files := by
        rw [hr]
        unfold FileService.start
        rw [if_neg h0, if_neg (show ¬ ({ c with cache := 1 } : Cfg).scan = 0 from h0)]
        simp only [if_pos h1]
        rw [if_neg (show ¬ ((1 : Nat) = 0 ∧ 1 < c.scan) from fun x => absurd x.1 (by decide))]
      rw [he] at h
      obtain ⟨g1, g2⟩ := key (running c) (by rw [hr]; exact h0) (by rw [hr]; exact fun x => Nat.one_ne_zero x.1) h
      exact ⟨g1, g2, by rw [← g1] at h ⊢; exact h⟩
    · have hr : running c = c := by unfold running; rw [if_neg h1]
      rw [hr]
      obtain ⟨g1, g2⟩ := key c h0 h1 h
      exact ⟨g1, g2, by rw [g1] at h; exact h⟩

theorem startAll_lookup {w : World} {fs : Fs} : ∀ {m m' : SMap Service}, startAll w fs m = some m' → ∀ id,
    m'.lookup id = (m.lookup id).bind fun v => v.start w fs := by
  intro m
  induction m with
  | nil => intro m' h id; cases h; rfl
  | cons e m ih =>
    intro m' h id
    obtain ⟨v, hv, h⟩ := Option.bind_eq_some_iff.1 h
    obtain ⟨m1, hm1, rfl⟩ := Option.map_eq_some_iff.1 h
    obtain ⟨k, x⟩ := e
    show SMap.lookup id ((k, v) :: m1) = (SMap.lookup id ((k, x) :: m)).bind _
    unfold SMap.lookup
    split
    · exact hv.symm
    · exact ih hm1 id

theorem startAll_sorted {w : World} {fs : Fs} : ∀ {m m' : SMap Service}, startAll w fs m = some m' → m'.map (·.1) = m.map (·.1) := by
  intro m
  induction m with
  | nil => intro m' h; cases h; rfl
  | cons e m ih =>
    intro m' h
    obtain ⟨v, hv, h⟩ := Option.bind_eq_some_iff.1 h
    obtain ⟨m1, hm1, rfl⟩ := Option.map_eq_some_iff.1 h
    simp only [List.map_cons, ih hm1]

/-! ### Running -/

/-- A file service of a running site: its settings never change, and it has a history. -/
theorem alive {w : World} (hw : FilesOk w) {fs : Fs} {cs : List Call} {s1 s0 : Site} {g : Guard}
    (h1 : ({ fs := fs } : Site).calls w cs = some s1) (h0 : ({ s1 with guard := g } : Site).start w = some s0)
    {past : List Fs} {s : Site} (hr : Runs w s0 past s) {id : Bytes} {c : Cfg} (hl : Loads cs id (b! "FileService"))
    (hc : settings w fs (fresh w id) (optionsOf id cs) = some c) :
    ∃ cache, s.services.lookup id = some (.file (running c) cache) ∧ Hist (running c) past { fs := s.fs, cache := cache } := by
  have M := made cs h1
  obtain ⟨m', hm', rfl⟩ := Option.map_eq_some_iff.1 h0
  induction hr with
  | started =>
    obtain ⟨c1, hl1⟩ := (M.file id).1 hl
    have hc1 : c1 = c := by
      have := (M.caches _ _ _ hl1).2
      rw [hc] at this; exact (Option.some.inj this).symm
    subst hc1
    have hk := startAll_lookup hm' id
    show ∃ cache, SMap.lookup id m' = _ ∧ _
    dsimp only at hk hm' ⊢
    rw [hl1] at hk
    simp only [Option.bind_some, Service.start] at hk
    cases hst : FileService.start c1 { fs := s1.fs, cache := [] } (w.files c1) with
    | none =>
      exfalso
      rw [hst] at hk
      have hmem : id ∈ m'.map (·.1) := by
        rw [startAll_sorted hm']
        exact List.mem_map.2 ⟨_, (SMap.lookup_eq_some M.sorted).1 hl1, rfl⟩
      obtain ⟨e, he, hid⟩ := List.mem_map.1 hmem
      exact SMap.lookup_eq_none.1 hk e he hid
    | some r =>
      rw [hst] at hk
      obtain ⟨c2, st⟩ := r
      obtain ⟨g1, g2, g3⟩ := start_running hst
      subst g1
      refine ⟨st.cache, hk, ?_⟩
      have := Hist.start (.init s1.fs) (hw c1) g3
      have g2 : st.fs = s1.fs := g2
      have he : st = { fs := s1.fs, cache := st.cache } := by rw [← g2]
      rw [← he]
      exact this
  | change fs' hr ih =>
    obtain ⟨cache, g1, g2⟩ := ih
    exact ⟨cache, g1, g2.change fs'⟩
  | @request past s now m lc hr ih =>
    obtain ⟨cache, g1, g2⟩ := ih
    unfold Site.request
    simp only
    have hstay : ∃ cache, SMap.lookup id s.services = some (.file (running c) cache) ∧ Hist (running c) (s.fs :: past) { fs := s.fs, cache := cache } :=
      ⟨cache, g1, g2.change s.fs⟩
    split
    · exact hstay
    · exact hstay
    · next id' q _ =>
      split
      · next c' cache' hl' =>
        dsimp only
        rw [SMap.lookup_assign]
        by_cases hid : id = id'
        · subst hid
          have hl2 := hl'
          rw [g1] at hl2
          cases hl2
          refine ⟨_, by rw [if_pos rfl, g1]; rfl, ?_⟩
          have hq := g2.request (FileAnswers.toReq w.auth.ord q) (now : Int)
          have he : (FileAnswers.respond w.table w.auth.ord (running c) w.byte w.diagnostic w.error { fs := s.fs, cache := cache } q lc now).2 =
              (FileService.handle (running c) { fs := s.fs, cache := cache } (FileAnswers.toReq w.auth.ord q) now).2 := by
            unfold FileAnswers.respond
            split
            next o s' heq => rw [heq]; cases o <;> rfl
          rw [he]
          exact hq
        · exact ⟨cache, by rw [if_neg hid]; exact g1, g2.change _⟩
      · exact hstay
      · exact hstay
    · exact hstay

/-- The resources never change. -/
theorem ops_stay {w : World} {s0 : Site} {past : List Fs} {s : Site} (hr : Runs w s0 past s) : s.ops = s0.ops := by
  induction hr with
  | started => rfl
  | change _ _ ih => exact ih
  | request now m lc _ ih =>
    unfold Site.request
    simp only
    repeat' split
    all_goals exact ih

/-- The authenticator has seen requests only. -/
theorem guard_stays {w : World} {s0 : Site} {past : List Fs} {s : Site} (hr : Runs w s0 past s) :
    (s0.guard = .open_ → s.guard = .open_) ∧
    ∀ created hist, s0.guard = .basic created hist → ∃ reqs : List (Nat × Msg),
      s.guard = .basic created (hist ++ reqs.map fun q => .request q.1 [] q.2) := by
  induction hr with
  | started => exact ⟨id, fun created hist h => ⟨[], by simpa using h⟩⟩
  | change _ _ ih => exact ih
  | @request past s now m lc hr ih =>
    have hg : (s.request w now m lc).2.guard = s.guard.saw now m := by
      unfold Site.request
      simp only
      repeat' split
      all_goals rfl
    rw [hg]
    refine ⟨fun h => by rw [ih.1 h]; rfl, fun created hist h => ?_⟩
    obtain ⟨reqs, hq⟩ := ih.2 _ _ h
    refine ⟨reqs ++ [(now, m)], ?_⟩
    rw [hq]
    simp [Guard.saw]

/-! ### Who passes -/
section
open Verif.Spec.Auth Verif.Auth Verif.Spec.Paths

abbrev reqEvents (reqs : List (Nat × Msg)) : List Event := reqs.map fun q => .request q.1 [] q.2

private theorem reqs_users (hist : List Event) (reqs : List (Nat × Msg)) : userOps (hist ++ reqEvents reqs) = userOps hist := by
  unfold userOps
  rw [List.filterMap_append]
  conv => rhs; rw [← List.append_nil (List.filterMap _ hist)]
  congr 1
  rw [List.filterMap_eq_nil_iff]
  intro a ha
  obtain ⟨q, -, rfl⟩ := List.mem_map.1 ha
  rfl

private theorem reqs_restricted (hist : List Event) (reqs : List (Nat × Msg)) : restricted (hist ++ reqEvents reqs) = restricted hist := by
  unfold restricted
  rw [List.filterMap_append]
  conv => rhs; rw [← List.append_nil (List.filterMap _ hist)]
  congr 1
  rw [List.filterMap_eq_nil_iff]
  intro a ha
  obtain ⟨q, -, rfl⟩ := List.mem_map.1 ha
  rfl

private theorem reqs_permitted (hist : List Event) (reqs : List (Nat × Msg)) : permitted (hist ++ reqEvents reqs) = permitted hist := by
  unfold permitted
  rw [List.filterMap_append]
  conv => rhs; rw [← List.append_nil (List.filterMap _ hist)]
  congr 1
  rw [List.filterMap_eq_nil_iff]
  intro a ha
  obtain ⟨q, -, rfl⟩ := List.mem_map.1 ha
  rfl

theorem needs_reqs (e : Env) (hist : List Event) (reqs : List (Nat × Msg)) (m : Msg) :
    Needs e (hist ++ reqEvents reqs) m ↔ Needs e hist m := by
  unfold Needs usersOf
  rw [reqs_users, reqs_restricted, reqs_permitted]

theorem correct_reqs (e : Env) (hist : List Event) (reqs : List (Nat × Msg)) (cred name : Bytes) :
    Correct e (hist ++ reqEvents reqs) cred name ↔ Correct e hist cred name := by
  unfold Correct usersOf
  rw [reqs_users]

/-- As nothing but requests has happened, what was right once is right now. -/
private theorem ok_correct {e : Env} {W : Nat → Nat → Prop} {hist : List Event} (hno : ∀ t r q, .request t r q ∉ hist)
    {h : List Event} {now : Nat} {cred name : Bytes} (hok : BasicOk e W h now cred name) :
    ∀ reqs, h = hist ++ reqEvents reqs → Correct e hist cred name := by
  induction hok with
  | correct hc =>
    rintro reqs rfl
    exact (correct_reqs ..).1 hc
  | @remembered h₁ h₂ t rand req now cred name _ _ _ _ ih =>
    intro reqs he
    -- the earlier request is one of `reqs`
    have hlen : hist.length ≤ h₁.length := by
      by_contra hlt
      have hlt : h₁.length < hist.length := by omega
      have h2 : (hist ++ reqEvents reqs)[h₁.length]? = some (.request t rand req) := by
        rw [← he]; simp
      rw [List.getElem?_append_left hlt] at h2
      exact hno _ _ _ (List.mem_of_getElem? h2)
    obtain ⟨l, rfl⟩ : hist <+: h₁ := by
      refine List.prefix_of_prefix_length_le (l₃ := hist ++ reqEvents reqs) (List.prefix_append _ _) ?_ hlen
      rw [← he]; exact List.prefix_append _ _
    rw [List.append_assoc, List.append_cancel_left_eq] at he
    refine ih (reqs.take l.length) ?_
    congr 1
    have := congrArg (List.take l.length) he
    rw [List.take_left'  rfl] at this
    exact this.trans (List.map_take ..).symm

theorem basic_pass_iff (e : Env) (created : Nat) (hist : List Event) (hno : ∀ t r q, .request t r q ∉ hist) (reqs : List (Nat × Msg))
    (now : Nat) (m : Msg) :
    (basic e now (basicAfter e created (hist ++ reqEvents reqs)) m).1.pass = true ↔
      (Needs e hist m → ∃ cred name, Presents e m cred ∧ Correct e hist cred name) := by
  constructor
  · intro hp hn
    have hn' := (needs_reqs e hist reqs m).2 hn
    cases hv : (basic e now (basicAfter e created (hist ++ reqEvents reqs)) m).1 with
    | open_ => exact absurd hn' ((Props.Auth.basic_open_iff ..).1 hv)
    | user name =>
      obtain ⟨-, cred, h1, h2⟩ := Props.Auth.basic_sound _ _ _ _ _ _ hv
      exact ⟨cred, name, h1, ok_correct hno h2 reqs rfl⟩
    | _ => rw [hv] at hp; cases hp
  · intro h
    by_cases hn : Needs e (hist ++ reqEvents reqs) m
    · obtain ⟨cred, name, h1, h2⟩ := h ((needs_reqs ..).1 hn)
      rw [Props.Auth.basic_complete e created _ now m cred name hn h1 ((correct_reqs ..).2 h2)]
      rfl
    · rw [(Props.Auth.basic_open_iff e created _ now m).2 hn]
      rfl

end

theorem told_no_requests (a : Config.Auth) : ∀ t r q, Auth.Event.request t r q ∉ told a := by
  intro t r q h
  unfold told at h
  rcases List.mem_append.1 h with h | h <;> obtain ⟨x, -, hx⟩ := List.mem_map.1 h <;> cases hx

end Verif.FileSite
