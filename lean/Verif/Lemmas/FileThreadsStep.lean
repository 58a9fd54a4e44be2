import Verif.Lemmas.FileThreadsOk
/-
Each step keeps what the entry and the calls know.
-/
namespace Verif.FileThreads
open Verif.Spec.FileThreads

theorem now_at {sh : Shared} {v : Version} (h : sh.now = some v) : At sh.hist sh.index v := by
  unfold Shared.now at h
  rw [List.getLast?_eq_getElem?] at h
  unfold At Shared.index
  cases hx : sh.hist[sh.hist.length - 1]? with
  | none => rw [hx] at h; cases h
  | some o => rw [hx] at h; simp only [Option.join_some] at h; rw [h]

theorem now_none {sh : Shared} (h : sh.now = none) (p : Nat) : byteAt sh.hist sh.index p = none := by
  unfold Shared.now at h
  rw [List.getLast?_eq_getElem?] at h
  unfold byteAt Shared.index
  rw [h]; rfl

theorem index_lt {sh : Shared} (h : sh.hist ≠ []) : sh.index < sh.hist.length := by
  have := List.length_pos_iff.2 h
  unfold Shared.index; omega

theorem validPick_iff {hist : Hist} {o pos n : Nat} {pick : Nat → Nat} (h : validPick hist o pos n pick = true) {p : Nat}
    (h1 : pos ≤ p) (h2 : p < pos + n) : o ≤ pick p ∧ pick p < hist.length := by
  unfold validPick at h
  rw [List.all_eq_true] at h
  simpa using h p (by simp [List.mem_range'_1]; omega)

theorem mapM_some {α β : Type} {f : α → Option β} {l : List α} {r : List β} (h : l.mapM f = some r) :
    r.length = l.length ∧ ∀ (q : Nat) y, r[q]? = some y → ∃ a, l[q]? = some a ∧ f a = some y := by
  induction l generalizing r with
  | nil => cases h; simp
  | cons a l ih =>
    simp only [List.mapM_cons] at h
    cases ha : f a with
    | none => simp [ha] at h
    | some y =>
      cases hr : l.mapM f with
      | none => simp [ha, hr] at h
      | some r' =>
        simp [ha, hr] at h
        subst h
        obtain ⟨h1, h2⟩ := ih hr
        refine ⟨by simp [h1], fun q z hz => ?_⟩
        cases q with
        | zero => simp at hz; exact ⟨a, by simp, by rw [ha, hz]⟩
        | succ q => simpa using h2 q z (by simpa using hz)

theorem mapM_none {α β : Type} {f : α → Option β} {l : List α} (h : l.mapM f = none) : ∃ a ∈ l, f a = none := by
  induction l with
  | nil => cases h
  | cons a l ih =>
    simp only [List.mapM_cons] at h
    cases ha : f a with
    | none => exact ⟨a, by simp, ha⟩
    | some y =>
      cases hr : l.mapM f with
      | none => obtain ⟨b, hb, hf⟩ := ih hr; exact ⟨b, by simp [hb], hf⟩
      | some r' => simp [ha, hr] at h

theorem byteAt_some {h : Hist} {k p : Nat} {y : UInt8} (a : byteAt h k p = some y) :
    ∃ v, At h k v ∧ v.content[p]? = some y := by
  unfold byteAt at a
  cases hk : h[k]? with
  | none => rw [hk] at a; cases a
  | some o =>
    cases o with
    | none => rw [hk] at a; cases a
    | some v => rw [hk] at a; exact ⟨v, hk, a⟩

theorem readBytes_some {h : Hist} {o pos n : Nat} {pick : Nat → Nat} {bs : Bytes} (hv : validPick h o pos n pick = true)
    (hr : readBytes h pos n pick = some bs) :
    bs.length = n ∧ ∀ (q : Nat) y, bs[q]? = some y → ∃ k v, o ≤ k ∧ At h k v ∧ v.content[pos + q]? = some y := by
  obtain ⟨h1, h2⟩ := mapM_some hr
  rw [List.length_range'] at h1
  refine ⟨h1, fun q y hy => ?_⟩
  obtain ⟨a, ha, hf⟩ := h2 q y hy
  have hq : q < n := by rw [← h1]; exact (List.getElem?_eq_some_iff.1 hy).1
  rw [List.getElem?_range' hq] at ha
  simp only [Nat.one_mul, Option.some.injEq] at ha
  subst ha
  obtain ⟨v, hv1, hv2⟩ := byteAt_some hf
  exact ⟨_, v, (validPick_iff hv (by omega) (by omega)).1, hv1, hv2⟩

theorem readBytes_none {h : Hist} {o n j : Nat} {pick : Nat → Nat} (hv : validPick h o 0 n pick = true) (hj : j ≤ o)
    (hr : readBytes h 0 n pick = none) : Short h j n := by
  obtain ⟨a, ha, hf⟩ := mapM_none hr
  rw [List.mem_range'_1] at ha
  obtain ⟨h1, h2⟩ := validPick_iff hv ha.1 ha.2
  exact ⟨pick a, a, by omega, h2, by omega, hf⟩

theorem from_map {h : Hist} {o j : Nat} {bs : Bytes} (hj : j ≤ o)
    (hb : ∀ (q : Nat) y, bs[q]? = some y → ∃ k v, o ≤ k ∧ At h k v ∧ v.content[0 + q]? = some y) : From h j (bs.map some) := by
  intro p x hx
  rw [List.getElem?_map] at hx
  cases hy : bs[p]? with
  | none => rw [hy] at hx; cases hx
  | some y =>
    rw [hy] at hx; cases hx
    obtain ⟨k, v, h1, h2, h3⟩ := hb p y hy
    exact ⟨k, v, y, by omega, h2, rfl, by simpa using h3⟩

theorem from_append {h : Hist} {l : Nat} {a b : List (Option UInt8)} (ha : From h l a)
    (hb : ∀ (q : Nat) x, b[q]? = some x → ∃ k v y, l ≤ k ∧ At h k v ∧ x = some y ∧ v.content[a.length + q]? = some y) :
    From h l (a ++ b) := by
  intro p x hx
  by_cases hp : p < a.length
  · rw [List.getElem?_append_left hp] at hx; exact ha p x hx
  · rw [List.getElem?_append_right (by omega)] at hx
    obtain ⟨k, v, y, h1, h2, h3, h4⟩ := hb _ x hx
    exact ⟨k, v, y, h1, h2, h3, by rwa [show a.length + (p - a.length) = p by omega] at h4⟩

/-- The histories that are looked at. -/
def Good (cfg : Cfg) (h : Hist) : Prop := (cfg.cache < 2 → DistinctTimes h) ∧ (2 ≤ cfg.cache → Dated h)

theorem Known.within {h : Hist} {l j : Nat} {d : Disk} (a : Known h l j d) : TimeWithin h l (h.length - 1) d.time := by
  obtain ⟨i, v, w, h1, h2, _, _, h5, h6⟩ := a
  have := h5.lt
  exact ⟨j, w, by omega, by omega, h5, h6⟩

theorem respond_ok {cfg : Cfg} {h : Hist} {heap : Heap} {entry : Option Disk} {c : Call} {d : Disk} {pc : Pc} {j : Nat}
    (hk : Known h (lo cfg c) j d) (hp : PcOk cfg h heap entry { c with file := d, pc := respond c.req d pc } pc) :
    PcOk cfg h heap entry { c with file := d, pc := respond c.req d pc } (respond c.req d pc) := by
  by_cases h1 : c.req.since = some d.time
  · have hr : respond c.req d pc = .done (.notModified d.time) := by simp [respond, h1]
    rw [hr]; exact ⟨h1, hk.within⟩
  · by_cases h2 : c.req.head = true
    · have hr : respond c.req d pc = .done (.headers d.time) := by simp [respond, h1, h2]
      rw [hr]; exact hk.within
    · have hr : respond c.req d pc = pc := by simp [respond, h1, h2]
      rw [hr] at hp ⊢; exact hp

theorem from_nil (h : Hist) (l : Nat) : From h l [] := fun p x hx => by simp at hx

theorem full_none (h : Hist) (heap : Heap) (j : Nat) (d : Disk) (hb : d.buf = none) : Full h heap j d :=
  fun b h => by rw [hb] at h; cases h

theorem known_buf {h : Hist} {l j : Nat} {d : Disk} (b : Option Nat) (a : Known h l j d) : Known h l j { d with buf := b } := a

theorem entryOk_reset {cfg : Cfg} {h : Hist} {heap : Heap} {e : Disk} (a : EntryOk cfg h heap e) :
    EntryOk cfg h heap { e with buf := none } := by
  refine ⟨fun hc ht => ?_, fun hc => ?_⟩
  · obtain ⟨j, hj, _⟩ := a.1 hc ht
    exact ⟨j, hj, .inl (full_none _ _ _ _ rfl)⟩
  · obtain ⟨ht, j, hj, _⟩ := a.2 hc
    exact ⟨ht, j, hj, full_none _ _ _ _ rfl⟩

theorem ext_refl (h : Hist) : ∃ t, h = h ++ t := ⟨[], by simp⟩

theorem gone_now {sh : Shared} (h0 : sh.hist ≠ []) (h : sh.now = none) {l : Nat} (hl : l ≤ sh.index) :
    GoneWithin sh.hist l (sh.hist.length - 1) := by
  unfold Shared.now at h
  rw [List.getLast?_eq_getElem?] at h
  have hlt := index_lt h0
  refine ⟨sh.index, hl, Nat.le_refl _, ?_⟩
  unfold Shared.index at hlt ⊢
  rw [List.getElem?_eq_getElem hlt] at h ⊢
  simp only [Option.join_some] at h
  rw [h]

theorem trouble_read {h : Hist} {l j o pos n : Nat} {d : Disk} {pick : Nat → Nat} (hk : Known h l j d)
    (hlo : l ≤ o) (hn : pos + n ≤ d.size) (hv : validPick h o pos n pick = true)
    (hr : readBytes h pos n pick = none) : Trouble h l := by
  obtain ⟨a, ha, hf⟩ := mapM_none hr
  rw [List.mem_range'_1] at ha
  obtain ⟨h1, h2⟩ := validPick_iff hv ha.1 ha.2
  obtain ⟨i, v, w, q1, q2, q3, q4, _, _⟩ := hk
  have hil := q3.lt
  cases hx : h[pick a]? with
  | none => rw [List.getElem?_eq_none_iff] at hx; omega
  | some x =>
    cases x with
    | none => exact .inl ⟨pick a, by omega, by omega, hx⟩
    | some u =>
      right
      refine ⟨i, pick a, v, u, q1, by omega, by omega, by omega, q3, hx, ?_⟩
      rw [byteAt, hx] at hf
      simp only [Option.join_some, Option.bind_some, List.getElem?_eq_none_iff] at hf
      omega

/-- What is to be shown of a step: the call is still fine, and the entry if it is not being read. -/
def After (cfg : Cfg) (i : Nat) (sh' : Shared) (c' : Call) : Prop :=
  CallOk cfg sh'.hist sh'.heap sh'.entry c' ∧
  ((sh'.lock = none ∨ sh'.lock = some i) → loading c'.pc = false → ∀ e, sh'.entry = some e →
    EntryOk cfg sh'.hist sh'.heap e)

theorem own_ok {cfg : Cfg} {s : St} {i : Nat} {c c' : Call} {sh' : Shared} (hi : Inv1 s) (hc : s.calls i = some c)
    (hg : Good cfg s.sh.hist) (hok : CallOk cfg s.sh.hist s.sh.heap s.sh.entry c)
    (hE : (s.sh.lock = none ∨ s.sh.lock = some i) → loading c.pc = false → ∀ e, s.sh.entry = some e →
      EntryOk cfg s.sh.hist s.sh.heap e)
    (h : Own cfg i s.sh c sh' c') : After cfg i sh' c' := by
  have hcame := hok.1
  have hidx := index_lt hi.ne
  have hci : c.came ≤ s.sh.index := by unfold Shared.index; omega
  have hpc := hok.2
  have g2 := hi.lockOf i c hc
  have hlo := lo_le cfg c
  cases h
  case lookOff hp _ _ => exact ⟨⟨hcame, trivial⟩, fun hl _ => hE hl (by rw [hp]; rfl)⟩
  case lookNone hp _ _ hq =>
    refine ⟨⟨hcame, ?_⟩, fun hl _ => hE hl (by rw [hp]; rfl)⟩
    rcases hq with ⟨rfl, hq⟩ | rfl
    · exact .inl hq
    · trivial
  case lookPlain e hp hl _ h0 =>
    exact ⟨⟨hcame, by simp [PcOk]⟩, fun _ _ => hE (.inl hl) (by rw [hp]; rfl)⟩
  case lookFirst e hp hl he h0 ht =>
    have hE := hE (.inl hl) (by rw [hp]; rfl)
    refine ⟨⟨hcame, ?_⟩, fun _ _ => hE⟩
    have hc2 : cfg.cache < 2 := by
      by_contra hc2
      exact ((hE e he).2 (by omega)).1 ht
    refine ⟨fun _ => hc2, fun e' he' => ⟨fun _ => ?_, fun h => (by cases h)⟩⟩
    rw [he] at he'; cases he'; exact ht
  case lookCheck e hp hl he h0 ht =>
    refine ⟨⟨hcame, fun _ => by omega, fun e' he' => ⟨fun h => (by cases h), fun _ => ?_⟩⟩, fun _ _ => hE (.inl hl) (by rw [hp]; rfl)⟩
    rw [he] at he'; cases he'; exact ht
  case lookKeep e hp hl he h0 ht =>
    have hE := hE (.inl hl) (by rw [hp]; rfl)
    refine ⟨⟨hcame, fun e' he' => ?_⟩, fun _ _ => hE⟩
    have : lo cfg { c with pc := .copy false } = 0 := by simp [lo]; omega
    rw [this]; exact ((hE e' he').2 h0).2
  case throwSize u hp hn =>
    have hld : loading c.pc = false := by rw [hp]; rfl
    have htr : Trouble s.sh.hist (lo cfg c) := .inl (gone_now hi.ne hn (Nat.le_trans hlo hci))
    by_cases hu : u = .own
    · subst hu; exact ⟨⟨hcame, htr⟩, fun hl _ => hE hl hld⟩
    · simp only [throw, if_neg hu]
      exact ⟨⟨hcame, htr⟩, fun _ _ => hE (.inr (g2 (by rw [hp]; simp [holds, hu])).1) hld⟩
  case throwTime u n hp hn =>
    have hld : loading c.pc = false := by rw [hp]; rfl
    have htr : Trouble s.sh.hist (lo cfg c) := .inl (gone_now hi.ne hn (Nat.le_trans hlo hci))
    by_cases hu : u = .own
    · subst hu; exact ⟨⟨hcame, htr⟩, fun hl _ => hE hl hld⟩
    · simp only [throw, if_neg hu]
      exact ⟨⟨hcame, htr⟩, fun _ _ => hE (.inr (g2 (by rw [hp]; simp [holds, hu])).1) hld⟩
  case sizeFirst v e hp hv he =>
    rw [hp] at hpc
    obtain ⟨hc2, ht⟩ := hpc
    refine ⟨⟨hcame, hc2, s.sh.index, v, hci, now_at hv, rfl, fun e' he' => ?_⟩, fun _ _ e' he' => ?_⟩
    · cases he'; exact ⟨fun _ => rfl, fun h => (by cases h)⟩
    · cases he'
      exact ⟨fun _ h => absurd ((ht e he).1 rfl) h, fun h => absurd (hc2 (.inl rfl)) (by omega)⟩
  case size u v hp hu hv =>
    rw [hp] at hpc
    obtain ⟨hc2, ht⟩ := hpc
    refine ⟨⟨hcame, hc2, s.sh.index, v, hci, now_at hv, rfl, fun e' he' => ⟨fun h => absurd h hu, fun h => ?_⟩⟩,
      fun hl _ => hE hl (by rw [hp]; rfl)⟩
    subst h
    have hl := (g2 (by rw [hp]; rfl)).1
    obtain ⟨j, hj⟩ := (hE (.inr hl) (by rw [hp]; rfl) e' he').1 (hc2 (.inr rfl)) ((ht e' he').2 rfl)
    have := hj.1.lt
    exact ⟨j, by unfold Shared.index; omega, hj⟩
  case timeFirst n v e hp hv he =>
    rw [hp] at hpc
    obtain ⟨hc2, k, w, hk1, hk2, hk3, hk4⟩ := hpc
    refine ⟨⟨hcame, hc2 (.inl rfl), fun e' he' => ?_⟩, fun _ h => absurd h (by simp [loading])⟩
    cases he'
    have := hk2.lt
    exact ⟨s.sh.index, k, w, v, hk1, by unfold Shared.index; omega, hk2, by rw [hk3]; exact ((hk4 e he).1 rfl).symm, now_at hv, rfl⟩
  case timeBig n v e hp hv he =>
    rw [hp] at hpc
    obtain ⟨hc2, k, w, hk1, hk2, hk3, hk4⟩ := hpc
    have := hk2.lt
    have hkn : Known s.sh.hist c.came s.sh.index { e with time := v.time, buf := none } :=
      ⟨k, w, v, hk1, by unfold Shared.index; omega, hk2, by rw [hk3]; exact ((hk4 e he).1 rfl).symm, now_at hv, rfl⟩
    refine ⟨⟨hcame, fun e' he' => ?_⟩, fun _ _ e' he' => ?_⟩
    · cases he'
      exact ⟨_, hkn.mono hlo, full_none _ _ _ _ rfl⟩
    · cases he'
      refine ⟨fun _ _ => ⟨_, hkn.mono (Nat.zero_le _), .inl (full_none _ _ _ _ rfl)⟩, fun h => absurd (hc2 (.inl rfl)) (by omega)⟩
  case same n v e hp hv he ht hn =>
    rw [hp] at hpc
    obtain ⟨hc2, k, w, hk1, hk2, hk3, hk4⟩ := hpc
    refine ⟨⟨hcame, fun e' he' => ?_⟩, fun hl _ => hE hl (by rw [hp]; rfl)⟩
    rw [he] at he'; cases he'
    obtain ⟨j, hjk, ⟨i', v', w', h1, h2, h3, h4, h5, h6⟩, hf⟩ := (hk4 e he).2 rfl
    have hd := hg.1 (hc2 (.inr rfl))
    have hj := hd j s.sh.index w' v h5 (now_at hv) (by rw [h6, ht])
    have hkl := hk2.lt
    have hkj : k = j := by unfold Shared.index at hj; omega
    subst hkj
    have hwv : w = v := by
      have h := now_at hv; rw [← hj] at h
      rw [At] at hk2 h; rw [hk2] at h; simpa using h
    refine ⟨k, ⟨k, w, w', by simp only [lo] at hlo ⊢; omega, Nat.le_refl _, hk2, by rw [hk3, hn], h5, h6⟩, ?_⟩
    rcases hf with hf | ⟨k', p, q1, q2, q3, q4⟩
    · exact hf
    · exfalso
      have : k' = k := by unfold Shared.index at hj; omega
      subst this
      rw [byteAt, show s.sh.hist[k']? = some (some w) from hk2] at q4
      simp only [Option.join_some, Option.bind_some, List.getElem?_eq_none_iff] at q4
      omega
  case differs n v e hp hv he =>
    rw [hp] at hpc
    obtain ⟨hc2, k, w, hk1, hk2, hk3, hk4⟩ := hpc
    refine ⟨⟨hcame, hc2 (.inr rfl), fun e' he' => ?_⟩, fun _ h => absurd h (by simp [loading])⟩
    cases he'
    have := hk2.lt
    exact ⟨s.sh.index, k, w, v, hk1, by unfold Shared.index; omega, hk2, hk3, now_at hv, rfl⟩
  case timePlain n v hp hv =>
    rw [hp] at hpc
    obtain ⟨hc2, k, w, hk1, hk2, hk3, hk4⟩ := hpc
    have := hk2.lt
    have hkn : Known s.sh.hist c.came s.sh.index { size := n, time := v.time } :=
      ⟨k, w, v, hk1, by unfold Shared.index; omega, hk2, hk3, now_at hv, rfl⟩
    refine ⟨⟨hcame, respond_ok (hkn.mono hlo) ?_⟩, fun _ _ => hE (.inr (g2 (by rw [hp]; rfl)).1) (by rw [hp]; rfl)⟩
    exact ⟨⟨_, hkn.mono hlo, full_none _ _ _ _ rfl⟩, Nat.zero_le _, from_nil _ _, fun _ h => by cases h⟩
  case timeOwn n v pc' hp hv hq =>
    rw [hp] at hpc
    obtain ⟨hc2, k, w, hk1, hk2, hk3, hk4⟩ := hpc
    have := hk2.lt
    have hkn : Known s.sh.hist c.came s.sh.index { size := n, time := v.time } :=
      ⟨k, w, v, hk1, by unfold Shared.index; omega, hk2, hk3, now_at hv, rfl⟩
    refine ⟨⟨hcame, respond_ok (hkn.mono hlo) ?_⟩, fun hl _ => hE hl (by rw [hp]; rfl)⟩
    rcases hq with rfl | rfl | rfl
    · exact ⟨_, hkn⟩
    · exact ⟨_, hkn, full_none _ _ _ _ rfl⟩
    · exact ⟨⟨_, hkn.mono hlo, full_none _ _ _ _ rfl⟩, Nat.zero_le _, from_nil _ _, fun _ h => by cases h⟩
  case openOwn v hp hv =>
    rw [hp] at hpc
    obtain ⟨j, hj⟩ := hpc
    have := hj.lt
    refine ⟨⟨hcame, hidx, j, by unfold Shared.index; omega, hj⟩, fun hl _ e he => ?_⟩
    exact (hE hl (by rw [hp]; rfl) e he).frame (ext_refl _) (keep_append _ _ _)
  case openOwnThrow hp hv =>
    refine ⟨⟨hcame, .inl (gone_now hi.ne hv (Nat.le_trans hlo hci))⟩, fun hl _ e he => ?_⟩
    exact (hE hl (by rw [hp]; rfl) e he).frame (ext_refl _) (keep_append _ _ _)
  case openEntry u v e hp hu hv he =>
    rw [hp] at hpc
    simp only [PcOk, if_neg hu] at hpc
    refine ⟨⟨hcame, hidx, ?_⟩, fun _ h => absurd h (by simp [loading, hu])⟩
    rw [if_neg hu]
    refine ⟨hpc.1, fun e' he' => ?_⟩
    cases he'
    obtain ⟨j, hj⟩ := hpc.2 e he
    have := hj.lt
    exact ⟨j, by unfold Shared.index; omega, hj⟩
  case openEntryThrow u e hp hu hv he =>
    rw [hp] at hpc
    simp only [PcOk, if_neg hu] at hpc
    obtain ⟨j, hj⟩ := hpc.2 e he
    have hjl := hj.lt
    refine ⟨⟨hcame, .inl (gone_now hi.ne hv (Nat.le_trans hlo hci))⟩, fun _ _ e' he' => ?_⟩
    cases he'
    refine ⟨fun _ _ => ⟨j, hj.mono (Nat.zero_le _), ?_⟩, fun h => absurd hpc.1 (by omega)⟩
    by_cases h0 : e.size = 0
    · left
      intro b hb
      cases hb
      exact ⟨[], by simp [h0], by simp [h0], from_nil _ _⟩
    · right
      exact ⟨s.sh.index, 0, by unfold Shared.index; omega, hidx, by show 0 < e.size; omega, now_none hv 0⟩
  case fillOwn o pick bs hp hv hr =>
    rw [hp] at hpc
    obtain ⟨ho, j, hjo, hj⟩ := hpc
    obtain ⟨b, hb, hbe, _⟩ := hi.ownFill i c hc (by rw [hp]; rfl)
    have hbl := hi.refC i c b hc hb
    obtain ⟨hr1, hr2⟩ := readBytes_some hv hr
    refine ⟨⟨hcame, j, hj, ?_⟩, fun hl _ e he => ?_⟩
    · intro b' hb'
      rw [show c.file.buf = some b' from hb'] at hb ⊢
      cases hb
      exact ⟨_, by simp [hbl], by simp [hr1], from_map hjo hr2⟩
    · refine (hE hl (by rw [hp]; rfl) e he).frame (ext_refl _) ?_
      rw [hb]; exact keep_set (hbe e he)
  case fillOwnThrow o pick hp hv hr =>
    rw [hp] at hpc
    obtain ⟨ho, j, hjo, hj⟩ := hpc
    have hle : lo cfg c ≤ o := by obtain ⟨_, _, _, _, _, _⟩ := hj; omega
    exact ⟨⟨hcame, trouble_read (hj.mono hlo) hle (by omega) hv hr⟩, fun hl _ => hE hl (by rw [hp]; rfl)⟩
  case fillEntry u o pick bs e hp hu he hv hr =>
    rw [hp] at hpc
    simp only [PcOk, if_neg hu] at hpc
    obtain ⟨ho, hc2, hpc⟩ := hpc
    obtain ⟨j, hjo, hj⟩ := hpc e he
    obtain ⟨e', b, he', hb, _⟩ := hi.entryFill i c hc (by rw [hp]; simp [fillsEntry, hu])
    rw [he] at he'; cases he'
    have hbl := hi.refE e b he hb
    obtain ⟨hr1, hr2⟩ := readBytes_some hv hr
    have hf : Full s.sh.hist (s.sh.heap.set (e.buf.getD 0) (bs.map some)) j e := by
      intro b' hb'
      rw [hb] at hb' ⊢
      cases hb'
      exact ⟨_, by simp [hbl], by simp [hr1], from_map hjo hr2⟩
    refine ⟨⟨hcame, fun e' he' => ?_⟩, fun _ _ e' he' => ?_⟩
    · have : e' = e := by rw [show s.sh.entry = some e' from he'] at he; simpa using he
      subst this
      exact ⟨j, hj.mono hlo, hf⟩
    · have : e' = e := by rw [show s.sh.entry = some e' from he'] at he; simpa using he
      subst this
      exact ⟨fun _ _ => ⟨j, hj.mono (Nat.zero_le _), .inl hf⟩, fun h => absurd hc2 (by omega)⟩
  case fillEntryThrow u o pick e hp hu he hv hr =>
    rw [hp] at hpc
    simp only [PcOk, if_neg hu] at hpc
    obtain ⟨ho, hc2, hpc⟩ := hpc
    obtain ⟨j, hjo, hj⟩ := hpc e he
    have hle : lo cfg c ≤ o := by obtain ⟨_, _, _, _, _, _⟩ := hj; omega
    refine ⟨⟨hcame, trouble_read (hj.mono hlo) hle (by omega) hv hr⟩, fun _ _ e' he' => ?_⟩
    have : e' = e := by rw [show s.sh.entry = some e' from he'] at he; simpa using he
    subst this
    exact ⟨fun _ _ => ⟨j, hj.mono (Nat.zero_le _), .inr (readBytes_none hv hjo hr)⟩, fun h => absurd hc2 (by omega)⟩
  case copy upd e e' hp he hq =>
    rw [hp] at hpc
    obtain ⟨j, hj, hf⟩ := hpc e he
    refine ⟨⟨hcame, respond_ok hj ?_⟩, fun _ _ e'' he'' => ?_⟩
    · exact ⟨⟨j, hj, hf⟩, Nat.zero_le _, from_nil _ _, fun _ h => by cases h⟩
    · cases he''
      have hE := hE (.inr (g2 (by rw [hp]; rfl)).1) (by rw [hp]; rfl) e he
      rcases hq with rfl | rfl
      · exact hE
      · exact entryOk_reset hE
  case existNone hp hn => exact ⟨⟨hcame, .inr (gone_now hi.ne hn (Nat.le_trans hlo hci))⟩, fun hl _ => hE hl (by rw [hp]; rfl)⟩
  case exist v hp _ => exact ⟨⟨hcame, by simp [PcOk]⟩, fun hl _ => hE hl (by rw [hp]; rfl)⟩
  case insertNew hp hl he =>
    rw [hp] at hpc
    refine ⟨⟨hcame, Serve.mono hlo hpc, Nat.zero_le _, from_nil _ _, fun _ h => by cases h⟩, fun _ _ e he' => ?_⟩
    cases he'
    obtain ⟨j, hj, hf⟩ := hpc
    refine ⟨fun _ _ => ⟨j, hj.mono (Nat.zero_le _), .inl hf⟩, fun h2 => ⟨?_, j, hj.mono (Nat.zero_le _), hf⟩⟩
    obtain ⟨_, _, w, _, _, _, _, h5, h6⟩ := hj
    rw [← h6]; exact hg.2 h2 j w h5
  case insertOld e hp hl he =>
    rw [hp] at hpc
    exact ⟨⟨hcame, Serve.mono hlo hpc, Nat.zero_le _, from_nil _ _, fun _ h => by cases h⟩,
      fun _ _ => hE (.inl hl) (by rw [hp]; rfl)⟩
  case sent sent op hp hsz =>
    rw [hp] at hpc
    obtain ⟨⟨j, hj, hf⟩, h1, h2, h3⟩ := hpc
    refine ⟨⟨hcame, ?_⟩, fun hl _ => hE hl (by rw [hp]; rfl)⟩
    have hw := hj.within
    obtain ⟨i', v, w, q1, q2, q3, q4, q5, q6⟩ := hj
    have := q3.lt
    refine ⟨⟨i', v, q1, by omega, q3, q4⟩, hw, by omega, fun p x hx => ?_⟩
    obtain ⟨k, v, y, r1, r2, r3, r4⟩ := h2 p x hx
    have := r2.lt
    exact ⟨k, v, r1, by omega, r2, y, r3, r4⟩
  case overrun sent op b n hp hlt hb hn ho =>
    rw [hp] at hpc
    obtain ⟨⟨j, hj, hf⟩, h1, h2, h3⟩ := hpc
    obtain ⟨bs, q1, q2, q3⟩ := hf b hb
    rw [List.getD_eq_getElem?_getD, q1, Option.getD_some] at ho
    omega
  case sendBuf sent op b n hp hlt hb hn ho =>
    rw [hp] at hpc
    obtain ⟨hs, h1, h2, h3⟩ := hpc
    obtain ⟨j, hj, hf⟩ := id hs
    obtain ⟨bs, q1, q2, q3⟩ := hf b hb
    have hlj : lo cfg c ≤ j := by obtain ⟨_, _, _, _, _, _⟩ := hj; omega
    rw [List.getD_eq_getElem?_getD, q1, Option.getD_some] at ho ⊢
    refine ⟨⟨hcame, hs, ?_, from_append h2 ?_, fun _ h => by cases h⟩, fun hl _ => hE hl (by rw [hp]; rfl)⟩
    · simp; omega
    · intro q x hx
      have hq : (bs)[sent.length + q]? = some x := by
        rw [List.getElem?_take] at hx
        split at hx
        · rwa [List.getElem?_drop] at hx
        · cases hx
      obtain ⟨k, v, y, r1, r2, r3, r4⟩ := q3 _ x hq
      exact ⟨k, v, y, Nat.le_trans hlj r1, r2, r3, r4⟩
  case gaveUp sent hp hn =>
    exact ⟨⟨hcame, .inl (gone_now hi.ne hn (Nat.le_trans hlo hci))⟩, fun hl _ => hE hl (by rw [hp]; rfl)⟩
  case gaveUpRead sent o n pick hp hlt hn hv hr =>
    rw [hp] at hpc
    obtain ⟨⟨j, hj, hf⟩, h1, h2, h3⟩ := hpc
    exact ⟨⟨hcame, trouble_read hj (h3 o rfl) (by omega) hv hr⟩, fun hl _ => hE hl (by rw [hp]; rfl)⟩
  case sendOpen sent v hp hv hb hlt =>
    rw [hp] at hpc
    obtain ⟨hs, h1, h2, h3⟩ := hpc
    refine ⟨⟨hcame, hs, h1, h2, fun o ho => ?_⟩, fun hl _ => hE hl (by rw [hp]; rfl)⟩
    cases ho; exact Nat.le_trans hlo hci
  case sendDisk sent o n pick bs hp hlt hb hn hv hr =>
    rw [hp] at hpc
    obtain ⟨hs, h1, h2, h3⟩ := hpc
    obtain ⟨hr1, hr2⟩ := readBytes_some hv hr
    refine ⟨⟨hcame, hs, ?_, from_append h2 ?_, h3⟩, fun hl _ => hE hl (by rw [hp]; rfl)⟩
    · simp; omega
    · intro q x hx
      rw [List.getElem?_map] at hx
      cases hy : bs[q]? with
      | none => rw [hy] at hx; cases hx
      | some y =>
        rw [hy] at hx; cases hx
        obtain ⟨k, v, r1, r2, r3⟩ := hr2 q y hy
        exact ⟨k, v, y, Nat.le_trans (h3 o rfl) r1, r2, rfl, r3⟩

/-! ### In each run -/

structure Inv2 (cfg : Cfg) (s : St) : Prop where
  calls : ∀ i c, s.calls i = some c → CallOk cfg s.sh.hist s.sh.heap s.sh.entry c
  entry : (∀ i c, s.calls i = some c → loading c.pc = false) → ∀ e, s.sh.entry = some e →
    EntryOk cfg s.sh.hist s.sh.heap e

theorem quiet {s : St} (hi : Inv1 s) {i : Nat} {c : Call} (hc : s.calls i = some c)
    (hl : s.sh.lock = none ∨ s.sh.lock = some i) (hld : loading c.pc = false) :
    ∀ k d, s.calls k = some d → loading d.pc = false := by
  intro k d hk
  by_contra hx
  have hx : loading d.pc = true := by simpa using hx
  have := (hi.lockOf k d hk (loading_holds hx)).1
  rw [this] at hl
  rcases hl with hl | hl
  · cases hl
  · cases hl; rw [hc] at hk; cases hk; rw [hld] at hx; cases hx

theorem inv2_eff {cfg : Cfg} {s : St} {i : Nat} {c c' : Call} {sh' : Shared} (hi : Inv1 s) (h2 : Inv2 cfg s)
    (hc : s.calls i = some c) (he : Eff i s.sh c sh' c') (ha : After cfg i sh' c') : Inv2 cfg (s.set i (sh', c')) := by
  have hx : ∃ t, sh'.hist = s.sh.hist ++ t := ⟨[], by simp [he.hist_]⟩
  have keepEntry : fillsEntry c.pc = false → ∀ e, s.sh.entry = some e → Keep s.sh.heap sh'.heap e := by
    intro hf e hee b hb bs hbs
    rcases he.heap_ b bs hbs with h | ⟨h, h'⟩ | ⟨h, _⟩
    · exact h
    · obtain ⟨b', q1, q2, _⟩ := hi.ownFill i c hc h
      rw [h'] at q1; cases q1
      exact absurd hb (q2 e hee)
    · rw [hf] at h; cases h
  constructor
  · intro k d hk
    by_cases hki : k = i
    · subst hki; rw [set_self] at hk; cases hk; exact ha.1
    · rw [set_other s hki] at hk
      refine (h2.calls k d hk).frame hx ?_ ?_
      · intro b hb bs hbs
        rcases he.heap_ b bs hbs with h | ⟨h, h'⟩ | ⟨h, e, h', h''⟩
        · exact h
        · obtain ⟨b', q1, _, q2⟩ := hi.ownFill i c hc h
          rw [h'] at q1; cases q1
          exact absurd hb (q2 k d hki hk)
        · obtain ⟨e', b', q1, q2, q3⟩ := hi.entryFill i c hc h
          rw [h'] at q1; cases q1
          rw [h''] at q2; cases q2
          exact absurd hb (q3 k d hk)
      · intro hh
        have hl := (hi.lockOf k d hk hh).1
        refine ⟨he.entry_ k hki hl, keepEntry ?_⟩
        by_contra hf
        have := (hi.lockOf i c hc (fillsEntry_holds (by simpa using hf))).1
        rw [hl] at this; exact hki (by simpa using this)
  · intro hq e hee
    have hq' : loading c'.pc = false := hq i c' (set_self ..)
    by_cases hl : sh'.lock = none ∨ sh'.lock = some i
    · exact ha.2 hl hq' e hee
    · have hex : ∃ k, k ≠ i ∧ sh'.lock = some k := by
        cases hs : sh'.lock with
        | none => exact absurd (.inl hs) hl
        | some k => exact ⟨k, fun h => hl (.inr (h ▸ hs)), rfl⟩
      obtain ⟨k, hki, hk⟩ := hex
      have hk0 := (he.lock_ k hki).1 hk
      have hen := he.entry_ k hki hk0
      have hnh : holds c.pc = false := by
        by_contra hf
        have := (hi.lockOf i c hc (by simpa using hf)).1
        rw [hk0] at this; exact hki (by simpa using this)
      have hee' : s.sh.entry = some e := hen ▸ hee
      refine (h2.entry ?_ e hee').frame hx (keepEntry ?_ e hee')
      · intro k' d hd
        by_cases hk' : k' = i
        · subst hk'; rw [hc] at hd; cases hd
          by_contra hf
          rw [loading_holds (by simpa using hf)] at hnh; cases hnh
        · exact hq k' d (by rw [set_other s hk']; exact hd)
      · by_contra hf
        rw [fillsEntry_holds (by simpa using hf)] at hnh; cases hnh

theorem Good.prefix {cfg : Cfg} {h t : Hist} (g : Good cfg (h ++ t)) : Good cfg h :=
  ⟨fun hc j k v w a b e => g.1 hc j k v w (a.ext ⟨t, rfl⟩) (b.ext ⟨t, rfl⟩) e,
   fun hc k v a => g.2 hc k v (a.ext ⟨t, rfl⟩)⟩

theorem inv2_steps {cfg : Cfg} {s s' : St} {x : Act} (hi : Inv1 s) (hg : Good cfg s.sh.hist) (h2 : Inv2 cfg s)
    (hx : ∀ i, x ≠ .fail i) (h : Steps cfg s x s') : Inv2 cfg s' := by
  cases h with
  | @call i req hn =>
    constructor
    · intro k d hk
      by_cases hki : k = i
      · subst hki; rw [set_self] at hk; cases hk; exact ⟨index_lt hi.ne, trivial⟩
      · rw [set_other s hki] at hk; exact h2.calls k d hk
    · intro hq
      refine h2.entry fun k d hk => hq k d ?_
      rw [set_other s (by rintro rfl; rw [hn] at hk; cases hk)]; exact hk
  | @own i pick c sh' c' hc ho =>
    exact inv2_eff hi h2 hc (eff_own hi hc ho)
      (own_ok hi hc hg (h2.calls i c hc) (fun hl hld => h2.entry (quiet hi hc hl hld)) ho)
  | @fail i c u hc hp => exact absurd rfl (hx i)
  | @change v =>
    exact ⟨fun k d hk => (h2.calls k d hk).frame ⟨[v], rfl⟩ (Keep.refl _ _) (fun _ => ⟨rfl, fun _ _ => Keep.refl _ _⟩),
      fun hq e he => (h2.entry hq e he).frame ⟨[v], rfl⟩ (Keep.refl _ _)⟩
  | clear hl =>
    refine ⟨fun k d hk => (h2.calls k d hk).frame (ext_refl _) (Keep.refl _ _) (fun hh => ?_), fun _ e he => by cases he⟩
    rw [(hi.lockOf k d hk hh).1] at hl; cases hl

theorem steps_hist {cfg : Cfg} {s s' : St} {x : Act} (hi : Inv1 s) (h : Steps cfg s x s') :
    s'.sh.hist = s.sh.hist ++ [x].filterMap changed := by
  cases h with
  | call _ => simp [set_sh, changed]
  | own hc ho => simp [set_sh, changed, (eff_own hi hc ho).hist_]
  | fail hc hp => simp [set_sh, changed, (eff_throw hi hc (.inr (.inr hp))).hist_]
  | change => simp [changed]
  | clear _ => simp [changed]

theorem run_hist {cfg : Cfg} {v : Option Version} {tr : List Act} {s : St} (h : run cfg v tr = some s) :
    s.sh.hist = history v tr := by
  refine run_induct (P := fun tr s => s.sh.hist = history v tr) ?_ ?_ h
  · unfold scanned history
    (repeat' split) <;> rfl
  · intro tr s x s' hr hP hs
    rw [steps_hist (inv1_run hr) (run_steps hr hs), hP]
    simp [history, List.filterMap_append]

theorem inv2_start {cfg : Cfg} {v : Option Version} (hg : Good (started cfg) [v])
    (hs : 2 ≤ cfg.cache → cfg.scan ≠ 1) : Inv2 (started cfg) { sh := scanned cfg v } := by
  refine ⟨fun _ _ h => by simp at h, fun _ e he => ?_⟩
  cases v with
  | none => cases he
  | some f =>
    simp only [scanned] at he ⊢
    have hk : ∀ b, Known [some f] 0 0 { size := f.content.length, time := f.time, buf := b } :=
      fun b => ⟨0, f, f, by omega, by omega, rfl, rfl, rfl, rfl⟩
    split at he
    · cases he
    next h0 =>
      rw [if_neg h0]
      split at he
      next h1 =>
        rw [if_pos h1]
        cases he
        refine ⟨fun _ h => absurd rfl h, fun h => ?_⟩
        refine absurd h1 (hs ?_)
        unfold started at h; split at h <;> simp_all
      next h1 =>
        rw [if_neg h1]
        have hfull : ∀ e heap, e.size = f.content.length → e.time = f.time →
            (e.buf = none ∨ e.buf = some 0 ∧ heap = [f.content.map some]) → EntryOk (started cfg) [some f] heap e := by
          intro e heap e1 e2 e3
          have hkn : Known [some f] 0 0 e := ⟨0, f, f, by omega, by omega, rfl, e1.symm, rfl, e2.symm⟩
          have hfl : Full [some f] heap 0 e := by
            rcases e3 with e3 | ⟨e3, rfl⟩
            · exact full_none _ _ _ _ e3
            · intro b hb
              rw [e3] at hb; cases hb
              refine ⟨f.content.map some, rfl, by simp [e1], fun p x hx => ?_⟩
              rw [List.getElem?_map] at hx
              cases hy : f.content[p]? with
              | none => rw [hy] at hx; cases hx
              | some y => rw [hy] at hx; cases hx; exact ⟨0, f, y, by omega, rfl, rfl, hy⟩
          exact ⟨fun _ _ => ⟨0, hkn, .inl hfl⟩, fun h => ⟨by rw [e2]; exact hg.2 h 0 f rfl, 0, hkn, hfl⟩⟩
        split at he
        next h2 => rw [if_pos h2]; cases he; exact hfull _ _ rfl rfl (.inr ⟨rfl, rfl⟩)
        next h2 => rw [if_neg h2]; cases he; exact hfull _ _ rfl rfl (.inl rfl)

theorem inv2_run {cfg : Cfg} {v : Option Version} {tr : List Act} {s : St} (h : run cfg v tr = some s)
    (hs : 2 ≤ cfg.cache → cfg.scan ≠ 1) (ht : Steady tr) (hg : Good (started cfg) (history v tr)) :
    Inv2 (started cfg) s := by
  refine run_induct (P := fun tr s => Steady tr → Good (started cfg) (history v tr) → Inv2 (started cfg) s) ?_ ?_ h ht hg
  · intro _ hg; exact inv2_start (by simpa [history] using hg) hs
  · intro tr s x s' hr hP hst ht hg
    have hg' : Good (started cfg) (history v tr) := by
      refine Good.prefix (t := [x].filterMap changed) ?_
      simpa [history, List.filterMap_append] using hg
    refine inv2_steps (inv1_run hr) (by rw [run_hist hr]; exact hg') (hP (fun i hi => ht i (by simp [hi])) hg') ?_
      (run_steps hr hst)
    rintro i rfl
    exact ht i (by simp)

/-- What is known of a call since it came. -/
theorem run_came {cfg : Cfg} {v : Option Version} {tr₁ tr₂ : List Act} {i : Nat} {req : Req} {s : St}
    (h : run cfg v (tr₁ ++ .call i req :: tr₂) = some s) :
    ∃ c, s.calls i = some c ∧ c.came = present tr₁ ∧ c.req = req := by
  induction tr₂ using List.reverseRecOn generalizing s with
  | nil =>
    obtain ⟨s0, h1, h2⟩ := (run_snoc ..).1 h
    have hh := run_hist h1
    cases run_steps h1 h2 with
    | call hn =>
      refine ⟨_, set_self .., ?_, rfl⟩
      show s0.sh.index = _
      unfold Shared.index
      rw [hh]
      simp [history, present]
  | append_singleton t x ih =>
    rw [show tr₁ ++ .call i req :: (t ++ [x]) = (tr₁ ++ .call i req :: t) ++ [x] by simp] at h
    obtain ⟨s0, h1, h2⟩ := (run_snoc ..).1 h
    obtain ⟨c, hc, hcame, hreq⟩ := ih h1
    cases run_steps h1 h2 with
    | @call k _ hn =>
      have : i ≠ k := by rintro rfl; rw [hc] at hn; cases hn
      exact ⟨c, by rw [set_other s0 this]; exact hc, hcame, hreq⟩
    | @own k _ d sh' d' hd ho =>
      have he := eff_own (inv1_run h1) hd ho
      by_cases hik : i = k
      · subst hik; rw [hc] at hd; cases hd
        exact ⟨d', set_self .., he.came_.trans hcame, he.req_.trans hreq⟩
      · exact ⟨c, by rw [set_other s0 hik]; exact hc, hcame, hreq⟩
    | @fail k d u hd hp =>
      have he := eff_throw (inv1_run h1) hd (.inr (.inr hp))
      by_cases hik : i = k
      · subst hik; rw [hc] at hd; cases hd
        exact ⟨_, set_self .., he.came_.trans hcame, he.req_.trans hreq⟩
      · exact ⟨c, by rw [set_other s0 hik]; exact hc, hcame, hreq⟩
    | change => exact ⟨c, hc, hcame, hreq⟩
    | clear _ => exact ⟨c, hc, hcame, hreq⟩

theorem length_history (v : Option Version) (tr : List Act) : (history v tr).length - 1 = present tr := by
  simp [history, present]

end Verif.FileThreads
