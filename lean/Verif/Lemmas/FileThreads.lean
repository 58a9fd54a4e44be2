import Verif.Spec.FileThreads
import Mathlib.Data.List.Induction
import Mathlib.Tactic.Common
/-
Invariants of a file service that is used by several threads while the file changes.
-/
namespace Verif.FileThreads
open Verif.Spec.FileThreads

/-! ### Runs -/

theorem run_snoc (cfg : Cfg) (v : Option Version) (tr : List Act) (x : Act) (s' : St) :
    run cfg v (tr ++ [x]) = some s' ↔ ∃ s, run cfg v tr = some s ∧ s.step (started cfg) x = some s' := by
  unfold run
  rw [List.foldlM_append]
  cases h : List.foldlM (St.step (started cfg)) ({ sh := scanned cfg v } : St) tr with
  | none => simp
  | some s => simp

theorem run_induct {cfg : Cfg} {v : Option Version} {P : List Act → St → Prop} (h0 : P [] { sh := scanned cfg v })
    (hs : ∀ tr s x s', run cfg v tr = some s → P tr s → s.step (started cfg) x = some s' → P (tr ++ [x]) s')
    {tr : List Act} {s : St} (h : run cfg v tr = some s) : P tr s := by
  induction tr using List.reverseRecOn generalizing s with
  | nil => cases h; exact h0
  | append_singleton tr x ih =>
    obtain ⟨s0, h1, h2⟩ := (run_snoc ..).1 h
    exact hs _ _ _ _ h1 (ih h1) h2

/-! ### Steps -/

/-- What a step of a call does. -/
inductive Own (cfg : Cfg) (i : Nat) (sh : Shared) (c : Call) : Shared → Call → Prop
  | lookOff : c.pc = .lookup → cfg.cache = 0 → cfg.scan = 0 → Own cfg i sh c sh { c with pc := .exist }
  | lookNone {pc'} : c.pc = .lookup → sh.lock = none → sh.entry = none →
      (pc' = .done .notFound ∧ (cfg.scan = 1 ∨ cfg.scan = 3)) ∨ pc' = .exist →
      Own cfg i sh c sh { c with pc := pc' }
  | lookPlain {e} : c.pc = .lookup → sh.lock = none → sh.entry = some e → cfg.cache = 0 →
      Own cfg i sh c { sh with lock := some i } { c with pc := .size .plain }
  | lookFirst {e} : c.pc = .lookup → sh.lock = none → sh.entry = some e → cfg.cache ≠ 0 → e.time = 0 →
      Own cfg i sh c { sh with lock := some i } { c with pc := .size .first }
  | lookCheck {e} : c.pc = .lookup → sh.lock = none → sh.entry = some e → cfg.cache = 1 → e.time ≠ 0 →
      Own cfg i sh c { sh with lock := some i } { c with pc := .size .check }
  | lookKeep {e} : c.pc = .lookup → sh.lock = none → sh.entry = some e → 2 ≤ cfg.cache → e.time ≠ 0 →
      Own cfg i sh c { sh with lock := some i } { c with pc := .copy false }
  | throwSize {u} : c.pc = .size u → sh.now = none → Own cfg i sh c (throw u sh c).1 (throw u sh c).2
  | throwTime {u n} : c.pc = .time u n → sh.now = none → Own cfg i sh c (throw u sh c).1 (throw u sh c).2
  | sizeFirst {v e} : c.pc = .size .first → sh.now = some v → sh.entry = some e →
      Own cfg i sh c { sh with entry := some { e with size := v.content.length } }
        { c with pc := .time .first v.content.length }
  | size {u v} : c.pc = .size u → u ≠ .first → sh.now = some v → Own cfg i sh c sh { c with pc := .time u v.content.length }
  | timeFirst {n v e} : c.pc = .time .first n → sh.now = some v → sh.entry = some e →
      Own cfg i sh c { sh with entry := some { e with time := v.time } } { c with pc := .read .first }
  | timeBig {n v e} : c.pc = .time .first n → sh.now = some v → sh.entry = some e →
      Own cfg i sh c { sh with entry := some { e with time := v.time, buf := none } } { c with pc := .copy true }
  | same {n v e} : c.pc = .time .check n → sh.now = some v → sh.entry = some e → v.time = e.time → n = e.size →
      Own cfg i sh c sh { c with pc := .copy false }
  | differs {n v e} : c.pc = .time .check n → sh.now = some v → sh.entry = some e →
      Own cfg i sh c { sh with entry := some { e with size := n, time := v.time } } { c with pc := .read .check }
  | timePlain {n v} : c.pc = .time .plain n → sh.now = some v →
      Own cfg i sh c sh.unlock { c with
        file := { size := n, time := v.time }, pc := respond c.req { size := n, time := v.time } (.send [] none) }
  | timeOwn {n v pc'} : c.pc = .time .own n → sh.now = some v → pc' = .read .own ∨ pc' = .insert ∨ pc' = .send [] none →
      Own cfg i sh c sh { c with
        file := { size := n, time := v.time }, pc := respond c.req { size := n, time := v.time } pc' }
  | openOwn {v} : c.pc = .read .own → sh.now = some v →
      Own cfg i sh c { sh with heap := sh.heap ++ [List.replicate c.file.size none] }
        { c with file := { c.file with buf := some sh.heap.length }, pc := .fill .own sh.index }
  | openOwnThrow : c.pc = .read .own → sh.now = none →
      Own cfg i sh c { sh with heap := sh.heap ++ [List.replicate c.file.size none] }
        { c with file := { c.file with buf := some sh.heap.length }, pc := .done .error }
  | openEntry {u v e} : c.pc = .read u → u ≠ .own → sh.now = some v → sh.entry = some e →
      Own cfg i sh c { sh with heap := sh.heap ++ [List.replicate e.size none], entry := some { e with buf := some sh.heap.length } }
        { c with pc := .fill u sh.index }
  | openEntryThrow {u e} : c.pc = .read u → u ≠ .own → sh.now = none → sh.entry = some e →
      Own cfg i sh c { sh with
          heap := sh.heap ++ [List.replicate e.size none], entry := some { e with buf := some sh.heap.length }, lock := none }
        { c with pc := .done .error }
  | fillOwn {o pick bs} : c.pc = .fill .own o → validPick sh.hist o 0 c.file.size pick = true →
      readBytes sh.hist 0 c.file.size pick = some bs →
      Own cfg i sh c { sh with heap := sh.heap.set (c.file.buf.getD 0) (bs.map some) } { c with pc := .insert }
  | fillOwnThrow {o pick} : c.pc = .fill .own o → validPick sh.hist o 0 c.file.size pick = true →
      readBytes sh.hist 0 c.file.size pick = none → Own cfg i sh c sh { c with pc := .done .error }
  | fillEntry {u o pick bs e} : c.pc = .fill u o → u ≠ .own → sh.entry = some e → validPick sh.hist o 0 e.size pick = true →
      readBytes sh.hist 0 e.size pick = some bs →
      Own cfg i sh c { sh with heap := sh.heap.set (e.buf.getD 0) (bs.map some) } { c with pc := .copy true }
  | fillEntryThrow {u o pick e} : c.pc = .fill u o → u ≠ .own → sh.entry = some e →
      validPick sh.hist o 0 e.size pick = true → readBytes sh.hist 0 e.size pick = none →
      Own cfg i sh c sh.unlock { c with pc := .done .error }
  | copy {upd e e'} : c.pc = .copy upd → sh.entry = some e → e' = e ∨ e' = { e with buf := none } →
      Own cfg i sh c { sh with lock := none, entry := some e' } { c with file := e, pc := respond c.req e (.send [] none) }
  | existNone : c.pc = .exist → sh.now = none → Own cfg i sh c sh { c with pc := .done .notFound }
  | exist {v} : c.pc = .exist → sh.now = some v → Own cfg i sh c sh { c with pc := .size .own }
  | insertNew : c.pc = .insert → sh.lock = none → sh.entry = none →
      Own cfg i sh c { sh with entry := some c.file } { c with pc := .send [] none }
  | insertOld {e} : c.pc = .insert → sh.lock = none → sh.entry = some e →
      Own cfg i sh c sh { c with pc := .send [] none }
  | sent {sent op} : c.pc = .send sent op → c.file.size ≤ sent.length →
      Own cfg i sh c sh { c with pc := .done (.file c.file.size c.file.time sent) }
  | overrun {sent op b n} : c.pc = .send sent op → sent.length < c.file.size → c.file.buf = some b →
      n ≤ c.file.size - sent.length → (sh.heap.getD b []).length < sent.length + n →
      Own cfg i sh c sh { c with pc := .done .overrun }
  | sendBuf {sent op b n} : c.pc = .send sent op → sent.length < c.file.size → c.file.buf = some b →
      n ≤ c.file.size - sent.length → sent.length + n ≤ (sh.heap.getD b []).length →
      Own cfg i sh c sh { c with pc := .send (sent ++ ((sh.heap.getD b []).drop sent.length).take n) none }
  | gaveUp {sent} : c.pc = .send sent none → sh.now = none → Own cfg i sh c sh { c with pc := .done .gaveUp }
  | gaveUpRead {sent o n pick} : c.pc = .send sent (some o) → sent.length < c.file.size →
      n ≤ c.file.size - sent.length → validPick sh.hist o sent.length n pick = true →
      readBytes sh.hist sent.length n pick = none → Own cfg i sh c sh { c with pc := .done .gaveUp }
  | sendOpen {sent v} : c.pc = .send sent none → sh.now = some v → c.file.buf = none → sent.length < c.file.size →
      Own cfg i sh c sh { c with pc := .send sent (some sh.index) }
  | sendDisk {sent o n pick bs} : c.pc = .send sent (some o) → sent.length < c.file.size → c.file.buf = none →
      n ≤ c.file.size - sent.length → validPick sh.hist o sent.length n pick = true →
      readBytes sh.hist sent.length n pick = some bs →
      Own cfg i sh c sh { c with pc := .send (sent ++ bs.map some) (some o) }

/-- Calls that hold `m_cache_mutex`. -/
def holds : Pc → Bool
  | .size u | .time u _ | .read u | .fill u _ => decide (u ≠ .own)
  | .copy _ => true
  | _ => false

theorem own_of {cfg : Cfg} {i : Nat} {pick : Nat → Nat} {sh : Shared} {c : Call} {r : Shared × Call}
    (he : holds c.pc = true → ∃ e, sh.entry = some e) (h : own cfg i pick sh c = some r) : Own cfg i sh c r.1 r.2 := by
  unfold own at h
  split at h
  case h_1 hpc =>
    unfold lookUp at h
    split at h
    next hc => cases h; exact .lookOff hpc hc.1 hc.2
    · split at h
      · cases h
      next hl =>
        have hl : sh.lock = none := by simpa using hl
        split at h
        next hen => cases h; exact .lookNone hpc hl hen (by split <;> simp [*])
        next e hen =>
          cases h
          dsimp only
          split
          next h0 => exact .lookPlain hpc hl hen h0
          · split
            next h0 ht => exact .lookFirst hpc hl hen h0 ht
            · split
              next h0 ht h1 => exact .lookCheck hpc hl hen h1 ht
              next h0 ht h1 => exact .lookKeep hpc hl hen (by omega) ht
  case h_2 u hpc =>
    split at h
    next hn => cases h; exact .throwSize hpc hn
    next v hv =>
      cases h
      cases u with
      | first =>
        obtain ⟨e, hen⟩ := he (by simp [hpc, holds])
        simpa [sized, hen] using Own.sizeFirst (cfg := cfg) (i := i) hpc hv hen
      | _ => exact .size hpc (by simp) hv
  case h_3 u n hpc =>
    split at h
    next hn => cases h; exact .throwTime hpc hn
    next v hv =>
      cases h
      cases u with
      | first =>
        obtain ⟨e, hen⟩ := he (by simp [hpc, holds])
        simp only [timed]
        split
        · simpa [hen] using Own.timeFirst (cfg := cfg) (i := i) hpc hv hen
        · simpa [hen] using Own.timeBig (cfg := cfg) (i := i) hpc hv hen
      | check =>
        obtain ⟨e, hen⟩ := he (by simp [hpc, holds])
        simp only [timed, hen, Option.getD_some]
        split
        next hs => exact .same hpc hv hen hs.1 hs.2
        · simpa [hen] using Own.differs (cfg := cfg) (i := i) hpc hv hen
      | plain => exact .timePlain hpc hv
      | own => exact .timeOwn hpc hv (by (repeat' split) <;> simp)
  case h_4 u hpc =>
    cases h
    by_cases hu : u = .own
    · subst hu
      simp only [opened, target, if_true]
      split
      next hn => exact .openOwnThrow hpc hn
      next v hv => exact .openOwn hpc hv
    · obtain ⟨e, hen⟩ := he (by simp [hpc, holds, hu])
      simp only [opened, target, if_neg hu, hen, Option.getD_some, Option.map_some]
      split
      next hn => simpa [throw, hu, Shared.unlock, hen] using Own.openEntryThrow (cfg := cfg) (i := i) hpc hu hn hen
      next v hv => simpa [hen] using Own.openEntry (cfg := cfg) (i := i) hpc hu hv hen
  case h_5 u o hpc =>
    split at h
    next hk =>
      cases h
      by_cases hu : u = .own
      · subst hu
        simp only [filled, target, if_true] at hk ⊢
        split
        next hb => exact .fillOwnThrow hpc hk hb
        next bs hb => exact .fillOwn hpc hk hb
      · obtain ⟨e, hen⟩ := he (by simp [hpc, holds, hu])
        simp only [filled, target, if_neg hu, hen, Option.getD_some] at hk ⊢
        split
        next hb => simpa [throw, hu] using Own.fillEntryThrow (cfg := cfg) (i := i) hpc hu hen hk hb
        next bs hb => simpa [hu, hen] using Own.fillEntry (cfg := cfg) (i := i) hpc hu hen hk hb
    · cases h
  case h_6 upd hpc =>
    cases h
    obtain ⟨e, hen⟩ := he (by simp [hpc, holds])
    simp only [copied, hen, Option.getD_some, Option.map_some]
    split
    · exact .copy hpc hen (.inr rfl)
    · exact .copy hpc hen (.inl rfl)
  case h_7 hpc =>
    split at h
    next hn => cases h; exact .existNone hpc hn
    next v hv => cases h; exact .exist hpc hv
  case h_8 hpc =>
    split at h
    · cases h
    next hl =>
      have hl : sh.lock = none := by simpa using hl
      cases h
      cases hen : sh.entry with
      | none => simpa [hen] using Own.insertNew (cfg := cfg) (i := i) hpc hl hen
      | some e =>
        have := Own.insertOld (cfg := cfg) (i := i) hpc hl hen
        rw [show ({ sh with entry := some ((some e).getD c.file) } : Shared) = sh by cases sh; simp_all]
        exact this
  case h_9 sent op hpc =>
    unfold sending at h
    split at h
    next hd => cases h; exact .sent hpc hd
    next hd =>
      have hd : sent.length < c.file.size := by omega
      have hn : (if 0 < cfg.maxChunk ∧ cfg.maxChunk < c.file.size - sent.length then cfg.maxChunk
          else c.file.size - sent.length) ≤ c.file.size - sent.length := by split <;> omega
      simp only at h
      generalize (if 0 < cfg.maxChunk ∧ cfg.maxChunk < c.file.size - sent.length then cfg.maxChunk
          else c.file.size - sent.length) = n at h hn
      split at h
      next b hb =>
        split at h
        next ho => cases h; exact .overrun hpc hd hb hn ho
        next ho => cases h; exact .sendBuf hpc hd hb hn (by omega)
      next hb =>
        split at h
        · split at h
          next hn => cases h; exact .gaveUp hpc hn
          next v hv => cases h; exact .sendOpen hpc hv hb hd
        next o =>
          split at h
          next hk =>
            split at h
            next hr => cases h; exact .gaveUpRead hpc hd hn hk hr
            next bs hbs => cases h; exact .sendDisk hpc hd hb hn hk hbs
          · cases h
  case h_10 => cases h

/-- What an action does. -/
inductive Steps (cfg : Cfg) (s : St) : Act → St → Prop
  | call {i req} : s.calls i = none → Steps cfg s (.call i req) (s.set i (s.sh, { req := req, came := s.sh.index }))
  | own {i pick c sh' c'} : s.calls i = some c → Own cfg i s.sh c sh' c' → Steps cfg s (.step i pick) (s.set i (sh', c'))
  | fail {i c u} : s.calls i = some c → (c.pc = .read u ∨ ∃ o, c.pc = .fill u o) →
      Steps cfg s (.fail i) (s.set i (throw u s.sh c))
  | change {v} : Steps cfg s (.change v) { s with sh := { s.sh with hist := s.sh.hist ++ [v] } }
  | clear : s.sh.lock = none → Steps cfg s .clear { s with sh := { s.sh with entry := none } }

theorem steps_of {cfg : Cfg} {s : St} {x : Act} {s' : St}
    (he : ∀ i c, s.calls i = some c → holds c.pc = true → ∃ e, s.sh.entry = some e)
    (h : s.step cfg x = some s') : Steps cfg s x s' := by
  cases x with
  | call i req =>
    simp only [St.step] at h
    split at h
    next hc => cases h; exact .call hc
    · cases h
  | step i pick =>
    simp only [St.step] at h
    split at h
    · cases h
    next c hc =>
      cases ho : own cfg i pick s.sh c with
      | none => simp [ho] at h
      | some r => simp only [ho, Option.map_some, Option.some.injEq] at h; subst h; exact .own hc (own_of (he i c hc) ho)
  | fail i =>
    simp only [St.step] at h
    split at h
    · cases h
    next c hc =>
      unfold failing at h
      split at h
      next u hp => cases h; exact .fail hc (.inl hp)
      next u o hp => cases h; exact .fail hc (.inr ⟨o, hp⟩)
      · cases h
  | change v => cases h; exact .change
  | clear =>
    simp only [St.step] at h
    split at h
    · cases h
    next hl => cases h; exact .clear (by simpa using hl)

/-! ### Who holds the mutex, and who uses which buffer -/

/-- A call is filling a buffer of the entry. -/
def fillsEntry : Pc → Bool
  | .fill u _ => decide (u ≠ .own)
  | _ => false

/-- A call is filling its own buffer. -/
def fillsOwn : Pc → Bool
  | .fill u _ => decide (u = .own)
  | _ => false

structure Inv1 (s : St) : Prop where
  ne : s.sh.hist ≠ []
  lockOf : ∀ i c, s.calls i = some c → holds c.pc = true → s.sh.lock = some i ∧ ∃ e, s.sh.entry = some e
  holder : ∀ i, s.sh.lock = some i → ∃ c, s.calls i = some c ∧ holds c.pc = true
  refE : ∀ e b, s.sh.entry = some e → e.buf = some b → b < s.sh.heap.length
  refC : ∀ i c b, s.calls i = some c → c.file.buf = some b → b < s.sh.heap.length
  ownFill : ∀ i c, s.calls i = some c → fillsOwn c.pc = true →
    ∃ b, c.file.buf = some b ∧ (∀ e, s.sh.entry = some e → e.buf ≠ some b) ∧
      ∀ k c', k ≠ i → s.calls k = some c' → c'.file.buf ≠ some b
  entryFill : ∀ i c, s.calls i = some c → fillsEntry c.pc = true →
    ∃ e b, s.sh.entry = some e ∧ e.buf = some b ∧ ∀ k c', s.calls k = some c' → c'.file.buf ≠ some b

theorem fillsEntry_holds {pc : Pc} (h : fillsEntry pc = true) : holds pc = true := by
  unfold fillsEntry at h; split at h <;> simp_all [holds]

/-- What a step of call `i` can do to the rest. -/
structure Eff (i : Nat) (sh : Shared) (c : Call) (sh' : Shared) (c' : Call) : Prop where
  hist_ : sh'.hist = sh.hist
  came_ : c'.came = c.came
  req_ : c'.req = c.req
  holds_ : holds c'.pc = true ↔ sh'.lock = some i
  lock_ : ∀ k, k ≠ i → (sh'.lock = some k ↔ sh.lock = some k)
  entry_ : ∀ k, k ≠ i → sh.lock = some k → sh'.entry = sh.entry
  some_ : FileThreads.holds c'.pc = true → ∃ e', sh'.entry = some e'
  length_ : sh.heap.length ≤ sh'.heap.length
  refE_ : ∀ e' b, sh'.entry = some e' → e'.buf = some b →
    (∃ e, sh.entry = some e ∧ e.buf = some b) ∨ (sh.entry = none ∧ c.file.buf = some b ∧ c'.file = c.file ∧ c.pc = .insert) ∨
    (b = sh.heap.length ∧ b < sh'.heap.length ∧ c'.file = c.file)
  refC_ : ∀ b, c'.file.buf = some b →
    c.file.buf = some b ∨ (∃ e, sh.entry = some e ∧ e.buf = some b ∧ sh.lock = some i ∧ fillsEntry c.pc = false) ∨
    (b = sh.heap.length ∧ b < sh'.heap.length ∧ sh'.entry = sh.entry)
  ownFill_ : fillsOwn c'.pc = true → c'.file.buf = some sh.heap.length ∧ sh'.entry = sh.entry
  entryFill_ : fillsEntry c'.pc = true → c'.file = c.file ∧ ∃ e', sh'.entry = some e' ∧ e'.buf = some sh.heap.length
  heap_ : ∀ (b : Nat) bs, sh.heap[b]? = some bs → sh'.heap[b]? = some bs ∨ (fillsOwn c.pc = true ∧ c.file.buf = some b) ∨
    (fillsEntry c.pc = true ∧ ∃ e, sh.entry = some e ∧ e.buf = some b)

theorem eff_throw {s : St} {i : Nat} {c : Call} {u : Use} (hi : Inv1 s) (hc : s.calls i = some c)
    (h : c.pc = .size u ∨ (∃ n, c.pc = .time u n) ∨ c.pc = .read u ∨ ∃ o, c.pc = .fill u o) :
    Eff i s.sh c (throw u s.sh c).1 (throw u s.sh c).2 := by
  obtain ⟨h1, h2, h3, h4, h5, h6, h7⟩ := hi
  have g2 := h2 i c hc
  have g3 := h3 i
  constructor <;> grind [holds, fillsOwn, fillsEntry, throw, Shared.unlock]

theorem eff_own {cfg : Cfg} {s : St} {i : Nat} {c c' : Call} {sh' : Shared} (hi : Inv1 s) (hc : s.calls i = some c)
    (h : Own cfg i s.sh c sh' c') : Eff i s.sh c sh' c' := by
  have hthrow := @eff_throw s i c
  have g2 := hi.lockOf i c hc
  have g3 := hi.holder i
  have g5 := fun b => hi.refC i c b hc
  have g6 := hi.ownFill i c hc
  have g7 := hi.entryFill i c hc
  cases h
  case throwSize hp _ => exact eff_throw hi hc (.inl hp)
  case throwTime n hp _ => exact eff_throw hi hc (.inr (.inl ⟨n, hp⟩))
  all_goals
    clear hthrow hi
    constructor <;> grind [holds, fillsOwn, fillsEntry, Shared.unlock, respond]

end Verif.FileThreads
