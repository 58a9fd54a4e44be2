import Verif.Lemmas.HttpParse
import Verif.Spec.HttpUse
/-
Invariants of the parser: what has to be checked for a predicate to hold in every state the parser reaches.
-/
namespace Verif.Http

/-- The state after one byte. -/
def HRes.st : HRes → S
  | .more s => s
  | .done s _ => s
  | .fail s _ => s

/-- The obligations for an invariant of the main loop. -/
structure InvRun (cfg : Cfg) (I : S → Prop) : Prop where
  upd : ∀ s l t c, I s → I (s.upd l t c)
  ec : ∀ s e, I s → I { s with ec := e }
  begin_ : ∀ s, I s → I { s with msg := { s.msg with afterMissing := true } }
  enter : ∀ s, s.ms = .start → I s → I { s with ms := .headers }
  h : ∀ s c, I s → I (hstep cfg s c).st
  c : ∀ s c, I s → I (cbyte cfg s c).st
  fh : ∀ s, I s → s.ms = .headers → I (finishHeaders cfg s).2
  cc : ∀ s, I s → I (concatenateChunks s)
  content : ∀ s buf, I s → s.ms = .content → I (consumeContent cfg s buf).2.1
  noLength : ∀ s buf, I s → s.ms = .noLength → I (consumeAsNextChunk cfg s buf).1

/-- The obligations for an invariant. -/
structure Inv (cfg : Cfg) (I : S → Prop) : Prop extends InvRun cfg I where
  fin : ∀ s, I s → I (finish cfg { s with ms := .end_ })
  status : ∀ s b, I s → I { s with msg := computeStatus s.msg b }

theorem InvRun.run {cfg : Cfg} {I : S → Prop} (hI : InvRun cfg I) (step : S → UInt8 → HRes)
    (h : ∀ s c, I s → I (step s c).st) (s : S) (b : Bytes) (hs : I s) : I (run step s b).2.1 := by
  refine run_inv step I ?_ ?_ ?_ s b hs
  · intro s c s' hs e; have := h s c hs; rw [e] at this; exact this
  · intro s c s' f hs e; have := h s c hs; rw [e] at this; exact this
  · intro s c s' f hs e; have := h s c hs; rw [e] at this; exact hI.ec _ _ this

theorem InvRun.count {cfg : Cfg} {I : S → Prop} (hI : InvRun cfg I) (content : Bool) (buf : Bytes) (r : Tri × S × Bytes)
    (h : I r.2.1) : I (count content buf r).2.1 := by
  unfold Http.count
  split
  · exact h
  · exact hI.upd _ _ _ _ h

theorem InvRun.iter {cfg : Cfg} {I : S → Prop} (hI : InvRun cfg I) (s : S) (buf : Bytes) (h : I s) :
    I (iter cfg s buf).2.1 := by
  by_cases hh : s.ms = .start ∨ s.ms = .headers ∨ s.ms = .footers
  · rw [iter_headers cfg s buf hh]
    have h1 : I (parseHeaders cfg (enterH s) buf).2.1 := by
      rw [parseHeaders_eq]
      refine hI.count _ _ _ (hI.run _ hI.h _ _ ?_)
      have : I (enterH s) := by
        unfold enterH; split
        · exact hI.enter s (by assumption) h
        · exact h
      exact hI.upd _ 0 _ _ this
    generalize parseHeaders cfg (enterH s) buf = r at *
    unfold postH
    split
    · rename_i hy; exact hI.fh _ h1 hy.2
    · exact h1
  · cases hs : s.ms with
    | start | headers | footers => simp [hs] at hh
    | chunks =>
      rw [iter_chunks cfg s buf hs]
      have h1 : I (parseChunks cfg s buf).2.1 := by
        rw [parseChunks_eq]
        exact hI.count _ _ _ (hI.run _ hI.c _ _ (hI.upd _ 0 _ _ h))
      generalize parseChunks cfg s buf = r at *
      unfold postC
      split
      · exact hI.cc _ h1
      · exact h1
    | content => unfold Http.iter; simp only [hs]; exact hI.content s buf h hs
    | noLength => unfold Http.iter; simp only [hs]; exact hI.noLength s buf h hs
    | end_ => unfold Http.iter; simp only [hs]; exact h

theorem InvRun.runs {cfg : Cfg} {I : S → Prop} (hI : InvRun cfg I) {s buf r} (hr : Runs cfg s buf r) (h : I s) : I r.2.1 := by
  induction hr with
  | @stop s buf _ => exact hI.iter s buf h
  | @next s buf r _ _ _ ih => exact ih (hI.iter s buf h)

theorem InvRun.parseBegin {cfg : Cfg} {I : S → Prop} (hI : InvRun cfg I) (s : S) (h : I s) : I (parseBegin s) := by
  unfold Http.parseBegin; split
  · exact hI.begin_ _ h
  · exact h

theorem Inv.parseEnd {cfg : Cfg} {I : S → Prop} (hI : Inv cfg I) (rc : Tri) (s : S) (n : Nat) (h : I s) :
    I (parseEnd cfg rc s n) := by
  unfold Http.parseEnd
  cases rc with
  | yes => exact hI.upd _ n _ _ (hI.fin s h)
  | no => exact hI.upd _ n _ _ (hI.status s false h)
  | more => exact hI.upd _ n _ _ h

/-- The invariant holds after every `parse`. -/
theorem Inv.parse {cfg : Cfg} {I : S → Prop} (hI : Inv cfg I) {s : S} {buf : Bytes} {rc : Tri} {s' : S} {rest : Bytes}
    (h : I s) (hp : parse cfg s buf = some (rc, s', rest)) : I s' := by
  obtain ⟨r, t, hr, e⟩ := parse_runs cfg s buf
  rw [e] at hp
  simp only [Option.some.injEq, Prod.mk.injEq] at hp
  obtain ⟨_, rfl, _⟩ := hp
  exact hI.parseEnd _ _ _ (hI.runs hr (hI.parseBegin s h))

/-- ... and after every sequence of buffers. -/
theorem Inv.feed {cfg : Cfg} {I : S → Prop} (hI : Inv cfg I) (bufs : List Bytes) : ∀ {s : S} {rc : Tri} {s' : S}
    {rest : Bytes} {more : List Bytes}, I s → feed cfg s bufs = some (rc, s', rest, more) → I s' := by
  induction bufs with
  | nil => intro s rc s' rest more h hf; simp only [Http.feed, Option.some.injEq, Prod.mk.injEq] at hf; rw [← hf.2.1]; exact h
  | cons b bufs ih =>
    intro s rc s' rest more h hf
    simp only [Http.feed] at hf
    cases hp : Http.parse cfg s b with
    | none => rw [hp] at hf; simp at hf
    | some r =>
      obtain ⟨rc1, s1, rest1⟩ := r
      have h1 := hI.parse h hp
      rw [hp] at hf
      cases rc1 with
      | more => exact ih h1 hf
      | yes => simp only [Option.some.injEq, Prod.mk.injEq] at hf; rw [← hf.2.1]; exact h1
      | no => simp only [Option.some.injEq, Prod.mk.injEq] at hf; rw [← hf.2.1]; exact h1

theorem createBuffer_setms (s : S) (m : MState) : createBuffer { s with ms := m } = { createBuffer s with ms := m } := by
  unfold createBuffer
  rw [show ({ s with ms := m } : S).msg = s.msg from rfl]
  split <;> rfl

theorem concatenateChunks_setms (s : S) (m : MState) :
    concatenateChunks { s with ms := m } = { concatenateChunks s with ms := m } := by
  unfold concatenateChunks createBuffer
  dsimp only
  by_cases h : s.msg.chunkCache.length + 1 = SIZE_MOD
  · simp only [h, if_true]; split <;> rfl
  · simp only [h, if_false]; split <;> rfl

/-- The invariant holds in every reachable state of the object. -/
theorem Inv.reach {cfg : Cfg} {M : Msg → Prop} {I : S → Prop} (hI : Inv cfg I)
    (hreset : ∀ s m, (I s ∨ s = fresh cfg m) → M m → I (reset cfg s m))
    (hmiss : ∀ s, I s → I { s with msg := { s.msg with missing := true } })
    (hgap : ∀ s len, I s → I (missingStep cfg s len).2) {s : S} (h : Reach cfg M s) : I s := by
  induction h with
  | fresh m hm =>
    have := hreset (fresh cfg m) m (.inr rfl) hm
    exact this
  | data _ hp ih => exact hI.parse ih hp
  | @gap s len _ ih =>
    have h1 := hgap _ len (hmiss s ih)
    unfold parseMissing
    generalize missingStep cfg { s with msg := { s.msg with missing := true } } len = r at *
    obtain ⟨rc, s1⟩ := r
    cases rc with
    | yes => exact hI.fin _ h1
    | no => exact hI.status _ _ h1
    | more => exact h1
  | @eof s _ ih =>
    unfold checkPrematureEof
    split
    · exact ih
    · rw [concatenateChunks_setms]
      exact hI.fin _ (hI.cc _ ih)
  | reset m _ hm ih => exact hreset _ m (.inl ih) hm

end Verif.Http
