import Verif.Lemmas.WriterMemoryFree
/-
What a writer sends is in memory until it is sent.
-/
namespace Verif.Props.WriterMemory
open Verif.WriterMemory Verif.Spec.WriterMemory
open Verif.Writer (W Lifecycle)

/-- The writers that the library makes: a response writer for a request, one for a response, a request writer. -/
inductive Made : W → Prop where
  | response (m : Msg) (lc : Lifecycle) : Made { isRequest := false, msg := m, supportsChunks := m.chunksSupported, lifecycle := lc }
  | request (m : Msg) (lc : Lifecycle) : Made { isRequest := true, msg := m, lifecycle := lc }

theorem Made.blank {w : W} (h : Made w) : Blank w := by
  cases h <;> exact ⟨rfl, rfl, rfl, rfl, rfl⟩

/-- `Made` are the writers of `Verif.Writer`, before the content of the message is added. -/
example (m : Msg) (lc : Lifecycle) : ∃ w, Made w ∧ Writer.initContent w = Writer.newResponseWriter m lc := ⟨_, .response m lc, rfl⟩
example (m : Msg) (lc : Lifecycle) : ∃ w, Made w ∧ Writer.initContent w = Writer.newRequestWriter m lc := ⟨_, .request m lc, rfl⟩
example (req : Msg) (lc : Lifecycle) : ∃ w, Made w ∧ Writer.initContent w = Writer.newResponseWriterFor req lc := by
  refine ⟨_, .response (Writer.responseTo req) lc, ?_⟩
  unfold Writer.newResponseWriterFor Writer.initContent
  have : (Writer.responseTo req).contentBytes = none ∨ (Writer.responseTo req).contentBytes = some [] := by
    unfold Writer.responseTo
    split
    · exact .inr rfl
    · split <;> exact .inr rfl
  rcases this with h | h <;> rw [h]

/-! ### Examples -/

/-- The rules are kept, from a state on. -/
def Keeps (t : TableOrder) : Ideal → List Act → Prop
  | _, [] => True
  | i, x :: r => Allowed i x ∧ Keeps t (i.step t x) r

instance (i : Ideal) (x : Act) : Decidable (Allowed i x) := by
  cases x <;> unfold Allowed <;> infer_instance

instance instKeeps (t : TableOrder) : ∀ i l, Decidable (Keeps t i l)
  | _, [] => isTrue trivial
  | i, x :: r => @instDecidableAnd _ _ _ (instKeeps t (i.step t x) r)

theorem obeys_of {t : TableOrder} {w : W} {tr : List Act} (h : Keeps t { w := w } tr) : Obeys t w tr := by
  have key : ∀ tr i, Keeps t i tr → ∀ tr₁ x tr₂, tr = tr₁ ++ x :: tr₂ → Allowed (tr₁.foldl (Ideal.step t) i) x := by
    intro tr
    induction tr with
    | nil => intro i _ tr₁ x tr₂ he; cases tr₁ <;> cases he
    | cons y r ih =>
      intro i hk tr₁ x tr₂ he
      cases tr₁ with
      | nil => cases he; exact hk.1
      | cons z tr₁ => cases he; exact ih _ hk.2 tr₁ x tr₂ rfl
  exact key tr _ h

def puts (n : Nat) : List Act := List.replicate n .put

def response : W := { isRequest := false, msg := { chunksSupported := true }, supportsChunks := true, lifecycle := .keepAlive }

/-- Two chunks with text, copied bytes and memory of the user, which is changed between the chunks. -/
def story : List Act :=
  [.new (b! "xyz"), .text (b! "ab"), .binary (b! "cd"), .noCopy 0 1 2, .send .chunk (.user true)] ++ puts 100 ++
  [.finish, .clear, .set 0 1 65, .noCopy 0 0 3, .send .final .own, .release] ++ puts 30 ++ [.finish, .free 0]

example : Made response := .response _ _
example : Obeys {} (Writer.initContent response) story := obeys_of (by decide +kernel)
example : (run {} (fresh response) story).wire =
    b! "HTTP/1.1 200 OK\r\nConnection: Keep-Alive\r\nTransfer-Encoding: chunked\r\n\r\n6\r\nabcdyz\r\n3\r\nxAz\r\n0\r\n\r\n" := by
  decide +kernel
example : ((run {} (fresh response) story).dead, (run {} (fresh response) story).called) =
    (true, [.handler true, .finished true]) := by decide +kernel

/-! ### What is sent -/

/-- If the rules are kept, memory is used only while it is there, and what the connection has taken is what the writer with
    values has sent, as far as it has come. -/
theorem faithful {w : W} (hw : Made w) (t : TableOrder) (tr : List Act) (ho : Obeys t (Writer.initContent w) tr) :
    (run t (fresh w) tr).fault = false ∧ (run t (fresh w) tr).wire = (ideal t (Writer.initContent w) tr).sent := by
  have h := inv_run hw.blank t tr ho
  refine ⟨?_, h.sent⟩
  by_cases hd : (run t (fresh w) tr).dead = true
  · exact (h.gone hd).1
  · exact (h.core (by simpa using hd)).fault

theorem sent_prefix (t : TableOrder) (w : W) (tr : List Act) (hw : w.wire = []) :
    (ideal t w tr).sent <+: (ideal t w tr).w.wire := by
  have over : ∀ (i : Ideal) h ok, i.sent <+: i.w.wire → (i.over h ok).sent <+: (i.over h ok).w.wire := by
    intro i h ok hp
    unfold Ideal.over
    dsimp only
    split <;> exact hp
  have more : ∀ (t : TableOrder) (w : W) f, w.wire <+: (Writer.sendMore t w f).wire := by
    intro t w f
    unfold Writer.sendMore
    split
    · dsimp only
      rw [head_wire, flush_wire]
      exact List.prefix_append _ _
    · exact List.prefix_refl _
  induction tr using List.reverseRecOn with
  | nil => simp [ideal, hw]
  | append_singleton tr x ih =>
    simp only [ideal, List.foldl_append, List.foldl_cons, List.foldl_nil]
    change (ideal t w tr).sent <+: (ideal t w tr).w.wire at ih
    change ((ideal t w tr).step t x).sent <+: ((ideal t w tr).step t x).w.wire
    generalize ideal t w tr = i at ih
    cases x with
    | text d => exact ih
    | binary d => show i.sent <+: (Writer.writeBuffer _ _).wire; rw [buffer_wire]; exact ih
    | noCopy a off n => show i.sent <+: (Writer.writeBuffer _ _).wire; rw [buffer_wire]; exact ih
    | clear => exact ih
    | change f => exact ih
    | send k h =>
      cases k
      · exact ih.trans (more t _ _)
      · refine ih.trans ?_
        show _ <+: (Writer.sendMore t _ _).wire
        refine List.IsPrefix.trans ?_ (more t _ _)
        split <;> exact List.prefix_refl _
      · refine ih.trans ?_
        show _ <+: (Writer.sendMore t _ _).wire
        exact List.IsPrefix.trans (List.prefix_refl _) (more t { i.w with sendingChunks := true } true)
    | put => exact List.take_prefix _ _
    | finish =>
      unfold Ideal.step
      dsimp only
      split
      · split
        · exact over _ _ _ ih
        · exact ih
      · exact ih
    | fail =>
      unfold Ideal.step
      dsimp only
      split
      · exact over _ _ _ (List.prefix_refl _)
      · exact ih
    | close => exact ih
    | release => exact ih
    | new d => exact ih
    | set a k x => exact ih
    | free a => exact ih

/-- What the connection has taken is always a beginning of what the writer has been told to send, in its order. -/
theorem in_order {w : W} (hw : Made w) (t : TableOrder) (tr : List Act) (ho : Obeys t (Writer.initContent w) tr) :
    (run t (fresh w) tr).wire <+: (ideal t (Writer.initContent w) tr).w.wire := by
  rw [(faithful hw t tr ho).2]
  refine sent_prefix t _ tr ?_
  unfold Writer.initContent
  split
  · split
    · exact hw.blank.wire
    · rw [buffer_wire]; exact hw.blank.wire
  · exact hw.blank.wire

/-- When no writing goes on, all of it was taken. -/
theorem complete {w : W} (hw : Made w) (t : TableOrder) (tr : List Act) (ho : Obeys t (Writer.initContent w) tr)
    (hn : (run t (fresh w) tr).pending = none) :
    (run t (fresh w) tr).wire = (ideal t (Writer.initContent w) tr).w.wire := by
  have h := inv_run hw.blank t tr ho
  rw [h.sent]
  exact h.done (by rw [← h.busy, hn]; rfl)

example : (run {} (fresh response) story).pending = none := by decide +kernel

/-! ### What is called -/

def Called.isHandler : Called → Bool
  | .handler _ => true
  | .finished _ => false

def load (s : St) : Nat := s.called.length + if s.pending.isSome then 1 else 0

/-- For each call of `send`, `send_chunk` or `send_final_chunk` exactly one function is called, or the writing goes on. -/
theorem called_once {w : W} (hw : Made w) (t : TableOrder) (tr : List Act) (ho : Obeys t (Writer.initContent w) tr) :
    (run t (fresh w) tr).called.length + (if (run t (fresh w) tr).pending.isSome then 1 else 0) = tr.countP isSend := by
  induction tr using List.reverseRecOn with
  | nil =>
    have h := inv_fresh hw.blank
    have : (fresh w).called = [] := by
      unfold fresh; split
      · split
        · rfl
        · show (St.writeNoCopy _ _).called = []
          unfold St.writeNoCopy
          split
          · rfl
          · exact called_flush _
      · rfl
    have hp : (fresh w).pending = none := by
      have := h.busy; simpa using this
    simp [run, this, hp]
  | append_singleton tr x ih =>
    have h1 : Obeys t (Writer.initContent w) tr := fun tr₁ y tr₂ he => ho tr₁ y (tr₂ ++ [x]) (by simp [he])
    have ha := ho tr x [] (by simp)
    have hi := inv_run hw.blank t tr h1
    have ih := ih h1
    rw [show run t (fresh w) (tr ++ [x]) = step t (run t (fresh w) tr) x by simp [run]]
    rw [List.countP_append, ← ih]
    generalize run t (fresh w) tr = s at *
    generalize ideal t (Writer.initContent w) tr = i at *
    change load (step t s x) = load s + _
    have same : ∀ s' : St, s'.called = s.called → s'.pending = s.pending → isSend x = false →
        load s' = load s + List.countP isSend [x] := by
      intro s' h1 h2 h3; unfold load; rw [h1, h2]; simp [h3]
    have hend : ∀ p ok, s.pending = some p → isSend x = false →
        load ((St.callBack { s with pending := none } p.handler ok).unused) = load s + List.countP isSend [x] := by
      intro p ok hp hx
      unfold load
      obtain ⟨hd, hc, _⟩ := pending_of hi hp
      obtain ⟨N, c0, _, _, c3, _⟩ := core_callBack hc p.handler ok
      rw [called_unused, called_callBack]
      have : ((St.callBack { s with pending := none } p.handler ok).unused).pending = none := by
        unfold St.unused; split
        · exact c3
        · exact (core_destroy c0).2.2.2.1.trans c3
      rw [this, hp]; simp [hx]
    cases x with
    | text d =>
      obtain ⟨_, _, hc, hus⟩ := idle_of hi ha.1 ha.2
      have := (core_text hc d).2
      exact same (s.use.writeText d) (by rw [hus]; exact this.called) (by rw [hus]; exact this.pending) rfl
    | binary d =>
      obtain ⟨_, _, hc, hus⟩ := idle_of hi ha.1 ha.2
      have := (core_binary hc d).2
      exact same (s.use.writeBinary d) (by rw [hus]; exact this.called) (by rw [hus]; exact this.pending) rfl
    | noCopy a off n =>
      refine same (s.use.writeNoCopy _) ?_ ?_ rfl
      · unfold St.writeNoCopy; split
        · rfl
        · exact called_flush _
      · obtain ⟨_, _, hc, hus⟩ := idle_of hi ha.1 ha.2.1
        rw [hus]
        unfold St.writeNoCopy; split
        · rfl
        · exact (core_flush hc).2.1.pending
    | clear =>
      obtain ⟨_, _, hc, hus⟩ := idle_of hi ha.1 ha.2
      have := (core_clear hc).2
      exact same s.use.clear (by rw [hus]; exact this.called) (by rw [hus]; exact this.pending) rfl
    | change f =>
      exact same _ (called_free s.use s.head) (free_other s.use s.head).2.2.2.2.2.2.2.1 rfl
    | send k h =>
      obtain ⟨_, hp, hc, hus⟩ := idle_of hi ha.1 ha.2
      show load (s.use.send t k h) = _
      rw [hus]
      unfold load
      rw [hp]
      cases hopen : s.w.isOpen with
      | true =>
        obtain ⟨h1, h2⟩ := (called_send t s k h).1 hopen
        rw [h1]
        cases hq : (s.send t k h).pending with
        | none => rw [hq] at h2; cases h2
        | some p => simp [isSend]
      | false =>
        obtain ⟨h1, h2⟩ := (called_send t s k h).2 hopen
        rw [h1, h2, hp]; simp [isSend]
    | put =>
      show load s.put = _
      unfold St.put
      split
      · exact same s rfl rfl rfl
      · rename_i p hp
        split
        · exact same s rfl rfl rfl
        · split
          · exact same _ rfl rfl rfl
          · unfold load; rw [hp]; simp [isSend]
    | finish =>
      unfold step
      dsimp only
      split
      · exact same s rfl rfl rfl
      · rename_i p hp
        split
        · exact hend p true hp rfl
        · exact same s rfl rfl rfl
    | fail =>
      unfold step
      dsimp only
      split
      · exact same s rfl rfl rfl
      · rename_i p hp
        exact hend p false hp rfl
    | close => exact same _ rfl rfl rfl
    | release =>
      refine same (St.unused { s with held := false }) (called_unused _) ?_ rfl
      unfold St.unused; split
      · rfl
      · exact (free_other _ _).2.2.2.2.2.2.2.1
    | new d => exact same _ rfl rfl rfl
    | set a k x => exact same _ rfl rfl rfl
    | free a => exact same _ rfl rfl rfl

example : story.countP isSend = 2 := by decide +kernel

/-! ### What is given back -/

/-- Once the writer is gone, all its memory was given back, if nothing was written by `write(ptr, length)`, or the writer was
    never cleared. -/
theorem freed_partial {w : W} (hw : Made w) (t : TableOrder) (tr : List Act) (ho : Obeys t (Writer.initContent w) tr)
    (hb : (∀ d, Act.binary d ∉ tr) ∨ (w.isRequest = false ∧ Act.clear ∉ tr))
    (hd : (run t (fresh w) tr).dead = true) (n : Nat) : (run t (fresh w) tr).own.get n = none := by
  have key : Accounted (run t (fresh w) tr) ∧ ((run t (fresh w) tr).dead = true → owned (run t (fresh w) tr) = []) ∧
      ((∀ d, Act.binary d ∉ tr) → (run t (fresh w) tr).binary = []) := by
    clear hd
    induction tr using List.reverseRecOn with
    | nil =>
      refine ⟨?_, ?_, ?_⟩
      · show Accounted (fresh w)
        unfold fresh
        split
        · split
          · intro n hn; simp [Heap.get] at hn
          · refine acc_noCopy ?_ _
            intro n hn
            have := lt_of_get hn
            simp only [List.length_singleton] at this
            simp [owned, show n = 0 by omega]
        · intro n hn; simp [Heap.get] at hn
      · intro hq
        have := (inv_fresh hw.blank).dead.1 hq
        cases this.1
      · intro _
        show (fresh w).binary = []
        unfold fresh
        split
        · split
          · rfl
          · show (St.writeNoCopy _ _).binary = []
            unfold St.writeNoCopy; split
            · rfl
            · exact bin_flush _
        · rfl
    | append_singleton tr x ih =>
      have h1 : Obeys t (Writer.initContent w) tr := fun tr₁ y tr₂ he => ho tr₁ y (tr₂ ++ [x]) (by simp [he])
      have ha := ho tr x [] (by simp)
      have hi := inv_run hw.blank t tr h1
      have hreq := req_ideal t (Writer.initContent w) tr
      rw [req_init] at hreq
      have hsw : (run t (fresh w) tr).w.isRequest = w.isRequest := by
        by_cases hd : (run t (fresh w) tr).dead = true
        · rw [(hi.gone hd).2.1]; exact hreq
        · rw [(hi.core (by simpa using hd)).weq]; exact hreq
      obtain ⟨i1, i2, i3⟩ := ih h1 (hb.imp (fun h d hm => h d (by simp [hm])) (fun h => ⟨h.1, fun hm => h.2 (by simp [hm])⟩))
      rw [show run t (fresh w) (tr ++ [x]) = step t (run t (fresh w) tr) x by simp [run]]
      refine ⟨acc_step t i1 x ?_ ?_, dead_step t hi i2 x ha, ?_⟩
      · intro hx
        rcases hb with hb | hb
        · exact i3 fun d hm => hb d (by simp [hm])
        · exact absurd (by simp [hx]) hb.2
      · intro hr
        rcases hb with hb | hb
        · exact i3 fun d hm => hb d (by simp [hm])
        · rw [hsw, hb.1] at hr; cases hr
      · intro hnb
        exact bin_step t (i3 fun d hm => hnb d (by simp [hm])) x fun d hx => hnb d (by simp [hx])
  cases hg : (run t (fresh w) tr).own.get n with
  | none => rfl
  | some d =>
    have := key.1 n (by rw [hg]; rfl)
    rw [key.2.1 hd] at this; cases this

/-- A whole message with text and copied bytes. -/
def single : List Act := [.text (b! "ab"), .binary (b! "cd"), .send .send .own, .release] ++ puts 100 ++ [.finish]

example : Obeys {} (Writer.initContent response) single := obeys_of (by decide +kernel)
example : (run {} (fresh response) single).dead = true ∧ (run {} (fresh response) single).own = [none, none, none] ∧
    Act.clear ∉ single := by
  refine ⟨by decide +kernel, by decide +kernel, ?_⟩
  simp [single, puts]

/-! ### Findings -/

/-- `clear` forgets the copies of binary data: they are never given back, not even with the writer. -/
theorem leak : ∃ tr, Obeys {} (Writer.initContent response) tr ∧ (run {} (fresh response) tr).dead = true ∧
    (run {} (fresh response) tr).own.get 0 = some (b! "secret") := by
  refine ⟨[.binary (b! "secret"), .clear, .release], obeys_of (by decide +kernel), by decide +kernel, by decide +kernel⟩

/-- If the connection is closed, the handler given to `send` is not called: the finished handler of the writer is. -/
theorem handler_not_called : ∃ tr, Obeys {} (Writer.initContent response) tr ∧ Act.send .send (.user true) ∈ tr ∧
    (run {} (fresh response) tr).pending = none ∧ (run {} (fresh response) tr).called = [.finished false] := by
  exact ⟨[.close, .send .send (.user true)], obeys_of (by decide +kernel), by simp, by decide +kernel, by decide +kernel⟩

/-- `send(handler)` does not keep the writer: if the user does not either, what is being sent is given back. -/
theorem not_kept : (run {} (fresh response) [.text (b! "ab"), .send .send (.user false), .release, .put]).fault = true := by
  decide +kernel

/-- The rules are needed: `clear` while a writing goes on, and a change of memory given to `write_no_copy`. -/
theorem cleared_while_sending :
    (run {} (fresh { response with sentHeaders := true }) [.text (b! "ab"), .send .send .own, .put, .clear, .put]).fault = true ∧
    (run {} (fresh { response with sentHeaders := true }) [.new (b! "ab"), .noCopy 0 0 2, .send .send .own, .put, .set 0 1 65, .put]).wire =
      b! "aA" := by
  constructor <;> decide +kernel

end Verif.Props.WriterMemory
