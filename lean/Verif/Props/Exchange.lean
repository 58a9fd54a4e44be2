import Verif.Lemmas.Exchange
/-
C94: the answers on a connection do not mix. However reads, handlers, writes, the functions called at the end of them, `stop`
and failures of the network interleave, on a connection whose handlers are orderly (`Spec/Exchange`) at most one thing goes on
at a time, the client gets the answers in the order of its requests, and each request is finished once.
-/
namespace Verif.Props.Exchange
open Verif.Exchange Verif.Spec.Exchange
open Verif.Writer (Lifecycle)

/-- At most one of these goes on on a connection at any time: waiting for a request, handling one, sending. So the functions of
    the library need no lock on the connection. -/
theorem one_at_a_time (w : World) (ho : ∀ n, Orderly (w.prog n)) (as : List Act) (s : St) (h : run w as = some s) :
    activities s ≤ 1 := by
  have hg := (good_run ho (good_init w) h).phase
  rw [show activities s = s.readers + s.writes.length + (s.calls.filter act).length from rfl]
  cases hg with
  | reading hr hw hc hl ha => rw [hr, hw, hc]; decide
  | starting c hr hw hc hn hgd hp hl ha => rw [hr, hw, hc]; exact Nat.le_refl _
  | ending c hr hw hc hn hp hl ha => rw [hr, hw, hc]; exact Nat.le_refl _
  | writing x hr hw hc hn hok hf hl ha => rw [hr, hw, hc]; exact Nat.le_refl _
  | lost c hr hw hc hn hp hk hl ha => rw [hr, hw, hc]; exact Nat.le_refl _
  | over hr hw hc hl hp ha => rw [hr, hw, hc]; decide

/-- What was sent is at any time a beginning of the answers to the requests received so far, one after another. -/
theorem answers_in_order (w : World) (ho : ∀ n, Orderly (w.prog n)) (as : List Act) (s : St) (h : run w as = some s) :
    s.wire <+: answers w s.next :=
  (good_run ho (good_init w) h).sent

/-- When the next request is read, and when nothing goes on any more, the answers to all requests before have been sent
    completely, unless the connection was closed or broke. -/
theorem answered_before_next (w : World) (ho : ∀ n, Orderly (w.prog n)) (as : List Act) (s : St) (h : run w as = some s)
    (hr : 0 < s.readers ∨ activities s = 0) (hopen : s.isOpen = true) (hb : s.broken = false) :
    s.wire = answers w s.next := by
  have hg := (good_run ho (good_init w) h).phase
  rw [show activities s = s.readers + s.writes.length + (s.calls.filter act).length from rfl] at hr
  cases hg with
  | reading hr' hw hc hl ha => exact ha ⟨hopen, hb⟩
  | starting c hr' hw hc hn hgd hp hl ha => rw [hr', hw, hc] at hr; simp at hr
  | ending c hr' hw hc hn hp hl ha => rw [hr', hw, hc] at hr; simp at hr
  | writing x hr' hw hc hn hok hf hl ha => rw [hr', hw] at hr; simp at hr
  | lost c hr' hw hc hn hp hk hl ha => rw [hr', hw, hc] at hr; simp at hr
  | over hr' hw hc hl hp ha => exact ha ⟨hopen, hb⟩

/-- The requests are handled in turn, and the connection is finished once for each, and once more after a read that failed. -/
theorem in_turn (w : World) (ho : ∀ n, Orderly (w.prog n)) (as : List Act) (s : St) (h : run w as = some s) :
    s.log = turns s.next ∨ (∃ n, s.next = n + 1 ∧ s.log = turns n ++ [.request n]) ∨
      s.log = turns s.next ++ [.finish s.next] := by
  have hg := (good_run ho (good_init w) h).phase
  cases hg with
  | reading hr hw hc hl ha => exact .inl hl
  | starting c hr hw hc hn hgd hp hl ha => exact .inr (.inl ⟨c.req, hn.symm, hl⟩)
  | ending c hr hw hc hn hp hl ha => exact .inr (.inl ⟨c.req, hn.symm, hl⟩)
  | writing x hr hw hc hn hok hf hl ha => exact .inr (.inl ⟨x.req, hn.symm, hl⟩)
  | lost c hr hw hc hn hp hk hl ha => exact .inl hl
  | over hr hw hc hl hp ha => rcases hl with hl | hl; exacts [.inl hl, .inr (.inr hl)]

/-- A connection is never stuck: whatever has happened, unless somebody has closed the connection or started the server again,
    the server and the network can go on by themselves until the next request is waited for or the server has given up the
    connection. -/
theorem never_stuck (w : World) (ho : ∀ n, Orderly (w.prog n)) (as : List Act) (hb : ∀ a ∈ as, gentle a = true) (s : St)
    (h : run w as = some s) :
    ∃ bs s', (∀ a ∈ bs, own a = true) ∧ s.run w bs = some s' ∧ s'.held = false ∧
      (s'.readers = 1 ∨ (activities s' = 0 ∧ s'.pooled = false)) := by
  obtain ⟨bs, s', h1, h2, h3⟩ := settles ho (good_run ho (good_init w) h) (free_run ho hb (good_init w) free_init h)
  refine ⟨bs, s', h1, h2, h3.held, ?_⟩
  rcases h3.waits with hr | ⟨hr, hp⟩
  · exact .inl hr
  · refine .inr ⟨?_, hp⟩
    rw [show activities s' = s'.readers + s'.writes.length + (s'.calls.filter act).length from rfl, hr, h3.writes, h3.calls]
    rfl

/-- Connections with orderly handlers are not closed as orphans. -/
theorem not_orphaned (w : World) (ho : ∀ n, Orderly (w.prog n)) (as : List Act) (s s' : St) (h : run w as = some s)
    (hp : s.step w .prune = some s') : s' = s := by
  simp only [St.step] at hp
  split at hp
  · cases hp
  · split at hp
    · rename_i hc
      exact absurd hc.1 (by rw [no_orphan (good_run ho (good_init w) h).phase hc.2.1 hc.2.2.1 hc.2.2.2]; simp)
    · simp only [Option.some.injEq] at hp; exact hp.symm

private theorem stays_open {w : World} (ho : ∀ n, Orderly (w.prog n)) (as : List Act) {s s' : St} (hg : Good w s)
    (hq : ∀ a ∈ as, a ≠ .close ∧ a ≠ .stop true ∧ ∀ i, a ≠ .writeFails i) (h1 : s.isOpen = true) (h2 : s.broken = false)
    (h : s.run w as = some s') : s'.isOpen = true ∧ s'.broken = false := by
  induction as generalizing s with
  | nil => simp only [St.run, Option.some.injEq] at h; subst h; exact ⟨h1, h2⟩
  | cons a as ih =>
    simp only [St.run] at h
    cases hs : s.step w a with
    | none => rw [hs] at h; cases h
    | some s1 =>
      rw [hs] at h
      simp only at h
      have hk : s1.isOpen = true ∧ s1.broken = false := by
        have hqa := hq a List.mem_cons_self
        cases a with
        | close => exact absurd rfl hqa.1
        | writeFails i => exact absurd rfl (hqa.2.2 i)
        | stop now =>
          cases now with
          | true => exact absurd rfl hqa.2.1
          | false =>
            simp only [St.step] at hs
            split at hs
            · cases hs
            · simp only [Option.some.injEq] at hs; subst hs; exact ⟨by simp [h1], h2⟩
        | prune =>
          simp only [St.step] at hs
          split at hs
          · cases hs
          · split at hs
            · rename_i hc
              exact absurd hc.1 (by rw [no_orphan hg.phase hc.2.1 hc.2.2.1 hc.2.2.2]; simp)
            · simp only [Option.some.injEq] at hs; subst hs; exact ⟨h1, h2⟩
        | call i whole =>
          simp only [St.step] at hs
          cases hci : s.calls[i]? with
          | none => rw [hci] at hs; cases hs
          | some c =>
            rw [hci] at hs
            simp only at hs
            cases hgo : s.go w c whole with
            | none => rw [hgo] at hs; cases hs
            | some r =>
              obtain ⟨s2, c2⟩ := r
              have : s2.isOpen = true ∧ s2.broken = false := by
                simp only [St.go, St.finish] at hgo
                repeat' split at hgo
                all_goals first
                  | (cases hgo; done)
                  | (simp only [Option.some.injEq, Prod.mk.injEq] at hgo; obtain ⟨rfl, -⟩ := hgo; exact ⟨h1, h2⟩)
              rw [hgo] at hs
              cases c2 <;> simp only [Option.some.injEq] at hs <;> subst hs <;> exact this
        | arrive =>
          simp only [St.step] at hs
          split at hs
          · simp only [Option.some.injEq] at hs; subst hs; exact ⟨h1, h2⟩
          · cases hs
        | readFails =>
          simp only [St.step] at hs
          split at hs
          · simp only [Option.some.injEq] at hs; subst hs; exact ⟨h1, h2⟩
          · cases hs
        | write i k =>
          simp only [St.step] at hs
          split at hs
          · cases hs
          · split at hs
            · simp only [Option.some.injEq] at hs; subst hs; exact ⟨h1, h2⟩
            · cases hs
        | writeEnds i =>
          simp only [St.step] at hs
          split at hs
          · cases hs
          · split at hs
            · simp only [Option.some.injEq] at hs; subst hs; exact ⟨h1, h2⟩
            · cases hs
        | start =>
          simp only [St.step] at hs
          split at hs
          · cases hs
          · simp only [Option.some.injEq] at hs; subst hs; exact ⟨h1, h2⟩
        | other =>
          simp only [St.step] at hs
          split at hs
          · cases hs
          · simp only [Option.some.injEq] at hs; subst hs; exact ⟨h1, h2⟩
      exact ih (good_step ho hg hs) (fun b hb => hq b (List.mem_cons_of_mem _ hb)) hk.1 hk.2 h

/-- `stop` that waits interrupts no answer: unless somebody closes the connection, writing fails or the server is stopped at once,
    every request that was received has its whole answer when nothing goes on any more, or the next is read. -/
theorem stop_lets_finish (w : World) (ho : ∀ n, Orderly (w.prog n)) (as : List Act) (s : St) (h : run w as = some s)
    (hq : ∀ a ∈ as, a ≠ .close ∧ a ≠ .stop true ∧ ∀ i, a ≠ .writeFails i) (hr : 0 < s.readers ∨ activities s = 0) :
    s.wire = answers w s.next := by
  have := stays_open ho as (good_init w) hq rfl rfl h
  exact answered_before_next w ho as s h hr this.1 this.2

/-- Once the server is stopped, at most one more request of the connection is handled, and none if one is being handled already,
    whatever the handlers do. -/
theorem after_stop (w : World) (s s' : St) (bs : List Act) (hs : s.listening = false) (hb : ∀ b ∈ bs, b ≠ .start)
    (h : s.run w bs = some s') : s'.next ≤ s.next + s.readers := by
  suffices hk : s'.listening = false ∧ s'.next + s'.readers ≤ s.next + s.readers by omega
  induction bs generalizing s with
  | nil => simp only [St.run, Option.some.injEq] at h; subst h; exact ⟨hs, Nat.le_refl _⟩
  | cons a bs ih =>
    simp only [St.run] at h
    cases hst : s.step w a with
    | none => rw [hst] at h; cases h
    | some s1 =>
      rw [hst] at h
      simp only at h
      have hk : s1.listening = false ∧ s1.next + s1.readers ≤ s.next + s.readers := by
        cases a with
        | start => exact absurd rfl (hb _ List.mem_cons_self)
        | call i whole =>
          simp only [St.step] at hst
          cases hci : s.calls[i]? with
          | none => rw [hci] at hst; cases hst
          | some c =>
            rw [hci] at hst
            simp only at hst
            cases hgo : s.go w c whole with
            | none => rw [hgo] at hst; cases hst
            | some r =>
              obtain ⟨s2, c2⟩ := r
              have : s2.listening = false ∧ s2.next + s2.readers ≤ s.next + s.readers := by
                simp only [St.go, St.finish, hs, Bool.false_and, Bool.false_eq_true, if_false] at hgo
                repeat' split at hgo
                all_goals first
                  | (cases hgo; done)
                  | (simp only [Option.some.injEq, Prod.mk.injEq] at hgo; obtain ⟨rfl, -⟩ := hgo; exact ⟨by first | rfl | exact hs, Nat.le_refl _⟩)
              rw [hgo] at hst
              cases c2 <;> simp only [Option.some.injEq] at hst <;> subst hst <;> exact this
        | arrive =>
          simp only [St.step] at hst
          split at hst
          · rename_i hc
            simp only [Option.some.injEq] at hst; subst hst; exact ⟨hs, by simp only; omega⟩
          · cases hst
        | readFails =>
          simp only [St.step] at hst
          split at hst
          · simp only [Option.some.injEq] at hst; subst hst; exact ⟨hs, by simp only; omega⟩
          · cases hst
        | write i k =>
          simp only [St.step] at hst
          split at hst
          · cases hst
          · split at hst
            · simp only [Option.some.injEq] at hst; subst hst; exact ⟨hs, Nat.le_refl _⟩
            · cases hst
        | writeEnds i =>
          simp only [St.step] at hst
          split at hst
          · cases hst
          · split at hst
            · simp only [Option.some.injEq] at hst; subst hst; exact ⟨hs, Nat.le_refl _⟩
            · cases hst
        | writeFails i =>
          simp only [St.step] at hst
          split at hst
          · cases hst
          · simp only [Option.some.injEq] at hst; subst hst; exact ⟨hs, Nat.le_refl _⟩
        | stop now =>
          simp only [St.step] at hst
          split at hst
          · cases hst
          · simp only [Option.some.injEq] at hst; subst hst; exact ⟨rfl, Nat.le_refl _⟩
        | close => simp only [St.step, Option.some.injEq] at hst; subst hst; exact ⟨hs, Nat.le_refl _⟩
        | prune =>
          simp only [St.step] at hst
          split at hst
          · cases hst
          · split at hst <;> simp only [Option.some.injEq] at hst <;> subst hst <;> exact ⟨hs, Nat.le_refl _⟩
        | other =>
          simp only [St.step] at hst
          split at hst
          · cases hst
          · simp only [Option.some.injEq] at hst; subst hst; exact ⟨hs, Nat.le_refl _⟩
      obtain ⟨h1, h2⟩ := ih s1 hk.1 (fun b hm => hb b (List.mem_cons_of_mem _ hm)) h
      exact ⟨h1, Nat.le_trans h2 hk.2⟩

/-- The handlers of the library that send an answer and let the writer finish the connection are orderly. -/
theorem reply_orderly (b : Bytes) : Orderly (reply b) ∧ output (reply b) = b :=
  ⟨⟨rfl, rfl, rfl⟩, by simp [reply, output]⟩

private theorem parts_ends (l : List Bytes) : Ends (parts l) := by
  induction l with
  | nil => rfl
  | cons b l ih => exact ⟨rfl, ih, rfl⟩

/-- So is the one that sends files in pieces, if it can read the file. -/
theorem parts_orderly (b : Bytes) (l : List Bytes) : Orderly (parts (b :: l)) ∧ output (parts (b :: l)) = (b :: l).flatten := by
  refine ⟨⟨rfl, parts_ends l, rfl⟩, ?_⟩
  have : ∀ l, output (parts l) = l.flatten := by
    intro l
    induction l with
    | nil => rfl
    | cons b l ih => simp [parts, output, ih]
  exact this _

/-! ### Handlers that are not orderly -/

/-- Nothing more is sent on a connection on which nothing goes on; it stays among the connections of the server until they are
    pruned. -/
private theorem dead {w : World} (bs : List Act) {s s' : St} (h1 : s.readers = 0) (h2 : s.writes = []) (h3 : s.calls = [])
    (h : s.run w bs = some s') : s'.wire = s.wire ∧ s'.log = s.log ∧ ((∀ a ∈ bs, a ≠ .prune) → s'.pooled = s.pooled) := by
  induction bs generalizing s with
  | nil => simp only [St.run, Option.some.injEq] at h; subst h; exact ⟨rfl, rfl, fun _ => rfl⟩
  | cons a bs ih =>
    simp only [St.run] at h
    cases hs : s.step w a with
    | none => rw [hs] at h; cases h
    | some s1 =>
      rw [hs] at h
      simp only at h
      have hk : (s1.readers = 0 ∧ s1.writes = [] ∧ s1.calls = []) ∧ s1.wire = s.wire ∧ s1.log = s.log ∧
          (a ≠ .prune → s1.pooled = s.pooled) := by
        cases a with
        | arrive => simp [St.step, h1] at hs
        | readFails => simp [St.step, h1] at hs
        | call i whole => simp [St.step, h3] at hs
        | write i k => simp [St.step, h2] at hs
        | writeEnds i => simp [St.step, h2] at hs
        | writeFails i => simp [St.step, h2] at hs
        | stop now =>
          simp only [St.step] at hs
          split at hs
          · cases hs
          · simp only [Option.some.injEq] at hs; subst hs; exact ⟨⟨h1, h2, h3⟩, rfl, rfl, fun _ => rfl⟩
        | start =>
          simp only [St.step] at hs
          split at hs
          · cases hs
          · simp only [Option.some.injEq] at hs; subst hs; exact ⟨⟨h1, h2, h3⟩, rfl, rfl, fun _ => rfl⟩
        | close => simp only [St.step, Option.some.injEq] at hs; subst hs; exact ⟨⟨h1, h2, h3⟩, rfl, rfl, fun _ => rfl⟩
        | prune =>
          simp only [St.step] at hs
          split at hs
          · cases hs
          · split at hs <;> simp only [Option.some.injEq] at hs <;> subst hs <;>
              exact ⟨⟨h1, h2, h3⟩, rfl, rfl, fun hne => absurd rfl hne⟩
        | other =>
          simp only [St.step] at hs
          split at hs
          · cases hs
          · simp only [Option.some.injEq] at hs; subst hs; exact ⟨⟨h1, h2, h3⟩, rfl, rfl, fun _ => rfl⟩
      obtain ⟨⟨a1, a2, a3⟩, a4, a5, a6⟩ := hk
      obtain ⟨b1, b2, b3⟩ := ih a1 a2 a3 h
      refine ⟨b1.trans a4, b2.trans a5, fun hne => ?_⟩
      rw [b3 fun x hx => hne x (List.mem_cons_of_mem _ hx), a6 (hne a List.mem_cons_self)]

private def cutActs : List Bytes → List Act
  | [] => [.call 0 false]
  | b :: rest => [.call 0 false, .call 0 false, .write 0 b.length, .writeEnds 0] ++ cutActs rest

private theorem cut_run (w : World) (l : List Bytes) (s : St) (n : Nat) (g : Bool) (h1 : s.isOpen = true) (h2 : s.broken = false)
    (h3 : s.writes = []) (h4 : s.calls = [{ req := n, prog := cut l, guarded := g }]) :
    s.run w (cutActs l) = some { s with wire := s.wire ++ l.flatten, calls := [] } := by
  induction l generalizing s g with
  | nil => simp [cutActs, St.run, St.step, h4, St.go, cut]
  | cons b l ih =>
    simp only [cutActs, List.cons_append, List.nil_append, St.run, St.step, h4, St.go, cut, h1, h3, List.getElem?_cons_zero,
      if_true, List.set_cons_zero, List.eraseIdx_cons_zero, h2, and_self, List.take_length, List.drop_length]
    rw [ih _ false rfl rfl rfl rfl]
    simp

/-- A file that cannot be read, at its beginning or after some pieces, leaves the client without an end of the answer: the
    connection stays open, nothing more is sent on it and no request is read from it, whatever happens; it is removed only when
    the server looks for orphaned connections, that is when another client connects or the server stops. -/
theorem unreadable_file (w : World) (l : List Bytes) (hw : w.prog 0 = cut l) :
    ∃ as s, run w as = some s ∧ s.wire = l.flatten ∧ s.isOpen = true ∧ s.broken = false ∧ s.pooled = true ∧
      s.log = [.request 0] ∧
      ∀ bs s', s.run w bs = some s' → s'.wire = s.wire ∧ s'.log = s.log ∧ ((∀ a ∈ bs, a ≠ .prune) → s'.pooled = true) := by
  refine ⟨.arrive :: cutActs l,
    { lifecycle := w.life 0, next := 1, readers := 0, log := [.request 0], wire := l.flatten }, ?_, ?_⟩
  · simp only [run, St.run, St.step, Nat.zero_lt_one, and_self, if_true, List.nil_append, hw]
    exact cut_run w l _ 0 true rfl rfl rfl rfl
  · refine ⟨rfl, rfl, rfl, rfl, rfl, ?_⟩
    intro bs s' h
    exact dead bs rfl rfl rfl h

/-- The same after an exception `handle_request` does not recover from, a `std::bad_alloc` or one of another kind: the client gets
    no answer at all. -/
theorem not_recovered (w : World) (hw : w.prog 0 = .throw false) :
    ∃ as s, run w as = some s ∧ s.isOpen = true ∧ s.broken = false ∧ s.pooled = true ∧ s.log = [.request 0] ∧
      ∀ bs s', s.run w bs = some s' → s'.wire = [] ∧ s'.log = s.log ∧ ((∀ a ∈ bs, a ≠ .prune) → s'.pooled = true) := by
  refine ⟨[.arrive, .call 0 false], { lifecycle := w.life 0, next := 1, readers := 0, log := [.request 0] },
    by simp [run, St.run, St.step, St.go, hw], rfl, rfl, rfl, rfl, ?_⟩
  intro bs s' h
  exact dead bs rfl rfl rfl h

/-- The same if a function that is called when the answer has been sent throws: only the handler itself is called within the `try` of
    `handle_request` (/repo/src/http_server.cpp:99-121), so that nobody recovers from it. -/
theorem throws_after_send (w : World) (b : Bytes) (failed : Prog) (r : Bool) (hw : w.prog 0 = .send b (.throw r) failed .done) :
    ∃ as s, run w as = some s ∧ s.wire = b ∧ s.isOpen = true ∧ s.broken = false ∧ s.pooled = true ∧ s.log = [.request 0] ∧
      ∀ bs s', s.run w bs = some s' → s'.wire = b ∧ s'.log = s.log ∧ ((∀ a ∈ bs, a ≠ .prune) → s'.pooled = true) := by
  refine ⟨[.arrive, .call 0 false, .call 0 false, .write 0 b.length, .writeEnds 0, .call 0 false],
    { lifecycle := w.life 0, next := 1, readers := 0, log := [.request 0], wire := b },
    by simp [run, St.run, St.step, St.go, hw], rfl, rfl, rfl, rfl, rfl, ?_⟩
  intro bs s' h
  exact dead bs rfl rfl rfl h

/-- A connection that nothing refers to any more, other than the server, is closed and forgotten when the server looks for orphaned
    connections. -/
theorem orphan_removed (w : World) (s : St) (hh : s.held = false) (hr : s.readers = 0) (hw : s.writes = []) (hc : s.calls = [])
    (hp : s.pooled = true) : ∃ s', s.step w .prune = some s' ∧ s'.isOpen = false ∧ s'.pooled = false ∧ s'.log = s.log := by
  simp [St.step, hh, hr, hw, hc, hp]

/-- Such connections come about: one whose handler throws something else. -/
example : ∃ s, run { prog := fun _ => .throw false, life := fun _ => .keepAlive, page := fun _ => [] }
      [.arrive, .call 0 false] = some s ∧
    s.held = false ∧ s.readers = 0 ∧ s.writes = [] ∧ s.calls = [] ∧ s.pooled = true := ⟨_, rfl, rfl, rfl, rfl, rfl, rfl⟩

/-- A handler that starts to send its answer and then throws: `handle_request` lets the error page be sent as well. -/
def throwsLate : Prog := .send [1, 1] (.finish .done) (.finish .done) (.throw true)

/-- The other requests are answered with one byte, which is different for each. -/
def lateWorld : World where
  prog n := if n = 0 then throwsLate else reply [UInt8.ofNat (10 + n)]
  life _ := .keepAlive
  page _ := [2, 2]

/-- Then two answers are sent at once and mix on the wire, and later requests are read while others are handled, and answered
    in another order. -/
theorem mixed : ∃ as s, run lateWorld as = some s ∧ s.wire = [1, 2, 1, 2, 12, 11] ∧ s.isOpen = true ∧ s.broken = false := by
  have h : (run lateWorld [.arrive, .call 0 false, .call 0 false, .call 0 false, .call 0 false, .write 0 1, .write 1 1, .write 0 1,
      .write 1 1, .writeEnds 0, .call 0 false, .call 0 false, .arrive, .call 0 false, .call 0 false, .writeEnds 0, .call 0 false,
      .arrive, .call 1 false, .write 1 1, .write 0 1]).map (fun s => (s.wire, s.isOpen, s.broken)) =
        some ([1, 2, 1, 2, 12, 11], true, false) := by
    decide +kernel
  obtain ⟨s, hs, he⟩ := Option.map_eq_some_iff.1 h
  simp only [Prod.mk.injEq] at he
  exact ⟨_, s, hs, he⟩

/-- Or the connection is removed from the server while a request is waited for. -/
theorem removed_while_read : ∃ as s, run lateWorld as = some s ∧ s.readers = 1 ∧ s.pooled = false := by
  have h : (run lateWorld [.arrive, .call 0 false, .call 0 false, .call 0 false, .call 0 false, .write 0 2, .write 1 2,
      .writeEnds 0, .call 0 false, .call 0 false, .writeEnds 0, .call 0 false]).map (fun s => (s.readers, s.pooled)) =
        some (1, false) := by
    decide +kernel
  obtain ⟨s, hs, he⟩ := Option.map_eq_some_iff.1 h
  simp only [Prod.mk.injEq] at he
  exact ⟨_, s, hs, he⟩

/-- A handler that finishes the connection itself, without sending anything. -/
def finishesAtOnce : World where
  prog _ := .finish .done
  life _ := .pipelined
  page _ := []

theorem stuck {w : World} (bs : List Act) {s s' : St} {c : Call} {next : Prog} (h1 : s.readers = 0) (h2 : s.writes = [])
    (h3 : s.calls = [c]) (h4 : s.held = true) (h5 : c.prog = .finish next) (h : s.run w bs = some s') :
    s'.held = true ∧ s'.wire = s.wire ∧ s'.log = s.log := by
  induction bs generalizing s with
  | nil => simp only [St.run, Option.some.injEq] at h; subst h; exact ⟨h4, rfl, rfl⟩
  | cons a bs ih =>
    simp only [St.run] at h
    cases hs : s.step w a with
    | none => rw [hs] at h; cases h
    | some s1 =>
      rw [hs] at h
      simp only at h
      cases a with
      | arrive => simp [St.step, h1] at hs
      | readFails => simp [St.step, h1] at hs
      | call i whole =>
        cases i with
        | zero => simp [St.step, h3, St.go, h5, h4] at hs
        | succ i => simp [St.step, h3] at hs
      | write i k => simp [St.step, h2] at hs
      | writeEnds i => simp [St.step, h2] at hs
      | writeFails i => simp [St.step, h2] at hs
      | stop now => simp [St.step, h4] at hs
      | start => simp [St.step, h4] at hs
      | prune => simp [St.step, h4] at hs
      | other => simp [St.step, h4] at hs
      | close =>
        simp only [St.step, Option.some.injEq] at hs
        subst hs
        exact ih (s := { s with isOpen := false }) h1 h2 h3 h4 h

/-- If it does so for a request that came in the same bytes as the one before, it waits for ever for the mutex of the server
    that its own caller has locked: no other connection can be accepted or finished any more, and the server cannot be stopped. -/
theorem deadlock : ∃ as s, run finishesAtOnce as = some s ∧ ∀ bs s', s.run finishesAtOnce bs = some s' →
    s'.step finishesAtOnce .other = none ∧ (∀ now, s'.step finishesAtOnce (.stop now) = none) := by
  refine ⟨[.arrive, .call 0 true], _, rfl, ?_⟩
  intro bs s' h
  have := (stuck bs rfl rfl rfl rfl rfl h).1
  exact ⟨by simp [St.step, this], fun now => by simp [St.step, this]⟩

/-- Every request is answered with one byte, and the client sends them together. -/
def pipelining : World where
  prog n := reply [UInt8.ofNat n]
  life _ := .pipelined
  page _ := []

/-- The same with any handler: while the handler of such a request runs, nothing that needs the mutex of the server can be done. -/
theorem others_wait (w : World) (hl : w.life 0 = .pipelined) (b : Bytes) (hp : w.prog 0 = reply b) :
    ∃ as s, run w as = some s ∧ s.log = [.request 0, .finish 0, .request 1] ∧ s.wire = b ∧ s.step w .other = none ∧
      ∀ now, s.step w (.stop now) = none := by
  refine ⟨[.arrive, .call 0 true, .call 0 true, .write 0 b.length, .writeEnds 0, .call 0 true], ?_⟩
  refine ⟨{ next := 2, readers := 0, wire := b, log := [.request 0, .finish 0, .request 1], held := true, lifecycle := w.life 1,
            calls := [{ req := 1, prog := w.prog 1, guarded := true, outer := some (0, .done, false) }] }, ?_, rfl, rfl, rfl,
    fun now => rfl⟩
  simp [run, St.run, St.step, St.go, St.finish, hp, hl, reply]

/-- A concrete case: two requests that came together are answered one after the other, the third after a failed write. -/
example :
    (∀ n, Orderly (pipelining.prog n)) ∧
    (run pipelining [.arrive, .call 0 true, .call 0 true, .write 0 1, .writeEnds 0, .call 0 true, .call 0 true, .call 0 true,
      .call 0 true, .write 0 1, .writeEnds 0, .other, .call 0 false, .call 0 true, .arrive, .call 0 true, .writeFails 0,
      .stop false, .call 1 true, .call 1 true, .call 0 true]).map
        (fun s => (s.wire, s.next, s.pooled, activities s, s.log == turns 3)) = some ([0, 1], 3, false, 0, true) :=
  ⟨fun n => (reply_orderly _).1, by decide +kernel⟩

end Verif.Props.Exchange
