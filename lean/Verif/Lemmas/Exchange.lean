import Verif.Spec.Exchange
import Mathlib.Tactic.Common
/-
Invariants of a connection whose handlers are orderly.
-/
namespace Verif.Exchange
open Verif.Spec.Exchange

/-- The client still receives what is sent. -/
def Alive (s : St) : Prop := s.isOpen = true ∧ s.broken = false

/-- The call has still something to do. -/
def act (c : Call) : Bool := c.prog ≠ .done

theorem split {α : Type} {l : List α} {i : Nat} {x : α} (h : l[i]? = some x) :
    ∃ a b, l = a ++ x :: b ∧ (∀ y, l.set i y = a ++ y :: b) ∧ l.eraseIdx i = a ++ b := by
  induction l generalizing i with
  | nil => simp at h
  | cons z l ih =>
    cases i with
    | zero =>
      simp only [List.getElem?_cons_zero, Option.some.injEq] at h
      subst h
      exact ⟨[], l, rfl, fun y => rfl, rfl⟩
    | succ i =>
      simp only [List.getElem?_cons_succ] at h
      obtain ⟨a, b, h1, h2, h3⟩ := ih h
      exact ⟨z :: a, b, by simp [h1], fun y => by simp [h2], by simp [h3]⟩

/-- What is going on on the connection. -/
inductive Phase (w : World) (s : St) : Prop where
  /-- the next request is waited for -/
  | reading (hr : s.readers = 1) (hw : s.writes = []) (hc : s.calls.filter act = []) (hl : s.log = turns s.next)
      (ha : Alive s → s.wire = answers w s.next)
  /-- a handler is called -/
  | starting (c : Call) (hr : s.readers = 0) (hw : s.writes = []) (hc : s.calls.filter act = [c]) (hn : c.req + 1 = s.next)
      (hg : c.guarded = true) (hp : c.prog = w.prog c.req) (hl : s.log = turns c.req ++ [.request c.req])
      (ha : Alive s → s.wire = answers w c.req)
  /-- a function that ends the answer is called -/
  | ending (c : Call) (hr : s.readers = 0) (hw : s.writes = []) (hc : s.calls.filter act = [c]) (hn : c.req + 1 = s.next)
      (hp : Ends c.prog) (hl : s.log = turns c.req ++ [.request c.req])
      (ha : Alive s → s.wire ++ output c.prog = answers w s.next)
  /-- part of the answer is being sent -/
  | writing (x : Write) (hr : s.readers = 0) (hw : s.writes = [x]) (hc : s.calls.filter act = []) (hn : x.req + 1 = s.next)
      (ho : Ends x.ok) (hf : Ends x.failed) (hl : s.log = turns x.req ++ [.request x.req])
      (ha : Alive s → s.wire ++ x.rest ++ output x.ok = answers w s.next)
  /-- reading has failed -/
  | lost (c : Call) (hr : s.readers = 0) (hw : s.writes = []) (hc : s.calls.filter act = [c]) (hn : c.req = s.next)
      (hp : c.prog = .finish .done) (hk : s.lifecycle = .close) (hl : s.log = turns s.next)
      (ha : Alive s → s.wire = answers w s.next)
  /-- the connection has been finished for good -/
  | over (hr : s.readers = 0) (hw : s.writes = []) (hc : s.calls.filter act = [])
      (hl : s.log = turns s.next ∨ s.log = turns s.next ++ [.finish s.next]) (hp : s.pooled = false)
      (ha : Alive s → s.wire = answers w s.next)

/-- Handlers are called by `finish_connection` only in functions that have nothing else to do. -/
def Nested (s : St) : Prop := ∀ c ∈ s.calls, ∀ o, c.outer = some o → o.2.1 = .done

theorem answers_succ (w : World) (n : Nat) : answers w (n + 1) = answers w n ++ answer w n := by
  simp [answers, List.range_succ]

theorem turns_succ (n : Nat) : turns (n + 1) = turns n ++ [.request n, .finish n] := by
  simp [turns, List.range_succ]

theorem seq_done (p : Prog) : p.seq .done = p := by
  induction p with
  | done => rfl
  | throw r => rfl
  | send b ok failed next _ _ ih => simp [Prog.seq, ih]
  | finish next ih => simp [Prog.seq, ih]

theorem ends_ne_done {p : Prog} (h : Ends p) : p ≠ .done := by
  rintro rfl; exact h

theorem orderly_ne_done {p : Prog} (h : Orderly p) : p ≠ .done := by
  rintro rfl; exact h

theorem answer_send {w : World} {n : Nat} {b : Bytes} {ok failed next : Prog} (h : w.prog n = .send b ok failed next) :
    answer w n = b ++ output ok := by
  simp [answer, h, output]

theorem answer_throw {w : World} {n : Nat} {r : Bool} (h : w.prog n = .throw r) : answer w n = w.page n := by
  simp [answer, h]

theorem filter_one {a b : List Call} {c d : Call} (hc : act c = true) (h : (a ++ c :: b).filter act = [d]) :
    c = d ∧ a.filter act = [] ∧ b.filter act = [] := by
  rw [List.filter_append, List.filter_cons_of_pos hc] at h
  rcases List.append_eq_singleton_iff.1 h with ⟨h1, h2⟩ | ⟨_, h2⟩
  · simp only [List.cons.injEq] at h2
    exact ⟨h2.1, h1, h2.2⟩
  · cases h2

theorem filter_none {a b : List Call} {c : Call} (hc : act c = true) (h : (a ++ c :: b).filter act = []) : False := by
  rw [List.filter_append, List.filter_cons_of_pos hc] at h
  simp at h

theorem filter_idle {a b : List Call} {c d : Call} (hc : act c = false) (hd : act d = false) :
    (a ++ c :: b).filter act = (a ++ d :: b).filter act ∧ (a ++ c :: b).filter act = (a ++ b).filter act := by
  simp [List.filter_append, hc, hd]

theorem filter_set {a b : List Call} {d : Call} (ha : a.filter act = []) (hb : b.filter act = []) :
    (a ++ d :: b).filter act = if act d then [d] else [] := by
  simp [List.filter_append, List.filter_cons, ha, hb]

/-- Steps that change nothing of this but how alive the connection is. -/
theorem Phase.mono {w : World} {s s' : St} (h : Phase w s) (h1 : s'.readers = s.readers) (h2 : s'.writes = s.writes)
    (h3 : s'.calls.filter act = s.calls.filter act) (h4 : s'.log = s.log) (h5 : s'.next = s.next) (h6 : s'.wire = s.wire)
    (h7 : Alive s' → Alive s) (h8 : s'.lifecycle = s.lifecycle) (h9 : s'.pooled = s.pooled) : Phase w s' := by
  cases h with
  | reading hr hw hc hl ha => exact .reading (by rw [h1, hr]) (by rw [h2, hw]) (by rw [h3, hc]) (by rw [h4, h5, hl]) (by rw [h5, h6]; exact ha ∘ h7)
  | starting c hr hw hc hn hg hp hl ha =>
    exact .starting c (by rw [h1, hr]) (by rw [h2, hw]) (by rw [h3, hc]) (by rw [h5, hn]) hg hp (by rw [h4, hl]) (by rw [h6]; exact ha ∘ h7)
  | ending c hr hw hc hn hp hl ha =>
    exact .ending c (by rw [h1, hr]) (by rw [h2, hw]) (by rw [h3, hc]) (by rw [h5, hn]) hp (by rw [h4, hl]) (by rw [h5, h6]; exact ha ∘ h7)
  | writing x hr hw hc hn ho hf hl ha =>
    exact .writing x (by rw [h1, hr]) (by rw [h2, hw]) (by rw [h3, hc]) (by rw [h5, hn]) ho hf (by rw [h4, hl]) (by rw [h5, h6]; exact ha ∘ h7)
  | lost c hr hw hc hn hp hk hl ha =>
    exact .lost c (by rw [h1, hr]) (by rw [h2, hw]) (by rw [h3, hc]) (by rw [h5, hn]) hp (by rw [h8, hk]) (by rw [h4, h5, hl]) (by rw [h5, h6]; exact ha ∘ h7)
  | over hr hw hc hl hp ha =>
    exact .over (by rw [h1, hr]) (by rw [h2, hw]) (by rw [h3, hc]) (by rw [h4, h5]; exact hl) (by rw [h9, hp]) (by rw [h5, h6]; exact ha ∘ h7)

structure Good (w : World) (s : St) : Prop where
  phase : Phase w s
  sent : s.wire <+: answers w s.next
  nested : Nested s

theorem good_init (w : World) : Good w {} :=
  ⟨.reading rfl rfl rfl rfl fun _ => rfl, List.nil_prefix, fun c hc => by simp at hc⟩

theorem sent_succ {w : World} {s : St} (h : s.wire <+: answers w s.next) : s.wire <+: answers w (s.next + 1) := by
  rw [answers_succ]; exact h.trans (List.prefix_append _ _)

theorem ends_cases {p : Prog} (h : Ends p) :
    p = .finish .done ∨ ∃ b ok failed, p = .send b ok failed .done ∧ Ends ok ∧ Ends failed := by
  cases p with
  | done => exact h.elim
  | throw r => exact h.elim
  | send b ok failed next =>
    obtain ⟨rfl, h1, h2⟩ := h
    exact .inr ⟨b, ok, failed, rfl, h1, h2⟩
  | finish next => obtain rfl := h; exact .inl rfl

theorem orderly_cases {p : Prog} (h : Orderly p) :
    p = .throw true ∨ ∃ b ok failed, p = .send b ok failed .done ∧ Ends ok ∧ Ends failed := by
  cases p with
  | done => exact h.elim
  | throw r => obtain rfl := h; exact .inl rfl
  | send b ok failed next =>
    obtain ⟨rfl, h1, h2⟩ := h
    exact .inr ⟨b, ok, failed, rfl, h1, h2⟩
  | finish next => exact h.elim

/-- The one that is active is the one that goes on. -/
theorem only_call {w : World} {s : St} (hp : Phase w s) {a b : List Call} {c : Call} (hs : s.calls = a ++ c :: b)
    (hc : act c = true) : s.readers = 0 ∧ s.writes = [] ∧ a.filter act = [] ∧ b.filter act = [] ∧
      ((c.req + 1 = s.next ∧ c.guarded = true ∧ c.prog = w.prog c.req ∧ s.log = turns c.req ++ [.request c.req] ∧
          (Alive s → s.wire = answers w c.req)) ∨
        (c.req + 1 = s.next ∧ Ends c.prog ∧ s.log = turns c.req ++ [.request c.req] ∧
          (Alive s → s.wire ++ output c.prog = answers w s.next)) ∨
        (c.req = s.next ∧ c.prog = .finish .done ∧ s.lifecycle = .close ∧ s.log = turns s.next ∧
          (Alive s → s.wire = answers w s.next))) := by
  cases hp with
  | reading hr hw hf hl ha => rw [hs] at hf; exact (filter_none hc hf).elim
  | starting d hr hw hf hn hg hp hl ha =>
    rw [hs] at hf
    obtain ⟨rfl, h1, h2⟩ := filter_one hc hf
    exact ⟨hr, hw, h1, h2, .inl ⟨hn, hg, hp, hl, ha⟩⟩
  | ending d hr hw hf hn hp hl ha =>
    rw [hs] at hf
    obtain ⟨rfl, h1, h2⟩ := filter_one hc hf
    exact ⟨hr, hw, h1, h2, .inr (.inl ⟨hn, hp, hl, ha⟩)⟩
  | writing x hr hw hf hn ho hf' hl ha => rw [hs] at hf; exact (filter_none hc hf).elim
  | lost d hr hw hf hn hp hk hl ha =>
    rw [hs] at hf
    obtain ⟨rfl, h1, h2⟩ := filter_one hc hf
    exact ⟨hr, hw, h1, h2, .inr (.inr ⟨hn, hp, hk, hl, ha⟩)⟩
  | over hr hw hf hl hp ha => rw [hs] at hf; exact (filter_none hc hf).elim

theorem nested_set {s : St} (h : Nested s) {a b : List Call} {c d : Call} (hs : s.calls = a ++ c :: b)
    (hd : ∀ o, d.outer = some o → o.2.1 = .done) : ∀ x ∈ a ++ d :: b, ∀ o, x.outer = some o → o.2.1 = .done := by
  intro x hx
  simp only [List.mem_append, List.mem_cons] at hx
  rcases hx with hx | rfl | hx
  · exact h x (by rw [hs]; simp [hx])
  · exact hd
  · exact h x (by rw [hs]; simp [hx])

theorem nested_snoc {s : St} (h : Nested s) (d : Call) (hd : d.outer = none) :
    ∀ x ∈ s.calls ++ [d], ∀ o, x.outer = some o → o.2.1 = .done := by
  intro x hx o ho
  simp only [List.mem_append, List.mem_singleton] at hx
  rcases hx with hx | rfl
  · exact h x hx o ho
  · rw [hd] at ho; cases ho

/-- A step of a call. -/
theorem good_call {w : World} (ho : ∀ n, Orderly (w.prog n)) {s s' : St} {i : Nat} {whole : Bool} (hg : Good w s)
    (h : s.step w (.call i whole) = some s') : Good w s' := by
  obtain ⟨hphase, hsent, hnest⟩ := hg
  simp only [St.step] at h
  cases hci : s.calls[i]? with
  | none => rw [hci] at h; cases h
  | some c =>
    rw [hci] at h
    simp only at h
    obtain ⟨a, b, hs, hset, herase⟩ := split hci
    have hmem : c ∈ s.calls := by rw [hs]; simp
    by_cases hact : act c = true
    · obtain ⟨hr, hw, h1, h2, hcase⟩ := only_call hphase hs hact
      rcases hcase with ⟨hn, hgd, hp, hl, ha⟩ | ⟨hn, hp, hl, ha⟩ | ⟨hn, hp, hk, hl, ha⟩
      · -- the handler begins
        rcases orderly_cases (ho c.req) with hq | ⟨by', ok, failed, hq, hok, hfail⟩
        · have hq' : c.prog = .throw true := by rw [hp, hq]
          simp only [St.go, hq', hgd, Bool.and_self, if_true, Option.some.injEq] at h
          subst h
          rw [hset]
          refine ⟨.ending { c with prog := reply (w.page c.req), guarded := false } hr hw ?_ hn ⟨rfl, rfl, rfl⟩ hl ?_, hsent, ?_⟩
          · simp only [filter_set h1 h2]; rfl
          · intro hal
            simp only
            rw [ha hal, ← hn, answers_succ, answer_throw hq]
            simp [reply, output]
          · exact nested_set hnest hs (fun o hx => hnest c hmem o hx)
        · have hq' : c.prog = .send by' ok failed .done := by rw [hp, hq]
          by_cases hopen : s.isOpen = true
          · simp only [St.go, hq', hopen, if_true, Option.some.injEq] at h
            subst h
            rw [hset]
            refine ⟨.writing { req := c.req, rest := by', ok, failed } hr (by simp [hw]) ?_ hn hok hfail hl ?_, hsent, ?_⟩
            · simp only [filter_set h1 h2]; rfl
            · intro hal
              simp only
              rw [ha ⟨hopen, hal.2⟩, ← hn, answers_succ, answer_send hq, List.append_assoc]
            · exact nested_set hnest hs (fun o hx => hnest c hmem o hx)
          · simp only [St.go, hq', hopen, Bool.false_eq_true, if_false, seq_done, Option.some.injEq] at h
            subst h
            rw [hset]
            refine ⟨.ending { c with prog := failed } hr hw ?_ hn hfail hl ?_, hsent, ?_⟩
            · simp only [filter_set h1 h2]
              rw [if_pos]
              simp [act, ends_ne_done hfail]
            · intro hal; exact absurd hal.1 (by simp)
            · exact nested_set hnest hs (fun o hx => hnest c hmem o hx)
      · -- a function that ends the answer
        rcases ends_cases hp with hq | ⟨by', ok, failed, hq, hok, hfail⟩
        · simp only [St.go, hq] at h
          by_cases hheld : s.held = true
          · simp [hheld] at h
          · simp only [hheld, Bool.false_eq_true, if_false] at h
            have hlog : s.log ++ [Ev.finish c.req] = turns s.next := by
              rw [hl, ← hn, turns_succ]; simp
            have hwire : Alive s → s.wire = answers w s.next := by
              intro hal; have := ha hal; rw [hq] at this; simpa [output] using this
            simp only [St.finish] at h
            split at h
            · split at h
              · simp only [Option.some.injEq] at h
                subst h
                rw [hset]
                refine ⟨.starting _ hr hw (by rw [filter_set h1 h2, if_pos]; simp [act, orderly_ne_done (ho _)]) rfl rfl rfl
                  (by simp only [hlog]) (fun hal => hwire ⟨hal.1, hal.2⟩), sent_succ hsent, ?_⟩
                exact nested_set hnest hs (by intro o hx; simp only [Option.some.injEq] at hx; subst hx; rfl)
              · simp only [Option.some.injEq] at h
                subst h
                rw [hset]
                refine ⟨.reading (by simp [hr]) hw (by simp only [filter_set h1 h2]; rfl) hlog hwire, hsent, ?_⟩
                exact nested_set hnest hs (fun o hx => hnest c hmem o hx)
            · simp only [Option.some.injEq] at h
              subst h
              rw [hset]
              refine ⟨.over hr hw (by simp only [filter_set h1 h2]; rfl) (.inl hlog) rfl hwire, hsent, ?_⟩
              exact nested_set hnest hs (fun o hx => hnest c hmem o hx)
        · by_cases hopen : s.isOpen = true
          · simp only [St.go, hq, hopen, if_true, Option.some.injEq] at h
            subst h
            rw [hset]
            refine ⟨.writing { req := c.req, rest := by', ok, failed } hr (by simp [hw]) ?_ hn hok hfail hl ?_, hsent, ?_⟩
            · simp only [filter_set h1 h2]; rfl
            · intro hal
              have := ha ⟨hopen, hal.2⟩
              rw [hq] at this
              simpa [output] using this
            · exact nested_set hnest hs (fun o hx => hnest c hmem o hx)
          · simp only [St.go, hq, hopen, Bool.false_eq_true, if_false, seq_done, Option.some.injEq] at h
            subst h
            rw [hset]
            refine ⟨.ending { c with prog := failed } hr hw ?_ hn hfail hl ?_, hsent, ?_⟩
            · simp only [filter_set h1 h2]
              rw [if_pos]
              simp [act, ends_ne_done hfail]
            · intro hal; exact absurd hal.1 (by simp)
            · exact nested_set hnest hs (fun o hx => hnest c hmem o hx)
      · -- reading has failed
        simp only [St.go, hp] at h
        by_cases hheld : s.held = true
        · simp [hheld] at h
        · simp only [hheld, Bool.false_eq_true, if_false, St.finish, hk, bne_self_eq_false, Bool.and_false,
            Option.some.injEq] at h
          subst h
          rw [hset]
          refine ⟨.over hr hw (by simp only [filter_set h1 h2]; rfl) (.inr (by simp only [hl, hn])) rfl ha, hsent, ?_⟩
          exact nested_set hnest hs (fun o hx => hnest c hmem o hx)
    · -- the call returns
      have hdone : c.prog = .done := by simpa [act] using hact
      have hact' : act c = false := by simpa using hact
      simp only [St.go, hdone] at h
      cases hout : c.outer with
      | none =>
        simp only [hout, Option.some.injEq] at h
        subst h
        rw [herase]
        refine ⟨hphase.mono rfl rfl ?_ rfl rfl rfl id rfl rfl, hsent, ?_⟩
        · rw [hs]; exact (filter_idle hact' hact').2.symm
        · intro x hx
          exact hnest x (by rw [hs]; simp only [List.mem_append, List.mem_cons] at hx ⊢; tauto)
      | some o =>
        obtain ⟨req, prog, guarded⟩ := o
        have hpd : prog = .done := hnest c hmem _ hout
        simp only [hout, Option.some.injEq] at h
        subst h
        rw [hset]
        refine ⟨hphase.mono rfl rfl ?_ rfl rfl rfl id rfl rfl, hsent, ?_⟩
        · simp only
          rw [hs]
          exact (filter_idle hact' (by simp [act, hpd])).1.symm
        · exact nested_set hnest hs (by intro o hx; simp at hx)

/-- The one write there is. -/
theorem only_write {w : World} {s : St} (hp : Phase w s) {i : Nat} {x : Write} (hx : s.writes[i]? = some x) :
    i = 0 ∧ s.readers = 0 ∧ s.writes = [x] ∧ s.calls.filter act = [] ∧ x.req + 1 = s.next ∧ Ends x.ok ∧ Ends x.failed ∧
      s.log = turns x.req ++ [.request x.req] ∧ (Alive s → s.wire ++ x.rest ++ output x.ok = answers w s.next) := by
  cases hp with
  | writing y hr hw hf hn ho hf' hl ha =>
    rw [hw] at hx
    cases i with
    | zero =>
      simp only [List.getElem?_cons_zero, Option.some.injEq] at hx
      subst hx
      exact ⟨rfl, hr, hw, hf, hn, ho, hf', hl, ha⟩
    | succ i => simp at hx
  | reading hr hw hf hl ha => rw [hw] at hx; simp at hx
  | starting d hr hw hf hn hg hp hl ha => rw [hw] at hx; simp at hx
  | ending d hr hw hf hn hp hl ha => rw [hw] at hx; simp at hx
  | lost d hr hw hf hn hp hk hl ha => rw [hw] at hx; simp at hx
  | over hr hw hf hl hp ha => rw [hw] at hx; simp at hx

theorem only_reader {w : World} {s : St} (hp : Phase w s) (hr : 0 < s.readers) :
    s.readers = 1 ∧ s.writes = [] ∧ s.calls.filter act = [] ∧ s.log = turns s.next ∧
      (Alive s → s.wire = answers w s.next) := by
  cases hp with
  | reading hr' hw hf hl ha => exact ⟨hr', hw, hf, hl, ha⟩
  | starting d hr' hw hf hn hg hp hl ha => omega
  | ending d hr' hw hf hn hp hl ha => omega
  | writing y hr' hw hf hn ho hf' hl ha => omega
  | lost d hr' hw hf hn hp hk hl ha => omega
  | over hr' hw hf hl hp ha => omega

/-- A connection on which nothing goes on has been given up. -/
theorem no_orphan {w : World} {s : St} (hp : Phase w s) (h1 : s.readers = 0) (h2 : s.writes = []) (h3 : s.calls = []) :
    s.pooled = false := by
  cases hp with
  | over hr' hw hf hl hp ha => exact hp
  | reading hr' hw hf hl ha => omega
  | starting d hr' hw hf hn hg hp hl ha => rw [h3] at hf; cases hf
  | ending d hr' hw hf hn hp hl ha => rw [h3] at hf; cases hf
  | writing y hr' hw hf hn ho hf' hl ha => rw [h2] at hw; cases hw
  | lost d hr' hw hf hn hp hk hl ha => rw [h3] at hf; cases hf

theorem filter_snoc {l : List Call} {d : Call} (h : l.filter act = []) (hd : act d = true) :
    (l ++ [d]).filter act = [d] := by
  rw [List.filter_append, h, List.filter_cons_of_pos hd]; rfl

theorem good_step {w : World} (ho : ∀ n, Orderly (w.prog n)) {s s' : St} {a : Act} (hg : Good w s)
    (h : s.step w a = some s') : Good w s' := by
  cases a with
  | call i whole => exact good_call ho hg h
  | arrive =>
    obtain ⟨hphase, hsent, hnest⟩ := hg
    simp only [St.step] at h
    split at h
    · rename_i hc
      obtain ⟨h1, h2, h3, h4, h5⟩ := only_reader hphase hc.1
      simp only [Option.some.injEq] at h
      subst h
      refine ⟨.starting _ (by simp [h1]) h2 (filter_snoc h3 (by simp [act, orderly_ne_done (ho _)])) rfl rfl rfl
        (by simp only [h4]) h5, sent_succ hsent, nested_snoc hnest _ rfl⟩
    · cases h
  | readFails =>
    obtain ⟨hphase, hsent, hnest⟩ := hg
    simp only [St.step] at h
    split at h
    · rename_i hc
      obtain ⟨h1, h2, h3, h4, h5⟩ := only_reader hphase hc
      simp only [Option.some.injEq] at h
      subst h
      exact ⟨.lost _ (by simp [h1]) h2 (filter_snoc h3 (by simp [act])) rfl rfl rfl h4 h5, hsent, nested_snoc hnest _ rfl⟩
    · cases h
  | write i k =>
    obtain ⟨hphase, hsent, hnest⟩ := hg
    simp only [St.step] at h
    cases hx : s.writes[i]? with
    | none => rw [hx] at h; cases h
    | some x =>
      rw [hx] at h
      simp only at h
      obtain ⟨rfl, h1, h2, h3, h4, h5, h6, h7, h8⟩ := only_write hphase hx
      split at h
      · rename_i hal
        simp only [Option.some.injEq] at h
        subst h
        have heq := h8 hal
        have hpart : s.wire ++ x.rest.take k ++ (x.rest.drop k ++ output x.ok) = answers w s.next := by
          rw [← heq]; simp only [List.append_assoc]; rw [← List.append_assoc (x.rest.take k), List.take_append_drop]
        refine ⟨.writing { x with rest := x.rest.drop k } h1 (by simp [h2]) h3 h4 h5 h6 h7 ?_, ?_, hnest⟩
        · intro _
          simp only
          rw [← hpart]; simp only [List.append_assoc]
        · exact ⟨_, hpart⟩
      · cases h
  | writeEnds i =>
    obtain ⟨hphase, hsent, hnest⟩ := hg
    simp only [St.step] at h
    cases hx : s.writes[i]? with
    | none => rw [hx] at h; cases h
    | some x =>
      rw [hx] at h
      simp only at h
      obtain ⟨rfl, h1, h2, h3, h4, h5, h6, h7, h8⟩ := only_write hphase hx
      split at h
      · rename_i hrest
        simp only [Option.some.injEq] at h
        subst h
        refine ⟨.ending _ h1 (by simp [h2]) (filter_snoc h3 (by simp [act, ends_ne_done h5])) h4 h5 h7 ?_, hsent, nested_snoc hnest _ rfl⟩
        intro hal
        have := h8 hal
        rw [hrest] at this
        simpa using this
      · cases h
  | writeFails i =>
    obtain ⟨hphase, hsent, hnest⟩ := hg
    simp only [St.step] at h
    cases hx : s.writes[i]? with
    | none => rw [hx] at h; cases h
    | some x =>
      rw [hx] at h
      simp only [Option.some.injEq] at h
      obtain ⟨rfl, h1, h2, h3, h4, h5, h6, h7, h8⟩ := only_write hphase hx
      subst h
      refine ⟨.ending _ h1 (by simp [h2]) (filter_snoc h3 (by simp [act, ends_ne_done h6])) h4 h6 h7 ?_, hsent, nested_snoc hnest _ rfl⟩
      intro hal
      exact absurd hal.2 (by simp)
  | stop now =>
    obtain ⟨hphase, hsent, hnest⟩ := hg
    simp only [St.step] at h
    split at h
    · cases h
    · simp only [Option.some.injEq] at h
      subst h
      refine ⟨hphase.mono rfl rfl rfl rfl rfl rfl ?_ rfl rfl, hsent, hnest⟩
      intro hal
      have := hal.1
      simp only [Bool.and_eq_true] at this
      exact ⟨this.1, hal.2⟩
  | start =>
    obtain ⟨hphase, hsent, hnest⟩ := hg
    simp only [St.step] at h
    split at h
    · cases h
    · simp only [Option.some.injEq] at h
      subst h
      exact ⟨hphase.mono rfl rfl rfl rfl rfl rfl id rfl rfl, hsent, hnest⟩
  | close =>
    obtain ⟨hphase, hsent, hnest⟩ := hg
    simp only [St.step, Option.some.injEq] at h
    subst h
    exact ⟨hphase.mono rfl rfl rfl rfl rfl rfl (fun hal => absurd hal.1 (by simp)) rfl rfl, hsent, hnest⟩
  | prune =>
    simp only [St.step] at h
    split at h
    · cases h
    · split at h
      · rename_i hc
        exact absurd hc.1 (by rw [no_orphan hg.phase hc.2.1 hc.2.2.1 hc.2.2.2]; simp)
      · simp only [Option.some.injEq] at h
        subst h
        exact hg
  | other =>
    simp only [St.step] at h
    split at h
    · cases h
    · simp only [Option.some.injEq] at h
      subst h
      exact hg

theorem good_run {w : World} (ho : ∀ n, Orderly (w.prog n)) {as : List Act} {s s' : St} (hg : Good w s)
    (h : s.run w as = some s') : Good w s' := by
  induction as generalizing s with
  | nil => simp only [St.run, Option.some.injEq] at h; subst h; exact hg
  | cons a as ih =>
    simp only [St.run] at h
    cases hs : s.step w a with
    | none => rw [hs] at h; cases h
    | some s1 => rw [hs] at h; exact ih (good_step ho hg hs) h

/-! ### Nothing blocks for ever -/

/-- What is left to do for a function. -/
def size : Prog → Nat
  | .done => 0
  | .throw _ => 6
  | .send _ ok failed next => 3 + size ok + size failed + size next
  | .finish next => 1 + size next

/-- What is left to do for a call. -/
def callSize (c : Call) : Nat :=
  size c.prog + (match c.outer with | none => 0 | some (_, p, _) => 1 + size p)

/-- What is left to do for a write. -/
def writeSize (x : Write) : Nat := 1 + (if x.rest = [] then 0 else 1) + size x.ok + size x.failed

/-- What is left to do. -/
def left (s : St) : Nat := (s.calls.map callSize).sum + (s.writes.map writeSize).sum

/-- Nested calls neither finish a connection nor leave the lock to nobody. -/
structure Free (s : St) : Prop where
  count : (s.calls.filter (·.outer.isSome)).length = s.held.toNat
  works : ∀ c ∈ s.calls, c.outer.isSome → s.isOpen = true ∧
    (c.prog = .done ∨ (Orderly c.prog ∧ (c.guarded = true ∨ c.prog ≠ .throw true)))
  reads : s.listening = true → s.isOpen = true

theorem free_init : Free {} := ⟨rfl, fun c hc => by simp at hc, fun _ => rfl⟩

theorem count_set {a b : List Call} {c d : Call} :
    ((a ++ d :: b).filter (·.outer.isSome)).length + c.outer.isSome.toNat =
      ((a ++ c :: b).filter (·.outer.isSome)).length + d.outer.isSome.toNat := by
  simp only [List.filter_append, List.filter_cons, List.length_append]
  cases hc : c.outer <;> cases hd : d.outer <;> simp <;> omega

theorem free_same {s s' : St} (hf : Free s) {a b : List Call} {c d : Call} (hs : s.calls = a ++ c :: b)
    (hs' : s'.calls = a ++ d :: b) (ho : d.outer = c.outer) (h1 : s'.held = s.held) (h2 : s'.isOpen = s.isOpen)
    (h3 : s'.listening = s.listening)
    (hd : c.outer.isSome → d.prog = .done ∨ (Orderly d.prog ∧ (d.guarded = true ∨ d.prog ≠ .throw true))) : Free s' := by
  refine ⟨?_, ?_, by rw [h2, h3]; exact hf.reads⟩
  · have := @count_set a b c d
    rw [hs', h1]
    rw [ho] at this
    rw [← hf.count, hs]
    omega
  · intro x hx hout
    rw [hs'] at hx
    rw [h2]
    simp only [List.mem_append, List.mem_cons] at hx
    rcases hx with hx | rfl | hx
    · exact hf.works x (by rw [hs]; simp [hx]) hout
    · rw [ho] at hout
      exact ⟨(hf.works c (by rw [hs]; simp) hout).1, hd hout⟩
    · exact hf.works x (by rw [hs]; simp [hx]) hout

theorem free_snoc {s s' : St} (hf : Free s) {d : Call} (hs' : s'.calls = s.calls ++ [d]) (ho : d.outer = none)
    (h1 : s'.held = s.held) (h2 : s'.isOpen = s.isOpen) (h3 : s'.listening = s.listening) : Free s' := by
  refine ⟨?_, ?_, by rw [h2, h3]; exact hf.reads⟩
  · rw [hs', h1, ← hf.count, List.filter_append]
    simp [ho]
  · intro x hx hout
    rw [hs'] at hx
    rw [h2]
    simp only [List.mem_append, List.mem_singleton] at hx
    rcases hx with hx | rfl
    · exact hf.works x hx hout
    · simp [ho] at hout

theorem free_step {w : World} (ho : ∀ n, Orderly (w.prog n)) {s s' : St} {a : Act} (hg : Good w s) (hf : Free s)
    (ha : gentle a = true) (h : s.step w a = some s') : Free s' := by
  cases a with
  | close => cases ha
  | start => cases ha
  | prune =>
    simp only [St.step] at h
    split at h
    · cases h
    · split at h
      · rename_i hc
        exact absurd hc.1 (by rw [no_orphan hg.phase hc.2.1 hc.2.2.1 hc.2.2.2]; simp)
      · simp only [Option.some.injEq] at h; subst h; exact hf
  | other =>
    simp only [St.step] at h
    split at h
    · cases h
    · simp only [Option.some.injEq] at h; subst h; exact hf
  | stop now =>
    simp only [St.step] at h
    split at h
    · cases h
    · rename_i hh
      simp only [Option.some.injEq] at h
      subst h
      refine ⟨hf.count, ?_, by simp⟩
      intro c hc hout
      exfalso
      have h0 : (s.calls.filter (·.outer.isSome)).length = 0 := by rw [hf.count]; simp [hh]
      have : c ∈ s.calls.filter (·.outer.isSome) := List.mem_filter.2 ⟨hc, hout⟩
      have h1 := List.length_pos_of_mem this
      omega
  | arrive =>
    simp only [St.step] at h
    split at h
    · simp only [Option.some.injEq] at h; subst h
      exact free_snoc hf rfl rfl rfl rfl rfl
    · cases h
  | readFails =>
    simp only [St.step] at h
    split at h
    · simp only [Option.some.injEq] at h; subst h
      exact free_snoc hf rfl rfl rfl rfl rfl
    · cases h
  | write i k =>
    simp only [St.step] at h
    split at h
    · cases h
    · split at h
      · simp only [Option.some.injEq] at h; subst h
        exact ⟨hf.count, hf.works, hf.reads⟩
      · cases h
  | writeEnds i =>
    simp only [St.step] at h
    split at h
    · cases h
    · split at h
      · simp only [Option.some.injEq] at h; subst h
        exact free_snoc hf rfl rfl rfl rfl rfl
      · cases h
  | writeFails i =>
    simp only [St.step] at h
    split at h
    · cases h
    · simp only [Option.some.injEq] at h; subst h
      exact free_snoc hf rfl rfl rfl rfl rfl
  | call i whole =>
    simp only [St.step] at h
    cases hci : s.calls[i]? with
    | none => rw [hci] at h; cases h
    | some c =>
      rw [hci] at h
      simp only at h
      obtain ⟨a, b, hs, hset, herase⟩ := split hci
      have hmem : c ∈ s.calls := by rw [hs]; simp
      cases hp : c.prog with
      | done =>
        simp only [St.go, hp] at h
        cases hout : c.outer with
        | none =>
          simp only [hout, Option.some.injEq] at h
          subst h
          rw [herase]
          refine ⟨?_, ?_, hf.reads⟩
          · rw [← hf.count, hs]
            simp [List.filter_append, hout]
          · intro x hx
            exact hf.works x (by rw [hs]; simp only [List.mem_append, List.mem_cons] at hx ⊢; tauto)
        | some o =>
          obtain ⟨req, prog, guarded⟩ := o
          simp only [hout, Option.some.injEq] at h
          subst h
          rw [hset]
          have h0 := hf.count
          have h1 := @count_set a b c { req, prog, guarded }
          simp only [hout, Option.isSome_some, Option.isSome_none, Bool.toNat_true, Bool.toNat_false, Nat.add_zero] at h1
          rw [hs, ← h1] at h0
          have h2 : s.held.toNat ≤ 1 := by cases s.held <;> simp
          have h3 : ((a ++ ({ req, prog, guarded } : Call) :: b).filter (·.outer.isSome)).length = 0 := by omega
          refine ⟨h3, ?_, hf.reads⟩
          intro x hx hxo
          exfalso
          have := List.length_pos_of_mem (List.mem_filter.2 ⟨hx, hxo⟩ : x ∈ (a ++ ({ req, prog, guarded } : Call) :: b).filter (·.outer.isSome))
          omega
      | throw r =>
        have hact : act c = true := by simp [act, hp]
        obtain ⟨_, _, _, _, hcase⟩ := only_call hg.phase hs hact
        rcases hcase with ⟨hn, hgd, hpp, hl, hal⟩ | ⟨hn, hpp, hl, hal⟩ | ⟨hn, hpp, hk, hl, hal⟩
        · have : r = true := by
            have := ho c.req
            rw [← hpp, hp] at this
            exact this
          subst this
          simp only [St.go, hp, hgd, Bool.and_self, if_true, Option.some.injEq] at h
          subst h
          rw [hset]
          refine free_same hf hs rfl rfl rfl rfl rfl ?_
          intro _
          exact .inr ⟨⟨rfl, rfl, rfl⟩, .inr (by simp [reply])⟩
        · rw [hp] at hpp; exact hpp.elim
        · rw [hp] at hpp; cases hpp
      | send by' ok failed next =>
        have hact : act c = true := by simp [act, hp]
        obtain ⟨_, _, _, _, hcase⟩ := only_call hg.phase hs hact
        have hnext : next = .done := by
          rcases hcase with ⟨hn, hgd, hpp, hl, hal⟩ | ⟨hn, hpp, hl, hal⟩ | ⟨hn, hpp, hk, hl, hal⟩
          · have := ho c.req; rw [← hpp, hp] at this; exact this.1
          · rw [hp] at hpp; exact hpp.1
          · rw [hp] at hpp; cases hpp
        subst hnext
        by_cases hopen : s.isOpen = true
        · simp only [St.go, hp, hopen, if_true, Option.some.injEq] at h
          subst h
          rw [hset]
          exact free_same hf hs rfl rfl rfl hopen.symm rfl fun _ => .inl rfl
        · simp only [St.go, hp, hopen, Bool.false_eq_true, if_false, Option.some.injEq] at h
          subst h
          rw [hset]
          refine free_same hf hs rfl rfl rfl (by simp [hopen]) rfl fun hout => ?_
          exact absurd (hf.works c hmem hout).1 hopen
      | finish next =>
        simp only [St.go, hp] at h
        by_cases hheld : s.held = true
        · simp [hheld] at h
        · have hnone : c.outer = none := by
            cases hout : c.outer with
            | none => rfl
            | some o =>
              have := (hf.works c hmem (by simp [hout])).2
              rw [hp] at this
              rcases this with h' | h'
              · cases h'
              · exact h'.1.elim
          simp only [hheld, Bool.false_eq_true, if_false, St.finish] at h
          split at h
          · split at h
            · rename_i hcond _
              simp only [Option.some.injEq] at h
              subst h
              rw [hset]
              refine ⟨?_, ?_, hf.reads⟩
              · have h1 := @count_set a b c { req := s.next, prog := w.prog s.next, guarded := true, outer := some (c.req, next, c.guarded) }
                have h0 := hf.count
                simp only [hheld] at h0
                rw [hs] at h0
                simp only [hnone, Option.isSome_some, Option.isSome_none, Bool.toNat_true, Bool.toNat_false, Nat.add_zero] at h1 h0 ⊢
                omega
              · intro x hx hxo
                have hopen : s.isOpen = true := by
                  apply hf.reads
                  simp only [Bool.and_eq_true] at hcond
                  exact hcond.1
                simp only [List.mem_append, List.mem_cons] at hx
                rcases hx with hx | rfl | hx
                · exact hf.works x (by rw [hs]; simp [hx]) hxo
                · exact ⟨hopen, .inr ⟨ho _, .inl rfl⟩⟩
                · exact hf.works x (by rw [hs]; simp [hx]) hxo
            · simp only [Option.some.injEq] at h
              subst h
              rw [hset]
              refine free_same hf hs rfl rfl (by simp [hheld]) rfl rfl fun hout => ?_
              rw [hnone] at hout; cases hout
          · simp only [Option.some.injEq] at h
            subst h
            rw [hset]
            refine free_same hf hs rfl rfl (by simp [hheld]) rfl rfl fun hout => ?_
            rw [hnone] at hout; cases hout

theorem left_set {s s' : St} {a b : List Call} {c d : Call} (hs : s.calls = a ++ c :: b) (hs' : s'.calls = a ++ d :: b)
    (hw : (s'.writes.map writeSize).sum + callSize d < (s.writes.map writeSize).sum + callSize c) : left s' < left s := by
  simp only [left, hs, hs', List.map_append, List.map_cons, List.sum_append, List.sum_cons]
  omega

/-- Nothing goes on on a connection that was given up. -/
def Pool (s : St) : Prop := s.pooled = false → s.readers = 0 ∧ s.writes = [] ∧ s.calls.filter act = []

theorem pool_init : Pool {} := fun h => by cases h

theorem pool_step {w : World} (ho : ∀ n, Orderly (w.prog n)) {s s' : St} {a : Act} (hg : Good w s) (hp : Pool s)
    (h : s.step w a = some s') : Pool s' := by
  intro hp'
  cases a with
  | call i whole =>
    simp only [St.step] at h
    cases hci : s.calls[i]? with
    | none => rw [hci] at h; cases h
    | some c =>
      rw [hci] at h
      simp only at h
      obtain ⟨a, b, hs, hset, herase⟩ := split hci
      have hmem : c ∈ s.calls := by rw [hs]; simp
      cases hpc : c.prog with
      | done =>
        have hact : act c = false := by simp [act, hpc]
        simp only [St.go, hpc] at h
        cases hout : c.outer with
        | none =>
          simp only [hout, Option.some.injEq] at h
          subst h
          obtain ⟨h1, h2, h3⟩ := hp hp'
          refine ⟨h1, h2, ?_⟩
          rw [herase, ← (filter_idle hact hact (a := a) (b := b)).2, ← hs]
          exact h3
        | some o =>
          obtain ⟨req, prog, guarded⟩ := o
          have hpd : prog = .done := hg.nested c hmem _ hout
          simp only [hout, Option.some.injEq] at h
          subst h
          obtain ⟨h1, h2, h3⟩ := hp hp'
          refine ⟨h1, h2, ?_⟩
          rw [hset, ← (filter_idle hact (d := { req, prog, guarded }) (by simp [act, hpd]) (a := a) (b := b)).1, ← hs]
          exact h3
      | throw r =>
        exfalso
        have hact : act c = true := by simp [act, hpc]
        have hpool : s.pooled = false := by
          by_cases hgd : (c.guarded && r) = true
          · simp only [St.go, hpc, hgd, if_true, Option.some.injEq] at h; subst h; exact hp'
          · cases hout : c.outer <;>
              (simp only [St.go, hpc, hgd, hout, Bool.false_eq_true, if_false, Option.some.injEq] at h; subst h; exact hp')
        have := (hp hpool).2.2
        rw [hs] at this
        exact filter_none hact this
      | send by' ok failed next =>
        exfalso
        have hact : act c = true := by simp [act, hpc]
        have hpool : s.pooled = false := by
          by_cases hopen : s.isOpen = true <;>
            (simp only [St.go, hpc, hopen, Bool.false_eq_true, if_true, if_false, Option.some.injEq] at h; subst h; exact hp')
        have := (hp hpool).2.2
        rw [hs] at this
        exact filter_none hact this
      | finish next =>
        have hact : act c = true := by simp [act, hpc]
        obtain ⟨hr, hw, h1, h2, hcase⟩ := only_call hg.phase hs hact
        have hnext : next = .done := by
          rcases hcase with ⟨hn, hgd, hpp, hl, hal⟩ | ⟨hn, hpp, hl, hal⟩ | ⟨hn, hpp, hk, hl, hal⟩
          · have := ho c.req; rw [← hpp, hpc] at this; exact this.elim
          · rw [hpc] at hpp; exact hpp
          · rw [hpc] at hpp; cases hpp; rfl
        subst hnext
        by_cases hpool : s.pooled = false
        · have := (hp hpool).2.2
          rw [hs] at this
          exact (filter_none hact this).elim
        · simp only [St.go, hpc] at h
          by_cases hheld : s.held = true
          · simp [hheld] at h
          · simp only [hheld, Bool.false_eq_true, if_false, St.finish] at h
            split at h
            · split at h
              · cases h; exact absurd hp' hpool
              · cases h; exact absurd hp' hpool
            · simp only [Option.some.injEq] at h
              subst h
              refine ⟨hr, hw, ?_⟩
              rw [hset, filter_set h1 h2]
              rfl
  | arrive =>
    simp only [St.step] at h
    split at h
    · rename_i hc
      simp only [Option.some.injEq] at h; subst h
      have := (hp hp').1
      omega
    · cases h
  | readFails =>
    simp only [St.step] at h
    split at h
    · rename_i hc
      simp only [Option.some.injEq] at h; subst h
      have := (hp hp').1
      omega
    · cases h
  | write i k =>
    simp only [St.step] at h
    cases hx : s.writes[i]? with
    | none => rw [hx] at h; cases h
    | some x =>
      rw [hx] at h
      simp only at h
      split at h
      · simp only [Option.some.injEq] at h; subst h
        have := (hp hp').2.1
        rw [this] at hx; simp at hx
      · cases h
  | writeEnds i =>
    simp only [St.step] at h
    cases hx : s.writes[i]? with
    | none => rw [hx] at h; cases h
    | some x =>
      rw [hx] at h
      simp only at h
      split at h
      · simp only [Option.some.injEq] at h; subst h
        have := (hp hp').2.1
        rw [this] at hx; simp at hx
      · cases h
  | writeFails i =>
    simp only [St.step] at h
    cases hx : s.writes[i]? with
    | none => rw [hx] at h; cases h
    | some x =>
      rw [hx] at h
      simp only [Option.some.injEq] at h; subst h
      have := (hp hp').2.1
      rw [this] at hx; simp at hx
  | stop now =>
    simp only [St.step] at h
    split at h
    · cases h
    · simp only [Option.some.injEq] at h; subst h; exact hp hp'
  | start =>
    simp only [St.step] at h
    split at h
    · cases h
    · simp only [Option.some.injEq] at h; subst h; exact hp hp'
  | close => simp only [St.step, Option.some.injEq] at h; subst h; exact hp hp'
  | prune =>
    simp only [St.step] at h
    split at h
    · cases h
    · split at h
      · rename_i hc
        simp only [Option.some.injEq] at h; subst h
        exact ⟨hc.2.1, hc.2.2.1, by rw [hc.2.2.2]; rfl⟩
      · simp only [Option.some.injEq] at h; subst h; exact hp hp'
  | other =>
    simp only [St.step] at h
    split at h
    · cases h
    · simp only [Option.some.injEq] at h; subst h; exact hp hp'

theorem pool_run {w : World} (ho : ∀ n, Orderly (w.prog n)) {as : List Act} {s s' : St} (hg : Good w s) (hp : Pool s)
    (h : s.run w as = some s') : Pool s' := by
  induction as generalizing s with
  | nil => simp only [St.run, Option.some.injEq] at h; subst h; exact hp
  | cons a as ih =>
    simp only [St.run] at h
    cases hs : s.step w a with
    | none => rw [hs] at h; cases h
    | some s1 => rw [hs] at h; exact ih (good_step ho hg hs) (pool_step ho hg hp hs) h

/-- The next request is waited for or the connection has been given up, and nothing else goes on. -/
structure Quiet (s : St) : Prop where
  waits : s.readers = 1 ∨ (s.readers = 0 ∧ s.pooled = false)
  writes : s.writes = []
  calls : s.calls.filter act = []
  held : s.held = false

/-- One step on. -/
theorem progress {w : World} (ho : ∀ n, Orderly (w.prog n)) {s : St} (hg : Good w s) (hf : Free s) :
    Quiet s ∨ ∃ a s', own a = true ∧ s.step w a = some s' ∧ (s.held = false → s'.held = false) ∧ left s' < left s := by
  -- the call that holds the mutex returns
  have pops : s.held = true → (∀ d ∈ s.calls, d.outer.isSome → d.prog = .done) →
      ∃ a s', own a = true ∧ s.step w a = some s' ∧ (s.held = false → s'.held = false) ∧ left s' < left s := by
    intro hheld hall
    have hlen : 0 < (s.calls.filter (·.outer.isSome)).length := by rw [hf.count, hheld]; decide
    obtain ⟨d, hd⟩ := List.exists_mem_of_length_pos hlen
    obtain ⟨hdm, hdo⟩ := List.mem_filter.1 hd
    obtain ⟨o, hdout⟩ := Option.isSome_iff_exists.1 hdo
    obtain ⟨req, prog, guarded⟩ := o
    have hdone := hall d hdm hdo
    obtain ⟨j, hj⟩ := List.mem_iff_getElem?.1 hdm
    obtain ⟨a', b', hs', hset', -⟩ := split hj
    refine ⟨.call j true, { s with held := false, calls := s.calls.set j { req, prog, guarded } }, rfl,
      by simp [St.step, hj, St.go, hdone, hdout], fun _ => rfl, left_set hs' (hset' _) ?_⟩
    simp only [callSize, hdone, hdout, size]
    omega
  have idle : s.writes = [] → s.calls.filter act = [] → (s.readers = 1 ∨ (s.readers = 0 ∧ s.pooled = false)) →
      Quiet s ∨ ∃ a s', own a = true ∧ s.step w a = some s' ∧ (s.held = false → s'.held = false) ∧ left s' < left s := by
    intro hw hc hr
    cases hheld : s.held with
    | false => exact .inl ⟨hr, hw, hc, hheld⟩
    | true =>
      refine .inr ?_
      have := pops hheld ?_
      · rw [hheld] at this; exact this
      intro d hdm _
      by_contra hne
      have hdc : d ∈ s.calls.filter act := List.mem_filter.2 ⟨hdm, by simp [act, hne]⟩
      rw [hc] at hdc
      cases hdc
  -- a call with an active function goes on
  have key : ∀ c, s.readers = 0 → s.calls.filter act = [c] →
      (c.prog = .finish .done ∨ (∃ b ok failed, c.prog = .send b ok failed .done) ∨ (c.prog = .throw true ∧ c.guarded = true)) →
      ∃ a s', own a = true ∧ s.step w a = some s' ∧ (s.held = false → s'.held = false) ∧ left s' < left s := by
    intro c hr hc hcase
    have hmem : c ∈ s.calls := (List.mem_filter.1 (hc ▸ List.mem_singleton.2 rfl : c ∈ s.calls.filter act)).1
    obtain ⟨i, hi⟩ := List.mem_iff_getElem?.1 hmem
    obtain ⟨a, b, hs, hset, -⟩ := split hi
    rcases hcase with hp | ⟨by', ok, failed, hp⟩ | ⟨hp, hgd⟩
    · by_cases hheld : s.held = true
      · -- the function that holds the mutex returns
        refine pops hheld ?_
        intro d hdm hdo
        by_contra hne
        have hdc : d ∈ s.calls.filter act := List.mem_filter.2 ⟨hdm, by simp [act, hne]⟩
        rw [hc] at hdc
        have hdc := List.mem_singleton.1 hdc
        subst hdc
        have := (hf.works d hdm hdo).2
        rw [hp] at this
        rcases this with h' | h'
        · cases h'
        · exact h'.1.elim
      · refine ⟨.call i false, ?_⟩
        by_cases hcond : (s.listening && s.lifecycle != .close) = true
        · refine ⟨{ s with
              log := s.log ++ [.finish c.req], lifecycle := .close, readers := s.readers + 1
              calls := s.calls.set i { c with prog := .done } }, rfl,
            by simp [St.step, hi, St.go, hp, hheld, St.finish, hcond], id, left_set hs (hset _) ?_⟩
          simp only [callSize, hp, size]
          omega
        · refine ⟨{ s with log := s.log ++ [.finish c.req], pooled := false, calls := s.calls.set i { c with prog := .done } }, rfl,
            by simp [St.step, hi, St.go, hp, hheld, St.finish, hcond], id, left_set hs (hset _) ?_⟩
          simp only [callSize, hp, size]
          omega
    · refine ⟨.call i false, ?_⟩
      by_cases hopen : s.isOpen = true
      · refine ⟨{ s with writes := s.writes ++ [{ req := c.req, rest := by', ok, failed }],
                         calls := s.calls.set i { c with prog := .done } }, rfl,
          by simp [St.step, hi, St.go, hp, hopen], id, left_set hs (hset _) ?_⟩
        simp only [List.map_append, List.sum_append, List.map_cons, List.map_nil, List.sum_cons, List.sum_nil, writeSize, callSize,
          hp, size]
        split <;> omega
      · refine ⟨{ s with calls := s.calls.set i { c with prog := failed } }, rfl,
          by simp [St.step, hi, St.go, hp, hopen, seq_done], id, left_set hs (hset _) ?_⟩
        simp only [callSize, hp, size]
        omega
    · refine ⟨.call i false, { s with calls := s.calls.set i { c with prog := reply (w.page c.req), guarded := false } }, rfl,
          by simp [St.step, hi, St.go, hp, hgd], id, left_set hs (hset _) ?_⟩
      simp only [callSize, hp, size, reply]
      omega
  obtain ⟨hphase, -, -⟩ := hg
  cases hphase with
  | reading hr hw hc hl ha => exact idle hw hc (.inl hr)
  | starting c hr hw hc hn hgd hp hl ha =>
    refine .inr (key c hr hc ?_)
    rcases orderly_cases (ho c.req) with hq | ⟨b, ok, failed, hq, -, -⟩
    · exact .inr (.inr ⟨by rw [hp, hq], hgd⟩)
    · exact .inr (.inl ⟨b, ok, failed, by rw [hp, hq]⟩)
  | ending c hr hw hc hn hp hl ha =>
    refine .inr (key c hr hc ?_)
    rcases ends_cases hp with hq | ⟨b, ok, failed, hq, -, -⟩
    · exact .inl hq
    · exact .inr (.inl ⟨b, ok, failed, hq⟩)
  | lost c hr hw hc hn hp hk hl ha => exact .inr (key c hr hc (.inl hp))
  | over hr hw hc hl hp ha => exact idle hw hc (.inr ⟨hr, hp⟩)
  | writing x hr hw hc hn hok hfail hl ha =>
    refine .inr ?_
    by_cases hrest : x.rest = []
    · refine ⟨.writeEnds 0, { s with writes := [], calls := s.calls ++ [{ req := x.req, prog := x.ok }] }, rfl,
        by simp [St.step, hw, hrest], id, ?_⟩
      simp only [left, hw, List.map_append, List.sum_append, List.map_cons, List.map_nil, List.sum_cons, List.sum_nil, writeSize,
        callSize, hrest, if_true]
      omega
    · by_cases hal : s.isOpen = true ∧ s.broken = false
      · refine ⟨.write 0 x.rest.length, { s with wire := s.wire ++ x.rest, writes := [{ x with rest := [] }] }, rfl,
          by simp [St.step, hw, hal], id, ?_⟩
        simp only [left, hw, List.map_cons, List.map_nil, List.sum_cons, List.sum_nil, writeSize, hrest, if_false, if_true]
        omega
      · refine ⟨.writeFails 0, { s with broken := true, writes := [], calls := s.calls ++ [{ req := x.req, prog := x.failed }] }, rfl,
          by simp [St.step, hw], id, ?_⟩
        simp only [left, hw, List.map_append, List.sum_append, List.map_cons, List.map_nil, List.sum_cons, List.sum_nil, writeSize,
          callSize, hrest, if_false]
        omega

theorem own_gentle {a : Act} (h : own a = true) : gentle a = true := by
  cases a <;> first | rfl | cases h

theorem free_run {w : World} (ho : ∀ n, Orderly (w.prog n)) {as : List Act} (hb : ∀ a ∈ as, gentle a = true) {s s' : St}
    (hg : Good w s) (hf : Free s) (h : s.run w as = some s') : Free s' := by
  induction as generalizing s with
  | nil => simp only [St.run, Option.some.injEq] at h; subst h; exact hf
  | cons a as ih =>
    simp only [St.run] at h
    cases hs : s.step w a with
    | none => rw [hs] at h; cases h
    | some s1 =>
      rw [hs] at h
      exact ih (fun b hm => hb b (List.mem_cons_of_mem _ hm)) (good_step ho hg hs)
        (free_step ho hg hf (hb a List.mem_cons_self) hs) h

/-- The next request is read or the connection is given up after some more steps. -/
theorem settles {w : World} (ho : ∀ n, Orderly (w.prog n)) {s : St} (hg : Good w s) (hf : Free s) :
    ∃ as s', (∀ a ∈ as, own a = true) ∧ s.run w as = some s' ∧ Quiet s' := by
  induction hn : left s using Nat.strongRecOn generalizing s with
  | _ n ih =>
    subst hn
    rcases progress ho hg hf with h | ⟨a, s', hown, hs, -, h⟩
    · exact ⟨[], s, by simp, rfl, h⟩
    · obtain ⟨as, s2, h1, h2, h3⟩ := ih _ h (good_step ho hg hs) (free_step ho hg hf (own_gentle hown) hs) rfl
      refine ⟨a :: as, s2, ?_, by simp [St.run, hs, h2], h3⟩
      intro b hb
      rcases List.mem_cons.1 hb with rfl | hb
      · exact hown
      · exact h1 b hb

end Verif.Exchange
