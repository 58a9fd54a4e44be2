import Verif.Lemmas.ReadTimer
import Verif.Model.Reader
/-
C78: the time limit for reads.
-/
namespace Verif.Props.ReadTimer
open Verif.ReadTimer Spec.ReadTimer

variable {timeout : Nat}

/-! ### Nothing is cut off too early -/

/-- C78: a read is aborted by a timer only if the reader has been waiting for bytes for the whole time limit; whatever the
    timers of earlier reads do. -/
theorem aborted_after_timeout {l : List Act} {s : St} (h : run timeout l = some s) {pre post : List Ev} {t : Nat}
    (hl : s.log = pre ++ .got t .aborted :: post) : 0 < timeout ∧ ∃ t0, WaitingSince pre t0 ∧ t0 + timeout ≤ t := by
  obtain ⟨_, t0, hw, h1⟩ := (inv h).each _ _ _ hl
  exact ⟨(h1 rfl).2, t0, hw, (h1 rfl).1⟩

/-- C78: the timers do nothing to the connection unless a reader has been waiting for bytes for the whole time limit. -/
theorem cancelled_after_timeout {l : List Act} {s : St} (h : run timeout l = some s) {pre post : List Ev} {t : Nat}
    (hl : s.log = pre ++ .cancelled t :: post) : 0 < timeout ∧ ∃ t0, WaitingSince pre t0 ∧ t0 + timeout ≤ t := by
  obtain ⟨t0, hw, h1, h2⟩ := (inv h).each _ _ _ hl
  exact ⟨h2, t0, hw, h1⟩

/-- C78: the timers of readers never abort a write, such as that of the answer. -/
theorem writes_undisturbed {l : List Act} {s : St} (h : run timeout l = some s) (t : Nat) :
    .aborted t .write ∉ s.log ∧ .wrote t .aborted ∉ s.log := by
  constructor
  · intro hm
    obtain ⟨pre, post, e⟩ := List.append_of_mem hm
    have := ((inv h).each _ _ _ e).1
    cases this
  · intro hm
    obtain ⟨pre, post, e⟩ := List.append_of_mem hm
    exact (inv h).each _ _ _ e rfl

/-- C78: the reader is given bytes exactly if bytes have arrived, even if the time limit is reached before it gets them. -/
theorem bytes_not_lost {l : List Act} {s : St} (h : run timeout l = some s) {pre post : List Ev} {t : Nat} {r : Result}
    (hl : s.log = pre ++ .got t r :: post) : Arrived pre ↔ r = .data :=
  ((inv h).each _ _ _ hl).1

/-! ### Reads are cut off in time -/

/-- C78 in part: if a read is pending and the time limit is reached, the timer aborts the read and the user is told.
    (Missing: the timer has gone off between `start` and the beginning of the read, see `never_times_out`.) -/
theorem times_out_partial {l : List Act} {s : St} (h : run timeout l = some s) (ht : 0 < timeout) (hp : s.op = .pending .read)
    (hf : ¬Fired s.log) {t0 : Nat} (hw : WaitingSince s.log t0) (n : Nat) (hn : t0 + timeout ≤ s.now + n) :
    ∃ k acts s', (∀ a ∈ acts, a = .expire k ∨ a = .callback k) ∧ run timeout (l ++ .tick n :: acts ++ [.handle]) = some s' ∧
      ∃ pre, s'.log = pre ++ [.got (s.now + n) .aborted, .told (s.now + n)] := by
  have hi := inv h
  have hph := phase_read hi hp
  cases hc : s.cur with
  | none => exact absurd hc (hi.armed ht (.inr hph))
  | some k =>
    obtain ⟨t, hk, c⟩ := hi.cur k hc
    obtain ⟨t1, hw1, hd⟩ := c.deadline
    have : t1 = t0 := waiting_unique hw1 hw
    subst this
    have hm := List.mem_of_getElem? hk
    have hfew := hi.few t hm
    have hpq : t.pending + t.queued ≠ 0 := fun h0 => hf (c.fired.2 h0)
    have hnow := hi.clock t hm
    have hlive := c.live
    have hlt : k < s.timers.length := (List.getElem?_eq_some_iff.1 hk).1
    -- what the callback does after the tick
    have fin : ∀ (l2 : List Act) (s2 : St) (t2 : Timer.St), run timeout l2 = some s2 → s2.timers[k]? = some t2 → t2.queued > 0 →
        t2.cancelled = false → s2.op = .pending .read → s2.now = s.now + n →
        ∃ s', run timeout (l2 ++ [.callback k] ++ [.handle]) = some s' ∧
          ∃ pre, s'.log = pre ++ [.got (s.now + n) .aborted, .told (s.now + n)] := by
      intro l2 s2 t2 h2 hk2 hq2 hc2 hp2 hn2
      let s3 : St := ({ s2 with timers := s2.timers.set k t2.callback } : St).cancelConn
      have h3 : run timeout (l2 ++ [.callback k]) = some s3 :=
        (run_snoc ..).2 ⟨s2, h2, by simp [St.step, hk2, hq2, hc2, s3]⟩
      have ho3 : s3.op = .complete .read .aborted := by simp [s3, St.cancelConn, hp2]
      have hn3 : s3.now = s.now + n := by simp [s3, St.cancelConn, hp2, hn2]
      have hdn : s3.disarm.now = s3.now := (disarm_timers (inv h3)).2.2.2.2.2
      refine ⟨_, (run_snoc ..).2 ⟨s3, h3, by simp only [St.step, ho3]; rfl⟩, s3.log, ?_⟩
      simp [hdn, hn3]
    let s1 : St := { s with now := s.now + n, timers := s.timers.map (·.step (.tick n)) }
    have h1 : run timeout (l ++ [.tick n]) = some s1 := (run_snoc ..).2 ⟨s, h, rfl⟩
    have hk1 : s1.timers[k]? = some (t.step (.tick n)) := by simp [s1, hk]
    by_cases hq : t.queued > 0
    · obtain ⟨s', h', hl'⟩ := fin _ s1 _ h1 hk1 hq hlive hp rfl
      exact ⟨k, [.callback k], s', by simp, by simpa using h', hl'⟩
    · have hpend : t.pending > 0 := by omega
      have hdue : (t.step (.tick n)).pending > 0 ∧ (t.step (.tick n)).deadline ≤ (t.step (.tick n)).now := by
        simp only [Timer.St.step]
        exact ⟨hpend, by omega⟩
      let t2 := (t.step (.tick n)).expire
      let s2 : St := { s1 with timers := s1.timers.set k t2 }
      have h2 : run timeout (l ++ [.tick n] ++ [.expire k]) = some s2 :=
        (run_snoc ..).2 ⟨s1, h1, by simp only [St.step, hk1, hdue, and_self, if_true]; rfl⟩
      have e2 : t2 = { t.step (.tick n) with queued := t.queued + t.pending, pending := 0, log := t.log ++ [.expired (t.now + n)] } := by
        simp only [t2, Timer.St.expire, hdue, and_self, if_true]; rfl
      have hk2 : s2.timers[k]? = some t2 := by simp [s2, s1, hlt]
      obtain ⟨s', h', hl'⟩ := fin _ s2 t2 h2 hk2 (by rw [e2]; simp only []; omega) (by rw [e2]; exact hlive) hp rfl
      exact ⟨k, [.expire k, .callback k], s', by simp, by simpa using h', hl'⟩

/-- C78: if whatever can be done is done at once, no read lasts longer than the time limit. -/
theorem reads_bounded {l : List Act} {s : St} (h : run timeout l = some s) (ht : 0 < timeout) (hpr : Prompt timeout l) :
    (∀ pre t r post, s.log = pre ++ .got t r :: post → ∃ t0, WaitingSince pre t0 ∧ t ≤ t0 + timeout) ∧
    (s.phase = .waiting → ∃ t0, WaitingSince s.log t0 ∧ s.now ≤ t0 + timeout) := by
  have hi := prompt_inv ht h hpr
  exact ⟨fun pre t r post hl => hi.each _ _ _ hl t r rfl, hi.waiting⟩

/-! ### Examples -/

/-- A request in two pieces, an answer, and then the peer is silent. -/
def talk : List Act := [.receive false, .begin, .tick 9, .arrive, .handle, .more, .begin, .tick 9, .arrive, .expire 1, .callback 0, .handle,
  .finish, .write, .tick 30, .callback 1, .sent, .handleWrite, .receive false, .begin, .tick 10, .expire 2, .callback 2, .handle]

/-- The second timer has not expired at that moment. -/
example : run 10 (talk.take 10) = none := by decide
def talk' : List Act := talk.filter (· ≠ .expire 1)
example : (run 10 talk').map (·.log) = some [.asked 0, .arrived 9, .got 9 .data, .asked 9, .arrived 18, .got 18 .data, .told 18,
    .wrote 48 .data, .asked 48, .cancelled 58, .aborted 58 .read, .got 58 .aborted, .told 58] := by decide
/-- Bytes that arrive in time are not lost even if the timer goes off before they are handled. -/
example : (run 10 [.receive false, .begin, .tick 10, .expire 0, .arrive, .callback 0, .handle]).map (·.log) =
    some [.asked 0, .arrived 10, .cancelled 10, .got 10 .data] := by decide
example : ∃ s, run 10 (talk'.take 2) = some s ∧ s.op = .pending .read ∧ WaitingSince s.log 0 := ⟨_, rfl, rfl, [], [], rfl, nofun⟩

/-- The peer is silent, and everything is done at once. -/
def silent : List Act := [.receive false, .begin, .tick 10, .expire 0, .callback 0, .handle]
example : Prompt 10 silent := by
  intro a n b s e h
  have ha : a = [.receive false, .begin] ∧ n = 10 := by
    rcases a with _ | ⟨x, _ | ⟨y, _ | ⟨z, _ | ⟨u, _ | ⟨v, _ | ⟨w, _ | ⟨q, a⟩⟩⟩⟩⟩⟩⟩ <;>
      (simp [silent] at e ⊢; try simp [e])
  obtain ⟨rfl, rfl⟩ := ha
  have hs : run 10 [.receive false, .begin] = some s := h
  cases hs
  refine ⟨by decide, by decide, nofun, ?_⟩
  intro t ht
  cases List.mem_singleton.1 ht
  decide
example : (run 10 silent).map (·.log) = some [.asked 0, .cancelled 10, .aborted 10 .read, .got 10 .aborted, .told 10] := by decide

/-! ### Findings -/

/-- The timer is started before the read; the thread is held up in between for as long as the time limit. -/
def heldUp : List Act := [.receive false, .tick 10, .expire 0, .callback 0, .begin]

/-- C78 fails as stated: the timer goes off before the read was begun; then the read has no time limit. Whatever happens, as
    long as the peer is silent, the read stays pending and the user is told nothing. -/
theorem never_times_out {more : List Act} {s : St} (h : run 10 (heldUp ++ more) = some s)
    (hs : ∀ a ∈ more, a ≠ .arrive ∧ a ≠ .fail) : s.op = .pending .read ∧ ∀ t, .told t ∉ s.log := by
  have key : ∀ more s, run 10 (heldUp ++ more) = some s → (∀ a ∈ more, a ≠ .arrive ∧ a ≠ .fail) →
      s.phase = .waiting ∧ s.op = .pending .read ∧ s.log = [.asked 0, .cancelled 10] ∧
        ∃ t, s.timers = [t] ∧ t.pending = 0 ∧ t.queued = 0 := by
    intro more
    induction more using List.reverseRecOn with
    | nil =>
      intro s h _
      have h0 : run 10 (heldUp ++ []) = _ := rfl
      rw [h0] at h
      cases h
      exact ⟨rfl, rfl, rfl, _, rfl, rfl, rfl⟩
    | append_singleton more x ih =>
      intro s h hs
      rw [← List.append_assoc] at h
      obtain ⟨s0, h0, hx⟩ := (run_snoc ..).1 h
      obtain ⟨i1, i2, i3, t, i4, i5, i6⟩ := ih s0 h0 (fun a ha => hs a (by simp [ha]))
      have hx' := hs x (by simp)
      cases x with
      | arrive => exact absurd rfl hx'.1
      | fail => exact absurd rfl hx'.2
      | tick n =>
        simp only [St.step, Option.some.injEq] at hx
        subst hx
        exact ⟨i1, i2, i3, t.step (.tick n), by simp [i4], i5, i6⟩
      | expire k =>
        simp only [St.step, i4] at hx
        cases k with
        | zero => simp [i5] at hx
        | succ k => simp at hx
      | callback k =>
        simp only [St.step, i4] at hx
        cases k with
        | zero => simp [i6] at hx
        | succ k => simp at hx
      | _ => simp [St.step, i1, i2] at hx
  obtain ⟨_, h2, h3, _⟩ := key more s h hs
  exact ⟨h2, fun t ht => by rw [h3] at ht; simp at ht⟩

example : (run 10 (heldUp ++ [.tick 1000000])).isSome = true := by decide

/-- What a client is told of the response it reads: error, and content. -/
def response (reads : List Reader.Read) : Option (Reader.Status × List (Option UInt8)) :=
  (Reader.receive { isRequest := false } {} (Http.fresh { isRequest := false } {}) reads).map fun r => (r.2.2.1, r.2.1.msg.content)

/-- C78 fails as stated: a read that the timer aborts is an error for the reader (Model.Reader), which takes any error for the
    end of a response without length. The user is told that the response is complete, although the peer has neither
    finished it nor closed the connection. -/
theorem timeout_taken_for_end :
    response [.data (b! "HTTP/1.1 200 OK\r\n\r\nhalf a "), .error] = some (.done false, (b! "half a ").map some) := by
  decide +kernel

end Verif.Props.ReadTimer
