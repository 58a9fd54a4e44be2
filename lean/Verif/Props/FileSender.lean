import Verif.Spec.FileSender
import Verif.Props.Writer
import Mathlib.Tactic.Common
/-
C48: the file sender.
-/
namespace Verif.Props.FileSender
open Verif.Writer Verif.FileSender Verif.Spec.FileSender

/-- The pieces as the sender cuts them. -/
def cut (maxChunk : Nat) (content : Bytes) : List Bytes :=
  if _h : content = [] then []
  else if _hm : 0 < maxChunk ∧ maxChunk < content.length then content.take maxChunk :: cut maxChunk (content.drop maxChunk)
  else [content]
termination_by content.length
decreasing_by simp; have := List.length_pos_iff.2 _h; omega

theorem cut_pieces (m : Nat) : ∀ content, Pieces m content (cut m content) := by
  intro content
  induction hn : content.length using Nat.strongRecOn generalizing content with
  | ind n ih =>
    unfold cut
    split
    · rename_i h; subst h; exact ⟨rfl, by simp, by simp, fun _ h => absurd rfl h⟩
    · rename_i h
      split
      · rename_i hm
        have h' := ih _ (by simp; omega) (content.drop m) rfl
        refine ⟨by rw [List.flatten_cons, h'.whole, List.take_append_drop], ?_, ?_, ?_⟩
        · rintro p (_ | ⟨_, hp⟩)
          · intro he; have := congrArg List.length he; rw [List.length_take, List.length_nil] at this; omega
          · exact h'.nonempty p hp
        · rintro h0 p (_ | ⟨_, hp⟩)
          · simp; omega
          · exact h'.short h0 p hp
        · intro hh; omega
      · rename_i hm
        refine ⟨by simp, by simpa using h, ?_, fun _ _ => rfl⟩
        intro h0 p hp
        simp at hp
        subst hp; omega

/-- The sender has a complete file with this content: either in memory or on disk. -/
def Complete (s : Sender) (content : Bytes) : Prop :=
  s.size = content.length ∧
  ((∃ c, s.cached = some c ∧ c = content) ∨
   (s.cached = none ∧ ∃ f, s.disk = some f ∧ content.length ≤ f.length ∧ f.take content.length = content))

/-- The state between two pieces. -/
structure Mid (s : Sender) (content : Bytes) : Prop where
  complete : Complete s content
  inside : s.sent ≤ content.length
  buf : ∀ n, s.buf = some n → content.length - s.sent ≤ n ∨ (0 < s.maxChunk ∧ s.maxChunk ≤ n)

theorem send_spec {s : Sender} {content : Bytes} (h : Mid s content) (hlt : s.sent < content.length) :
    ∃ s' p, send s = .writing s' [.buffer p,
        if content.length ≤ s.sent + p.length then (if 0 < s.sent then .sendFinal else .send) else .sendChunk] ∧
      s'.toSend = p.length ∧ s'.size = content.length ∧ s'.sent = s.sent ∧ s'.maxChunk = s.maxChunk ∧
      p = (if 0 < s.maxChunk ∧ s.maxChunk < (content.drop s.sent).length then (content.drop s.sent).take s.maxChunk
        else content.drop s.sent) ∧
      Mid { s' with sent := s.sent + p.length } content := by
  obtain ⟨hsize, hsrc⟩ := h.complete
  generalize hn : (if 0 < s.maxChunk ∧ s.maxChunk < s.size - s.sent then s.maxChunk else s.size - s.sent) = n
  have hnle : s.sent + n ≤ content.length := by split at hn <;> omega
  have hp : (content.drop s.sent).take n = (if 0 < s.maxChunk ∧ s.maxChunk < (content.drop s.sent).length
      then (content.drop s.sent).take s.maxChunk else content.drop s.sent) := by
    rw [List.length_drop, ← hsize]
    split at hn
    · rename_i hc; rw [if_pos hc, ← hn]
    · rename_i hc; rw [if_neg hc, List.take_of_length_le (by simp; omega)]
  have hlen : ((content.drop s.sent).take n).length = n := by simp; omega
  have hbuf : ∀ k, s.buf = some k → n ≤ k := by
    intro k hk
    have := h.buf k hk
    split at hn <;> omega
  unfold send
  rw [if_neg (by omega)]
  simp only [hn]
  rcases hsrc with ⟨c, hc, rfl⟩ | ⟨hc, f, hf, hfl, hft⟩
  · refine ⟨{ s with toSend := n }, (c.drop s.sent).take n, ?_, hlen.symm, hsize, rfl, rfl, hp, ?_⟩
    · unfold block
      simp only [hc]
      rw [if_neg (by omega)]
      simp only [hsize, hlen]
    · rw [hlen]
      refine ⟨⟨hsize, .inl ⟨c, hc, rfl⟩⟩, hnle, ?_⟩
      intro k hk
      have := h.buf k hk
      simp only []
      omega
  · have hd : (f.drop s.sent).take n = (content.drop s.sent).take n := by
      rw [← hft, List.drop_take, List.take_take, Nat.min_eq_left (by omega)]
    refine ⟨{ s with toSend := n, buf := some (s.buf.getD n) }, (content.drop s.sent).take n, ?_, hlen.symm, hsize, rfl, rfl, hp, ?_⟩
    · unfold block
      simp only [hc, hf, Option.getD_some]
      have : ¬ s.buf.getD n < n := by
        cases hb : s.buf with
        | none => simp
        | some k => have := hbuf k hb; simp; omega
      rw [if_neg this, if_neg (by omega)]
      simp only [hsize, hlen, hd]
    · rw [hlen]
      refine ⟨⟨hsize, .inr ⟨hc, f, hf, hfl, hft⟩⟩, hnle, ?_⟩
      intro k hk
      simp only [Option.some.injEq] at hk
      simp only []
      cases hb : s.buf with
      | none => rw [hb] at hk; simp at hk; split at hn <;> omega
      | some k' => have := h.buf k' hb; rw [hb] at hk; simp at hk; omega

theorem calls_cons (first : Bool) (p : Bytes) (ps : List Bytes) (h : ps ≠ []) :
    calls first (p :: ps) = [.buffer p, .sendChunk, .clear] ++ calls false ps := by
  cases ps with
  | nil => exact absurd rfl h
  | cons a ps => rfl

private theorem deliver_spec (content : Bytes) : ∀ (ws : List Write) (s : Sender), Mid s content → s.sent < content.length →
    let ps := cut s.maxChunk (content.drop s.sent)
    ((∀ w ∈ ws.take ps.length, w = .ok) → ps.length ≤ ws.length →
      deliver ws s = ((calls (s.sent = 0) ps).map .call ++ [.finish], .finished)) ∧
    ((∀ w ∈ ws, w = .ok) → ws.length < ps.length → (deliver ws s).2 = .writing ∧
      (deliver ws s).1 <+: (calls (s.sent = 0) ps).map .call) ∧
    (∀ n w ws', n < ps.length → ws = List.replicate n .ok ++ w :: ws' → w ≠ .ok →
      ∃ es, es <+: (calls (s.sent = 0) ps).map .call ∧
        deliver ws s = (es ++ (if w = .error then [.close, .finish] else [.finish]), .finished)) := by
  intro ws
  induction ws with
  | nil =>
    intro s h hlt
    obtain ⟨s', p, hs, h1, h2, h3, h4, h5, h6⟩ := send_spec h hlt
    have hpos : 0 < (cut s.maxChunk (content.drop s.sent)).length := by
      unfold cut
      rw [dif_neg (by intro hh; have := congrArg List.length hh; simp at this; omega)]
      split <;> simp
    refine ⟨fun _ hh => by simp only [List.length_nil] at hh; omega, fun _ _ => ?_, fun n w ws' _ hh => by simp at hh⟩
    unfold deliver
    rw [hs]
    refine ⟨rfl, ?_⟩
    simp only []
    unfold cut
    rw [dif_neg (by intro hh; have := congrArg List.length hh; simp at this; omega)]
    by_cases hm : 0 < s.maxChunk ∧ s.maxChunk < (content.drop s.sent).length
    · rw [dif_pos hm]
      rw [if_pos hm] at h5
      have hne : cut s.maxChunk ((content.drop s.sent).drop s.maxChunk) ≠ [] := by
        unfold cut
        rw [dif_neg (by intro hh; have := congrArg List.length hh; simp at this; simp at hm; omega)]
        split <;> simp
      rw [calls_cons _ _ _ hne, ← h5]
      have : ¬ content.length ≤ s.sent + p.length := by rw [h5]; simp at hm ⊢; omega
      rw [if_neg this]
      exact ⟨Ev.call .clear :: (calls false (cut s.maxChunk ((content.drop s.sent).drop s.maxChunk))).map .call, by simp⟩
    · rw [dif_neg hm]
      rw [if_neg hm] at h5
      rw [← h5]
      have : content.length ≤ s.sent + p.length := by rw [h5]; simp; omega
      rw [if_pos this]
      refine ⟨[], ?_⟩
      by_cases h0 : s.sent = 0
      · simp [calls, h0]
      · simp [calls, h0, Nat.pos_of_ne_zero h0]
  | cons w ws ih =>
    intro s h hlt
    obtain ⟨s', p, hs, h1, h2, h3, h4, h5, h6⟩ := send_spec h hlt
    unfold cut
    rw [dif_neg (by intro hh; have := congrArg List.length hh; simp at this; omega)]
    by_cases hm : 0 < s.maxChunk ∧ s.maxChunk < (content.drop s.sent).length
    · rw [dif_pos hm]
      rw [if_pos hm] at h5
      have hpl : p.length = s.maxChunk := by rw [h5, List.length_take]; omega
      have hnot : ¬ content.length ≤ s.sent + p.length := by have hm2 := hm.2; rw [List.length_drop] at hm2; omega
      rw [if_neg hnot] at hs
      have hdrop : (content.drop s.sent).drop s.maxChunk = content.drop (s.sent + p.length) := by
        rw [List.drop_drop, hpl]
      have hne : cut s.maxChunk ((content.drop s.sent).drop s.maxChunk) ≠ [] := by
        unfold cut
        rw [dif_neg (by intro hh; have := congrArg List.length hh; simp at this; simp at hm; omega)]
        split <;> simp
      simp only []
      rw [calls_cons _ _ _ hne, ← h5, hdrop]
      rw [hdrop] at hne
      generalize hs2 : ({ s' with sent := s.sent + p.length } : Sender) = s2 at h6
      have hs2s : s2.sent = s.sent + p.length := by rw [← hs2]
      obtain ⟨i1, i2, i3⟩ := ih s2 h6 (by omega)
      have hmc : s2.maxChunk = s.maxChunk := by rw [← hs2]; exact h4
      simp only [hmc, hs2s] at i1 i2 i3
      have hz : decide (s.sent + p.length = 0) = false := by
        have : 0 < s.maxChunk := hm.1
        simp only [decide_eq_false_iff_not]; omega
      rw [hz] at i1 i2 i3
      have hstep : deliver (.ok :: ws) s = ([Ev.call (.buffer p), .call .sendChunk, .call .clear] ++ (deliver ws s2).1,
          (deliver ws s2).2) := by
        conv => lhs; unfold deliver
        rw [hs]
        simp only []
        rw [if_neg (by rw [h2, h3, h1]; omega), h1, h3, ← hs2, ← h1]
        rfl
      refine ⟨?_, ?_, ?_⟩
      · intro hok hl
        have : w = .ok := hok w (by simp)
        subst this
        rw [hstep, i1 (fun x hx => hok x (by simp [hx])) (by simpa using hl)]
        simp
      · intro hok hl
        have : w = .ok := hok w (by simp)
        subst this
        obtain ⟨j1, j2⟩ := i2 (fun x hx => hok x (by simp [hx])) (by simpa using hl)
        rw [hstep]
        refine ⟨j1, ?_⟩
        rw [List.map_append]
        exact (List.prefix_append_right_inj _).2 j2
      · intro n w' ws' hn hw hne'
        cases n with
        | zero =>
          simp only [List.replicate_zero, List.nil_append, List.cons.injEq] at hw
          obtain ⟨rfl, rfl⟩ := hw
          refine ⟨[.call (.buffer p), .call .sendChunk], ⟨_, by rw [List.map_append, List.map_cons, List.map_cons, List.cons_append, List.cons_append]; rfl⟩, ?_⟩
          unfold deliver
          rw [hs]
          cases w with
          | ok => exact absurd rfl hne'
          | error => rfl
          | notOpen => rfl
        | succ n =>
          simp only [List.replicate_succ, List.cons_append, List.cons.injEq] at hw
          obtain ⟨rfl, hw⟩ := hw
          obtain ⟨es, j1, j2⟩ := i3 n w' ws' (by simpa using hn) hw hne'
          rw [hstep, j2]
          refine ⟨[.call (.buffer p), .call .sendChunk, .call .clear] ++ es, ?_, by simp⟩
          rw [List.map_append]
          exact (List.prefix_append_right_inj _).2 j1
    · rw [dif_neg hm]
      rw [if_neg hm] at h5
      have hl : content.length ≤ s.sent + p.length := by rw [h5]; simp; omega
      rw [if_pos hl] at hs
      have hcalls : (calls (decide (s.sent = 0)) [content.drop s.sent]).map Ev.call =
          [.call (.buffer p), .call (if 0 < s.sent then .sendFinal else .send)] := by
        rw [← h5]
        by_cases h0 : s.sent = 0
        · simp [calls, h0]
        · simp [calls, h0, Nat.pos_of_ne_zero h0]
      simp only []
      rw [hcalls]
      refine ⟨?_, ?_, ?_⟩
      · intro hok _
        have : w = .ok := hok w (by simp)
        subst this
        unfold deliver
        rw [hs]
        simp only [h1, h3]
        rw [if_pos (by rw [h2]; exact hl)]
        rfl
      · intro _ hh; simp at hh
      · intro n w' ws' hn hw hne'
        cases n with
        | succ n => simp at hn
        | zero =>
          simp only [List.replicate_zero, List.nil_append, List.cons.injEq] at hw
          obtain ⟨rfl, rfl⟩ := hw
          refine ⟨_, List.prefix_rfl, ?_⟩
          unfold deliver
          rw [hs]
          cases w with
          | ok => exact absurd rfl hne'
          | error => rfl
          | notOpen => rfl

/-- A sender at the beginning. -/
def start (size : Nat) (cached disk : Option Bytes) (maxChunk : Nat) : Sender :=
  { size := size, cached := cached, disk := disk, maxChunk := maxChunk }

private theorem mid_start {size : Nat} {cached disk : Option Bytes} {m : Nat} {content : Bytes}
    (h : Complete (start size cached disk m) content) : Mid (start size cached disk m) content :=
  ⟨h, Nat.zero_le _, fun n hn => by cases hn⟩

/-- C48, partially (missing: files that cannot be opened or are shorter on disk than when the request was handled, see
    `never_finished`): there are pieces of the file, none empty or longer than the limit, such that
    - if all writes succeed, the calls on the writer are those for the pieces, and then the connection is finished, once;
    - if a write fails, the calls are a beginning of these, and then the connection is finished, once, and closed if the
      write was tried. -/
theorem deliver_partial {size : Nat} {cached disk : Option Bytes} {m : Nat} {content : Bytes}
    (h : Complete (start size cached disk m) content) :
    ∃ ps, Pieces m content ps ∧ ∀ ws,
      ((∀ w ∈ ws.take (max 1 ps.length), w = .ok) → max 1 ps.length ≤ ws.length →
        deliver ws (start size cached disk m) = ((calls true ps).map .call ++ [.finish], .finished)) ∧
      ((∀ w ∈ ws, w = .ok) → ws.length < max 1 ps.length → (deliver ws (start size cached disk m)).2 = .writing ∧
        (deliver ws (start size cached disk m)).1 <+: (calls true ps).map .call) ∧
      (∀ n w ws', n < max 1 ps.length → ws = List.replicate n .ok ++ w :: ws' → w ≠ .ok →
        ∃ es, es <+: (calls true ps).map .call ∧ deliver ws (start size cached disk m) =
          (es ++ (if w = .error ∧ content ≠ [] then [.close, .finish] else [.finish]), .finished)) := by
  refine ⟨cut m content, cut_pieces m content, fun ws => ?_⟩
  by_cases h0 : content = []
  · subst h0
    have hs : send (start size cached disk m) = .empty := by
      have : size = 0 := h.1
      simp [send, start, this]
    have hc : cut m [] = [] := by unfold cut; simp
    have hd : ∀ ws, deliver ws (start size cached disk m) = match ws with
        | [] => ([.call .send], .writing)
        | _ :: _ => ([.call .send, .finish], .finished) := by
      intro ws; unfold deliver; rw [hs]; cases ws <;> rfl
    rw [hc]
    refine ⟨?_, ?_, ?_⟩
    · intro _ hl
      cases ws with
      | nil => simp at hl
      | cons w ws => rw [hd]; rfl
    · intro _ hl
      cases ws with
      | nil => rw [hd]; exact ⟨rfl, List.prefix_rfl⟩
      | cons w ws => simp at hl
    · intro n w ws' hn hw _
      refine ⟨[.call .send], List.prefix_rfl, ?_⟩
      have : n = 0 := by simpa using hn
      subst this
      rw [hw, hd]; simp
  · have hpos : 0 < (cut m content).length := by
      unfold cut
      rw [dif_neg h0]
      split <;> simp
    have hmax : max 1 (cut m content).length = (cut m content).length := by omega
    have key := deliver_spec content ws _ (mid_start h) (List.length_pos_iff.2 h0)
    have e : cut (start size cached disk m).maxChunk (content.drop (start size cached disk m).sent) = cut m content := rfl
    simp only [e] at key
    have e2 : decide ((start size cached disk m).sent = 0) = true := rfl
    rw [e2] at key
    rw [hmax]
    obtain ⟨k1, k2, k3⟩ := key
    refine ⟨k1, k2, ?_⟩
    intro n w ws' hn hw hne
    obtain ⟨es, j1, j2⟩ := k3 n w ws' hn hw hne
    exact ⟨es, j1, by rw [j2]; simp [h0]⟩

example : Complete (start 5 (some (b! "hello")) none 2) (b! "hello") := ⟨rfl, .inl ⟨_, rfl, rfl⟩⟩
example : Complete (start 5 none (some (b! "hello, more")) 2) (b! "hello") :=
  ⟨rfl, .inr ⟨rfl, _, rfl, by decide, by decide⟩⟩
example : deliver [.ok, .ok, .ok] (start 5 none (some (b! "hello")) 2) =
    ([.call (.buffer (b! "he")), .call .sendChunk, .call .clear, .call (.buffer (b! "ll")), .call .sendChunk, .call .clear,
      .call (.buffer (b! "o")), .call .sendFinal, .finish], .finished) := by decide +kernel

/-- Whatever happens the connection is finished at most once, and nothing follows. -/
theorem finished_once (ws : List Write) : ∀ s, ((deliver ws s).1.filter (· = .finish)).length ≤ 1 ∧
    ((deliver ws s).2 = .finished ↔ (deliver ws s).1.getLast? = some .finish) ∧
    ((deliver ws s).2 = .finished ↔ .finish ∈ (deliver ws s).1) := by
  induction ws with
  | nil =>
    intro s
    unfold deliver
    split
    · simp
    · simp
    · simp
    · rename_i s' ops _
      have : ∀ l : List Op, (l.map Ev.call).getLast? ≠ some .finish := by
        intro l; rw [List.getLast?_map]; cases l.getLast? <;> simp
      refine ⟨by rw [List.filter_eq_nil_iff.2 (by simp)]; simp, ?_, by simp⟩
      simp only [this, iff_false]
      simp
  | cons w ws ih =>
    intro s
    have hf : ∀ l : List Op, (l.map Ev.call).filter (· = .finish) = [] := by
      intro l; rw [List.filter_eq_nil_iff]; simp
    unfold deliver
    split
    · simp
    · simp
    · simp
    · rename_i s' ops _
      cases w with
      | notOpen => simp only [List.filter_append, hf]; simp
      | error => simp only [List.filter_append, hf]; simp
      | ok =>
        simp only []
        split
        · simp only [List.filter_append, hf]; simp
        · have h := ih { s' with sent := s'.sent + s'.toSend }
          simp only [List.filter_append, hf]
          refine ⟨?_, ?_, ?_⟩
          · simpa using h.1
          · rw [h.2.1, List.getLast?_append, List.getLast?_cons]
            cases hl : (deliver ws { s' with sent := s'.sent + s'.toSend }).1.getLast? <;> simp
          · rw [h.2.2]; simp

private theorem send_safe {size : Nat} {cached : Option Bytes} (h : ∀ c, cached = some c → c.length = size) {s : Sender}
    (hc : s.cached = cached) (hsz : s.size = size)
    (hb : ∀ n, s.buf = some n → s.size - s.sent ≤ n ∨ (0 < s.maxChunk ∧ s.maxChunk ≤ n)) :
    send s ≠ .overrun ∧ ∀ s' ops, send s = .writing s' ops → s'.cached = cached ∧ s'.size = size ∧
      s'.sent + s'.toSend ≤ s'.size ∧
      (∀ n, s'.buf = some n → s'.size - (s'.sent + s'.toSend) ≤ n ∨ (0 < s'.maxChunk ∧ s'.maxChunk ≤ n)) := by
  unfold send
  split
  · exact ⟨by simp, fun s' ops hh => by cases hh⟩
  · rename_i hlt
    simp only []
    generalize hn : (if 0 < s.maxChunk ∧ s.maxChunk < s.size - s.sent then s.maxChunk else s.size - s.sent) = n
    have hnle : s.sent + n ≤ s.size := by split at hn <;> omega
    have hbuf : ∀ k, s.buf = some k → n ≤ k := by
      intro k hk
      have := hb k hk
      split at hn <;> omega
    unfold block
    simp only []
    cases hcc : s.cached with
    | some c =>
      have hcl := h c (hc ▸ hcc)
      simp only []
      rw [if_neg (by omega)]
      refine ⟨by simp, fun s' ops hh => ?_⟩
      simp only [SendOut.writing.injEq] at hh
      rw [← hh.1]
      refine ⟨hcc ▸ hc, hsz, hnle, fun k hk => ?_⟩
      have := hb k hk
      simp only []
      omega
    | none =>
      simp only []
      cases hd : s.disk with
      | none => exact ⟨by simp, fun s' ops hh => by simp at hh⟩
      | some f =>
        have hg : ¬ s.buf.getD n < n := by
          cases hb' : s.buf with
          | none => simp
          | some k => have := hbuf k hb'; simp; omega
        simp only [Option.getD_some, if_neg hg]
        split
        · rename_i hh; split at hh <;> simp_all
        · rename_i hh; split at hh <;> simp_all
        · rename_i s1 d hh
          split at hh
          · cases hh
          · simp only [Block.ok.injEq] at hh
            refine ⟨by simp, fun s' ops hh' => ?_⟩
            simp only [SendOut.writing.injEq] at hh'
            rw [← hh'.1, ← hh.1]
            refine ⟨by rw [← hc, hcc], hsz, hnle, fun k hk => ?_⟩
            simp only [Option.some.injEq] at hk
            simp only []
            cases hb' : s.buf with
            | none => rw [hb'] at hk; simp at hk; split at hn <;> omega
            | some k' => have := hb k' hb'; rw [hb'] at hk; simp at hk; omega

/-- Buffers are never overrun, whatever the file on disk is, if the cached content is as long as it is said to be. -/
theorem no_overrun {size : Nat} {cached disk : Option Bytes} {m : Nat} (h : ∀ c, cached = some c → c.length = size)
    (ws : List Write) : (deliver ws (start size cached disk m)).2 ≠ .overrun := by
  have key : ∀ (ws : List Write) (s : Sender), s.cached = cached → s.size = size → s.sent ≤ s.size →
      (∀ n, s.buf = some n → s.size - s.sent ≤ n ∨ (0 < s.maxChunk ∧ s.maxChunk ≤ n)) → (deliver ws s).2 ≠ .overrun := by
    intro ws
    induction ws with
    | nil =>
      intro s hc hsz hle hb
      have := send_safe (h := h) hc hsz hb
      unfold deliver
      split <;> simp_all
    | cons w ws ih =>
      intro s hc hsz hle hb
      obtain ⟨h1, h2⟩ := send_safe (h := h) hc hsz hb
      unfold deliver
      split
      · simp
      · rename_i ho; exact absurd ho h1
      · simp
      · rename_i s' ops ho
        obtain ⟨j1, j2, j3, j4⟩ := h2 s' ops ho
        cases w with
        | notOpen => simp
        | error => simp
        | ok =>
          simp only []
          split
          · simp
          · exact ih _ j1 j2 j3 j4
  exact key ws _ rfl rfl (Nat.zero_le _) (fun n hn => by cases hn)

/-- With a full file in memory or on disk these hold; the cached content of a file the service hands over is as long as
    its size (`Props/FileService`). -/
example : (deliver [.ok, .ok] (start 5 none (some (b! "hel")) 2)).2 = .gaveUp := by decide +kernel

theorem calls_chunked : ∀ (ps : List Bytes) (p : Bytes), calls false (p :: ps) =
    Writer.chunkedCalls ((p :: ps).dropLast.map fun d => [.buffer d]) [.buffer ((p :: ps).getLast (by simp))] := by
  intro ps
  induction ps with
  | nil => intro p; rfl
  | cons a ps ih =>
    intro p
    have e1 : (p :: a :: ps).dropLast = p :: (a :: ps).dropLast := rfl
    have e2 : (p :: a :: ps).getLast (by simp) = (a :: ps).getLast (by simp) := List.getLast_cons _
    rw [calls_cons _ _ _ (by simp), ih a, e1, e2]
    rfl

theorem calls_chunked_first (ps : List Bytes) (p : Bytes) (h : ps ≠ []) : calls true (p :: ps) = calls false (p :: ps) := by
  rw [calls_cons _ _ _ h, calls_cons _ _ _ h]

theorem onlyWrites_buffer (d : Bytes) : Spec.Writer.OnlyWrites [.buffer d] := by
  intro op h; cases List.mem_singleton.1 h; exact ⟨d, .inr rfl⟩

theorem chunkData_pieces (ps : List Bytes) (h0 : ps ≠ []) (h : ∀ p ∈ ps, p ≠ []) :
    Writer.chunkData (ps.dropLast.map fun d => [.buffer d]) [.buffer (ps.getLast h0)] = ps := by
  unfold Writer.chunkData
  have e : (ps.dropLast.map fun d => [Op.buffer d]) ++ [[.buffer (ps.getLast h0)]] = ps.map fun d => [Op.buffer d] := by
    conv => rhs; rw [← List.dropLast_concat_getLast h0]
    simp
  rw [e, List.map_map]
  have : (Spec.Writer.written ∘ fun d => [Op.buffer d]) = id := by
    funext d; simp [Spec.Writer.written]
  rw [this, List.map_id, List.filter_eq_self]
  intro p hp; simpa using h p hp

theorem payload_plain (ps : List Bytes) : ∀ first se, Spec.Writer.payload false se [] (calls first ps) = ps.flatten := by
  induction ps with
  | nil => intro first se; simp [calls, Spec.Writer.payload, Spec.Writer.piece]
  | cons p ps ih =>
    intro first se
    have hp : ∀ b, Spec.Writer.piece (false && b) p = p := by
      intro b; unfold Spec.Writer.piece; split <;> simp_all
    by_cases h : ps = []
    · subst h
      have hp' : Spec.Writer.piece false p = p := hp true
      cases first <;> simp [calls, Spec.Writer.payload, hp']
    · have hp' : Spec.Writer.piece false p = p := hp true
      rw [calls_cons _ _ _ h]
      simp only [List.cons_append, List.nil_append, Spec.Writer.payload, List.flatten_cons, hp', ih]

theorem close_stays (t : TableOrder) (ops : List Op) : ∀ w : W, w.lifecycle = .close → (run t w ops).lifecycle = .close := by
  have hfl : ∀ w : W, (flush w).lifecycle = w.lifecycle := by
    intro w; unfold flush; split
    · rfl
    · split <;> rfl
  have hh : ∀ w : W, (headPart t w).1.lifecycle = w.lifecycle := by
    intro w; unfold headPart prepareBuffers; split <;> rfl
  have hm : ∀ (w : W) f, (sendMore t w f).lifecycle = w.lifecycle := by
    intro w f
    unfold sendMore
    split
    · dsimp only; rw [hh, hfl]
    · rfl
  induction ops with
  | nil => intro w h; exact h
  | cons op ops ih =>
    intro w h
    refine ih _ ?_
    cases op with
    | text d => exact h
    | buffer d =>
      show (writeBuffer w d).lifecycle = _
      unfold writeBuffer
      split
      · exact h
      · exact (hfl w).trans h
    | clear => exact h
    | send => exact (hm _ _).trans h
    | sendChunk =>
      rw [step]
      dsimp only
      rw [hm]
      split <;> simp [h]
    | sendFinal => rw [step, hm]; exact h

/-- C48 on the wire: the calls for a file's pieces on a fresh response writer whose message has no length of its own (as
    the sender creates it) send a message head and then
    - if there is at most one piece: the file, and the head has exactly one Content-Length header, with its length;
    - if there are more and the client understands chunks: the pieces as chunks, and the head says so;
    - if there are more and it does not: the file, and the connection is closed after it. -/
theorem on_the_wire {m : Nat} {content : Bytes} {ps : List Bytes} (hp : Pieces m content ps) (t : TableOrder) (ht : t.Ok)
    (req : Msg) (lc : Lifecycle) :
    ∃ hs, let w := newResponseWriterFor req lc
      let out := run t w (calls true ps)
      (ps.length ≤ 1 → out.wire = Http.wireHead (w.msg.head false) hs ++ content ∧
        ∃ name, Dict.matching hs (b! "Content-Length") = [(name, toDec content.length)]) ∧
      (1 < ps.length → w.supportsChunks = true →
        out.wire = Http.wireHead (w.msg.head false) hs ++ Http.chunkedWire ps ∧
        ∃ name, Dict.matching hs (b! "Transfer-Encoding") = [(name, b! "chunked")]) ∧
      (1 < ps.length → w.supportsChunks = false →
        out.wire = Http.wireHead (w.msg.head false) hs ++ content ∧ out.lifecycle = .close) := by
  have hi := Writer.initial_responseWriterFor req lc
  generalize hw : newResponseWriterFor req lc = w at hi
  have hreq : w.isRequest = false := by rw [← hw]; rfl
  have hmsg : w.msg = responseTo req := by rw [← hw]; rfl
  have hr : (responseTo req).doNotSendContentLength = false ∧ (responseTo req).contentLength = 0 := by
    unfold responseTo
    split
    · exact ⟨rfl, rfl⟩
    · split <;> exact ⟨rfl, rfl⟩
  have hsu : w.supportsChunks = w.msg.chunksSupported := by rw [← hw]; rfl
  match ps, hp with
  | [], hp =>
    have hc : content = [] := hp.whole.symm
    subst hc
    obtain ⟨hs, name, h1, h2⟩ := Writer.send_exact_partial t ht w [] hi [] (by intro op h; cases h) (by rw [hmsg]; exact hr.1)
      (.inr (by rw [hmsg]; exact hr.2))
    rw [hreq] at h1
    exact ⟨hs, fun _ => ⟨h1, name, h2⟩, fun h => by simp at h, fun h => by simp at h⟩
  | [p], hp =>
    have hc : content = p := by rw [← hp.whole]; simp
    subst hc
    obtain ⟨hs, name, h1, h2⟩ := Writer.send_exact_partial t ht w [] hi [.buffer content] (onlyWrites_buffer content) (by rw [hmsg]; exact hr.1)
      (.inr (by rw [hmsg]; exact hr.2))
    rw [hreq] at h1
    simp only [Spec.Writer.written, List.append_nil, List.nil_append] at h1 h2
    exact ⟨hs, fun _ => ⟨h1, name, h2⟩, fun h => by simp at h, fun h => by simp at h⟩
  | p :: q :: ps, hp =>
    cases hs' : w.supportsChunks with
    | true =>
      obtain ⟨hs, name, n, h1, h2, -⟩ := Writer.chunked_wire t ht w hi hs' (by rw [← hsu]; exact hs')
        ((p :: q :: ps).dropLast.map fun d => [.buffer d]) [.buffer ((p :: q :: ps).getLast (by simp))]
        (by intro c hc; obtain ⟨d, -, rfl⟩ := List.mem_map.1 hc; exact onlyWrites_buffer d) (onlyWrites_buffer _)
      rw [chunkData_pieces _ (by simp) hp.nonempty, ← calls_chunked, hreq, ← calls_chunked_first _ _ (by simp)] at h1
      exact ⟨hs, fun h => by simp at h, fun _ _ => ⟨h1, name, h2⟩, fun _ h => by cases hs'.symm.trans h⟩
    | false =>
      obtain ⟨hs, h1⟩ := (Writer.wire_exact t w [] hi (calls true (p :: q :: ps))).2 (by
        rw [calls_cons _ _ _ (by simp)]; simp [Spec.Writer.Sends])
      rw [hs', payload_plain, hp.whole, hreq] at h1
      refine ⟨hs, (fun h => by simp at h), (fun _ h => by cases hs'.symm.trans h), fun _ _ => ⟨h1, ?_⟩⟩
      rw [calls_cons _ _ _ (by simp)]
      show (run t (step t (step t w (.buffer p)) .sendChunk) (.clear :: calls false (q :: ps))).lifecycle = .close
      refine close_stays t _ _ (Writer.sendChunk_closes t _ ?_)
      show (writeBuffer w p).supportsChunks = false
      unfold writeBuffer flush
      split
      · exact hs'
      · split
        · exact hs'
        · split <;> exact hs'

/-- Finding: if the file cannot be opened any more, nothing is sent and the connection is never finished. -/
theorem never_finished (size : Nat) (hs : 0 < size) (m : Nat) (ws : List Write) :
    deliver ws (start size none none m) = ([], .gaveUp) := by
  have : send (start size none none m) = .gaveUp := by
    unfold send
    rw [if_neg (by show ¬ size ≤ 0; omega)]
    rfl
  unfold deliver; rw [this]

/-- Finding: if the file is shorter now, part of it may be sent; the connection is never finished. -/
theorem shorter_never_finished : deliver [.ok, .ok, .ok] (start 5 none (some (b! "hel")) 2) =
    ([.call (.buffer (b! "he")), .call .sendChunk, .call .clear], .gaveUp) := by decide +kernel

end Verif.Props.FileSender
