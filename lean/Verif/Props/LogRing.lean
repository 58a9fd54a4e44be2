import Verif.Spec.LogRing
/-
C49: `LogServiceAppender` keeps exactly the last `max_events` log strings, in order. True for every maximum but the
largest `unsigned int`, for which the counter wraps around and nothing is ever dropped (`largest_max_unbounded`).
-/
namespace Verif.Props.LogRing
open Verif.LogRing Verif.Spec.LogRing

private theorem trim_eq (max : UInt32) (events : List Bytes) : ∀ num : UInt32, num.toNat = events.length →
    trim max num events = some (UInt32.ofNat (min max.toNat events.length), last max.toNat events) := by
  induction events with
  | nil =>
    intro num h
    rw [trim, if_neg]
    · simp only [List.length_nil] at h
      have h0 : num = 0 := UInt32.toNat_inj.mp h
      simp [last, h0]
    · simp only [List.length_nil] at h
      simp [GT.gt, UInt32.lt_iff_toNat_lt, h]
  | cons e es ih =>
    intro num h
    rw [trim]
    simp only [List.length_cons] at h
    by_cases hm : num > max
    · rw [if_pos hm]
      have hlt : max.toNat < num.toNat := UInt32.lt_iff_toNat_lt.mp hm
      have h1 : (1 : UInt32) ≤ num := by rw [UInt32.le_iff_toNat_le]; simp; omega
      have h2 : (num - 1).toNat = es.length := by
        rw [UInt32.toNat_sub_of_le _ _ h1]; simp; omega
      rw [ih _ h2]
      have h3 : min max.toNat es.length = min max.toNat (e :: es).length := by simp only [List.length_cons]; omega
      rw [h3]
      have h4 : (e :: es).length - max.toNat = (es.length - max.toNat) + 1 := by simp only [List.length_cons]; omega
      have h5 : last max.toNat (e :: es) = last max.toNat es := by
        rw [last, h4, List.drop_succ_cons, last]
      rw [h5]
    · rw [if_neg hm]
      have hle : num.toNat ≤ max.toNat := by
        have := (not_congr UInt32.lt_iff_toNat_lt).mp hm
        omega
      have h3 : min max.toNat (e :: es).length = num.toNat := by simp only [List.length_cons]; omega
      have h4 : (e :: es).length - max.toNat = 0 := by simp only [List.length_cons]; omega
      rw [h3, last, h4]
      simp

/-- A maximum that the counter can exceed. -/
def Small (m : UInt32) : Prop := m.toNat < 2 ^ 32 - 1

instance (m : UInt32) : Decidable (Small m) := inferInstanceAs (Decidable (_ < _))

private theorem last_last {α : Type} (n k : Nat) (l : List α) (x : α) :
    last n (last k l ++ [x]) = last (min n (min k l.length + 1)) (l ++ [x]) := by
  simp only [last, List.length_append, List.length_drop, List.length_cons, List.length_nil]
  by_cases h : l.length - k ≤ l.length
  · rw [List.drop_append, List.drop_append, List.drop_drop]
    simp only [List.length_drop]
    congr 1
    · congr 1; omega
    · congr 1; omega
  · omega

private theorem run_eq (ops : List Op) : ∀ (s : St) (all : List Bytes) (k : Nat), Small s.max →
    (∀ n, Op.setMax n ∈ ops → Small n) → k ≤ all.length → k < 2 ^ 32 - 1 → s.num.toNat = k → s.events = last k all →
    ∃ s', s.run ops = some s' ∧ s'.max = maxAfter s.max ops ∧ s'.num.toNat = kept s.max k ops ∧
      s'.events = last (kept s.max k ops) (all ++ logged ops) ∧ s'.events.length = kept s.max k ops := by
  induction ops with
  | nil =>
    intro s all k _ _ hk _ hnum hev
    refine ⟨s, rfl, rfl, hnum, by simpa [kept, logged] using hev, ?_⟩
    rw [hev]
    simp [last, kept]
    omega
  | cons o os ih =>
    intro s all k hs hops hk hk2 hnum hev
    cases o with
    | setMax n =>
      have := ih (s.setMax n) all k (hops n (by simp)) (fun n' h' => hops n' (by simp [h'])) hk hk2 hnum hev
      simpa [St.run, St.op, maxAfter, kept, logged, St.setMax] using this
    | add log =>
      have hlen : (s.events ++ [log]).length = k + 1 := by
        rw [hev]; simp [last]; omega
      have hn : (s.num + 1).toNat = (s.events ++ [log]).length := by
        rw [UInt32.toNat_add, hnum, hlen]; simp; omega
      have ht := trim_eq s.max (s.events ++ [log]) (s.num + 1) hn
      have hsm : s.max.toNat < 2 ^ 32 - 1 := hs
      obtain ⟨s', h1, h2, h3, h4, h5⟩ := ih
        ⟨s.max, UInt32.ofNat (min s.max.toNat (k + 1)), last s.max.toNat (s.events ++ [log])⟩ (all ++ [log])
        (min s.max.toNat (k + 1)) hs (fun n' h' => hops n' (by simp [h'])) (by simp; omega) (by omega)
        (by simp; omega) (by
          simp only []
          rw [hev, last_last]
          congr 1
          omega)
      refine ⟨s', ?_, h2, h3, ?_, h5⟩
      · simp only [St.run, St.op, St.add, ht, Option.map_some, hlen]
        exact h1
      · rw [h4]
        simp [kept, logged]

/-- C49: after any calls on a new appender (maxima below the largest `unsigned int`), the strings kept are the last
    ones of all that were logged, in order: as many as there is room for since the maximum was last smaller. -/
theorem kept_exact (ops : List Op) (h : ∀ n, Op.setMax n ∈ ops → Small n) :
    ∃ s, St.init.run ops = some s ∧ s.events = last (kept 25 0 ops) (logged ops) ∧
      s.events.length = kept 25 0 ops ∧ s.num.toNat = s.events.length := by
  obtain ⟨s, h1, _, h3, h4, h5⟩ := run_eq ops St.init [] 0 (by decide) h (by simp) (by omega) rfl rfl
  exact ⟨s, h1, h4, h5, by rw [h3, h5]⟩

/-- Only additions: the number kept. -/
private theorem kept_add (m : UInt32) (logs : List Bytes) : ∀ k, k ≤ m.toNat →
    kept m k (logs.map Op.add) = min m.toNat (k + logs.length) := by
  induction logs with
  | nil => intro k hk; simp [kept]; omega
  | cons l ls ih =>
    intro k hk
    rw [List.map_cons, kept, ih _ (by omega)]
    simp only [List.length_cons]
    omega

private theorem logged_add (logs : List Bytes) : logged (logs.map Op.add) = logs := by
  induction logs with
  | nil => rfl
  | cons l ls ih => simp [logged, ih]

private theorem last_min {α : Type} (n : Nat) (l : List α) : last (min n l.length) l = last n l := by
  simp only [last]; congr 1; omega

/-- C49: with a fixed maximum, whatever is logged: exactly the last `max` strings, in order; and a request for the log
    gets just these, one after the other. -/
theorem last_max_partial (m : UInt32) (hm : Small m) (logs : List Bytes) :
    ∃ s, (St.init.setMax m).run (logs.map Op.add) = some s ∧ s.events = last m.toNat logs ∧
      s.written = (last m.toNat logs).flatten := by
  obtain ⟨s, h1, _, h3, h4, h5⟩ := run_eq (logs.map Op.add) (St.init.setMax m) [] 0 hm (by simp) (by simp) (by omega)
    rfl rfl
  have : s.events = last m.toNat logs := by
    rw [h4, logged_add]
    change last (kept m 0 (logs.map Op.add)) ([] ++ logs) = last m.toNat logs
    rw [kept_add m logs 0 (by omega)]
    simp [last_min]
  exact ⟨s, h1, this, by rw [St.written, this]⟩

example : ∃ s, (St.init.setMax 2).run ([b! "a", b! "b", b! "c"].map Op.add) = some s ∧
    s.events = [b! "b", b! "c"] :=
  let ⟨s, h1, h2, _⟩ := last_max_partial 2 (by decide) [b! "a", b! "b", b! "c"]
  ⟨s, h1, h2⟩

/-- A smaller maximum takes effect with the next string; what was dropped does not come back. -/
example : kept 25 0 [.add [], .add [], .add [], .setMax 1, .add [], .setMax 3, .add []] = 2 := by decide

/-- Finding: with the largest maximum the counter wraps from the maximum to zero, so nothing is ever dropped and the
    appender keeps more than `max` strings. -/
theorem largest_max_unbounded (logs : List Bytes) :
    ∃ s, (St.init.setMax 0xffffffff).run (logs.map Op.add) = some s ∧ s.events = logs := by
  have : ∀ (logs : List Bytes) (n : UInt32) (ev : List Bytes),
      ∃ s, (⟨0xffffffff, n, ev⟩ : St).run (logs.map Op.add) = some s ∧ s.events = ev ++ logs := by
    intro logs
    induction logs with
    | nil => intro n ev; exact ⟨_, rfl, by simp⟩
    | cons l ls ih =>
      intro n ev
      obtain ⟨s, h1, h2⟩ := ih (n + 1) (ev ++ [l])
      refine ⟨s, ?_, by rw [h2]; simp⟩
      have ht : trim 0xffffffff (n + 1) (ev ++ [l]) = some (n + 1, ev ++ [l]) := by
        rw [trim.eq_def, if_neg]
        have h3 : (n + 1).toNat < 2 ^ 32 := UInt32.toNat_lt _
        intro h
        have h4 := UInt32.lt_iff_toNat_lt.mp h
        have h5 : (0xffffffff : UInt32).toNat = 2 ^ 32 - 1 := by decide
        omega
      simp only [List.map_cons, St.run, St.op, St.add, ht, Option.map_some]
      exact h1
  exact this logs 0 []

/-- More strings than the maximum are kept. -/
example : ∃ (logs : List Bytes) (s : St), (St.init.setMax 0xffffffff).run (logs.map Op.add) = some s ∧
    s.events.length > (0xffffffff : UInt32).toNat := by
  obtain ⟨s, h1, h2⟩ := largest_max_unbounded (List.replicate (2 ^ 32) [])
  refine ⟨_, s, h1, ?_⟩
  rw [h2, List.length_replicate]
  decide

end Verif.Props.LogRing
