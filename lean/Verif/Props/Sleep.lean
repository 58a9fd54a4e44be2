import Verif.Lemmas.Sleep
/-
C112: how long threads sleep, and how long `stop` waits for connections that are gone.
-/
namespace Verif.Props.Sleep
open Verif Verif.Sleep Verif.Spec.Sleep

/-- **C112 (a sleep, as far as it holds).** If nobody sets the clock, a sleep lasts as long as was asked, less at most 999
    nanoseconds; with a `long` of 32 bits if it was asked for less than 2^31 seconds. -/
theorem sleep_lasts_partial (bits : Nat) (wall : Nat → Int) (hw : Steady wall) (sec nsec : UInt32)
    (hb : bits = 64 ∨ bits = 32 ∧ sec.toNat < 2 ^ 31) (start stop : Nat) (h : Sleeps bits wall sec nsec start stop) :
    (stop - start) * 1000 ≤ asked sec nsec ∧ asked sec nsec ≤ (stop - start) * 1000 + 999 := by
  have hl : toLong bits sec = sec.toNat := by
    rcases hb with rfl | ⟨rfl, hb⟩
    · exact toLong_64 sec
    · exact toLong_32 sec hb
  have hn : (nsec / 1000).toNat = nsec.toNat / 1000 := by simp
  obtain ⟨h1, h2, h3⟩ := h
  unfold getWakeupTime at h2 h3
  rw [hl, hn] at h2 h3
  rw [steady_sub hw h1] at h3
  unfold asked
  by_cases hlt : start < stop
  · have := h2 (stop - 1) (by omega) (by omega)
    rw [steady_sub hw (show start ≤ stop - 1 by omega)] at this
    omega
  · omega

/-- **C112 (every sleep ends).** -/
theorem sleep_ends (bits : Nat) (wall : Nat → Int) (hw : Steady wall) (sec nsec : UInt32) (start : Nat) :
    ∃ stop, Sleeps bits wall sec nsec start stop := by
  refine ⟨start + (toLong bits sec * 1000000 + (nsec / 1000).toNat).toNat, Nat.le_add_right _ _, ?_, ?_⟩
  · intro t h1 h2
    rw [steady_sub hw h1]
    unfold getWakeupTime
    omega
  · rw [steady_add hw]
    unfold getWakeupTime
    omega

/-- **C112 (stop does not leave too early).** It waits until no connection is left, however the clock runs and whatever
    signals come. -/
theorem stop_waits (bits : Nat) (wall : Nat → Int) (signal : Nat → Prop) (open_ : Nat → Nat) (t e : Nat)
    (h : Stops bits wall signal open_ t e) : t ≤ e ∧ open_ e = 0 := by
  induction h with
  | done h => exact ⟨Nat.le_refl _, h⟩
  | again _ hw _ ih => exact ⟨Nat.le_trans hw.order ih.1, ih.2⟩

/-- **C112 (stop is prompt, as far as it holds).** If nobody sets the clock, and no connection is open from the moment `z` on,
    then `stop` leaves its loop within a quarter of a second after it, even if nothing is signaled. -/
theorem stop_prompt_partial (bits : Nat) (hb : bits = 64 ∨ bits = 32) (wall : Nat → Int) (hw : Steady wall)
    (signal : Nat → Prop) (open_ : Nat → Nat) (z : Nat) (hz : ∀ t, z ≤ t → open_ t = 0) (t e : Nat)
    (h : Stops bits wall signal open_ t e) : e ≤ t ∨ e < z + 250000 := by
  induction h with
  | done => exact .inl (Nat.le_refl _)
  | @again t u e ho hwait _ ih =>
    have htz : t < z := by
      refine Nat.lt_of_not_le fun hle => ho (hz t hle)
    right
    rcases ih with ih | ih
    · by_cases hlt : t < u
      · have := hwait.before (u - 1) (by omega) (by omega)
        rw [quarter bits hb, steady_sub hw (show t ≤ u - 1 by omega)] at this
        omega
      · omega
    · exact ih

/-- **C112 (stop leaves its loop).** If nobody sets the clock and the connections end some time. -/
theorem stop_ends (bits : Nat) (hb : bits = 64 ∨ bits = 32) (wall : Nat → Int) (hw : Steady wall)
    (signal : Nat → Prop) (open_ : Nat → Nat) (z : Nat) (hz : ∀ t, z ≤ t → open_ t = 0) (t : Nat) :
    ∃ e, Stops bits wall signal open_ t e := by
  obtain ⟨k, hk⟩ : ∃ k, z - t = k := ⟨_, rfl⟩
  induction k using Nat.strongRecOn generalizing t with
  | ind k ih =>
    by_cases ho : open_ t = 0
    · exact ⟨t, .done ho⟩
    · have htz : t < z := Nat.lt_of_not_le fun hle => ho (hz t hle)
      obtain ⟨e, he⟩ := ih (z - (t + 250000)) (by omega) (t + 250000) rfl
      refine ⟨e, .again ho ⟨by omega, ?_, .inl ?_⟩ he⟩
      · intro x h1 h2
        rw [quarter bits hb, steady_sub hw h1]
        omega
      · rw [quarter bits hb, steady_add hw]
        omega

/-- **C112 fails for less than a microsecond**: the thread does not sleep at all. -/
theorem no_sleep (bits : Nat) (hb : bits = 64 ∨ bits = 32) (wall : Nat → Int) (start : Nat) :
    Sleeps bits wall 0 999 start start := by
  refine ⟨Nat.le_refl _, fun t h1 h2 => absurd h2 (Nat.not_lt.2 h1), ?_⟩
  unfold getWakeupTime
  have : toLong bits 0 = 0 := by rcases hb with rfl | rfl <;> decide
  rw [this, show ((999 : UInt32) / 1000).toNat = 0 by decide]
  omega

/-- **C112 fails where `long` has 32 bits**: who asks for 2^31 seconds or more is not asleep at all. -/
theorem long_sleep_violated (wall : Nat → Int) (sec nsec : UInt32) (hs : 2 ^ 31 ≤ sec.toNat)
    (hns : nsec.toNat < 1000000000) (start : Nat) :
    Sleeps 32 wall sec nsec start start := by
  refine ⟨Nat.le_refl _, fun t h1 h2 => absurd h2 (Nat.not_lt.2 h1), ?_⟩
  have hlt := sec.toNat_lt
  have hl : toLong 32 sec = (sec.toNat : Int) - 2 ^ 32 := by
    unfold toLong
    rw [BitVec.toInt_eq_toNat_cond, BitVec.toNat_ofNat, Nat.mod_eq_of_lt (by omega), if_neg (by omega)]
    rfl
  have hn : (nsec / 1000).toNat = nsec.toNat / 1000 := by simp
  unfold getWakeupTime
  rw [hl, hn]
  omega

/-- **C112 fails if the clock is set back during a sleep**: by so much longer it lasts. -/
theorem set_back_violated (bits : Nat) (hb : bits = 64 ∨ bits = 32) (by_ : Nat) :
    Sleeps bits (setBack 500000 by_) 1 0 0 (1000000 + by_) := by
  have h1 : toLong bits 1 = 1 := by rcases hb with rfl | rfl <;> decide
  have hw : getWakeupTime bits (setBack 500000 by_ 0) 1 0 = 1000000 := by
    unfold getWakeupTime
    rw [h1]
    simp [setBack]
  refine ⟨Nat.zero_le _, fun t _ h2 => ?_, ?_⟩
  · rw [hw]
    unfold setBack
    split <;> omega
  · rw [hw]
    unfold setBack
    split <;> omega

/-- **C112 fails if the clock is set back while `stop` waits**: the last connection has been left by everybody but the pool
    long ago, and `stop` goes on waiting, for as long as the clock was set back. (A connection that is finished
    properly is signaled; one that was dropped is found by `prune_connections` only.) -/
theorem stop_delayed (bits : Nat) (hb : bits = 64 ∨ bits = 32) (by_ : Nat) :
    Stops bits (setBack 100000 by_) (fun _ => False) (fun t => if t < 50000 then 1 else 0) 0 (250000 + by_) ∧
    ∀ e, Stops bits (setBack 100000 by_) (fun _ => False) (fun t => if t < 50000 then 1 else 0) 0 e → e = 250000 + by_ := by
  have hw : getWakeupTime bits (setBack 100000 by_ 0) 0 250000000 = 250000 := by
    rw [quarter bits hb]
    simp [setBack]
  constructor
  · refine .again (by decide) ⟨Nat.zero_le _, fun t _ h2 => ?_, .inl ?_⟩ (.done (if_neg (by omega)))
    · rw [hw]
      unfold setBack
      split <;> omega
    · rw [hw]
      unfold setBack
      split <;> omega
  · intro e h
    cases h with
    | done h => cases h
    | @again _ u _ _ hwait hrest =>
      have hu : u = 250000 + by_ := by
        have h2 := hwait.over.resolve_right id
        have h3 := hwait.before
        rw [hw] at h2
        have a : 250000 + by_ ≤ u := by
          unfold setBack at h2
          split at h2 <;> omega
        refine Nat.le_antisymm (Nat.le_of_not_lt fun hlt => ?_) a
        have := h3 (250000 + by_) (Nat.zero_le _) hlt
        rw [hw] at this
        unfold setBack at this
        split at this <;> omega
      cases hrest with
      | done => exact hu
      | again ho =>
        rw [if_neg (by omega)] at ho
        exact absurd rfl ho

/-- A steady clock, and a sleep of one and a half seconds and a bit. -/
example : Steady (fun t => (t : Int) + 7) := fun t => by dsimp only; omega
example : Sleeps 64 (fun t => (t : Int) + 7) 1 500000999 3 1500003 := by
  have hw : getWakeupTime 64 ((3 : Nat) + 7 : Int) 1 500000999 = 1500010 := by decide +kernel
  refine ⟨by decide, fun t _ h2 => ?_, ?_⟩
  · rw [hw]
    omega
  · rw [hw]
    decide

end Verif.Props.Sleep
