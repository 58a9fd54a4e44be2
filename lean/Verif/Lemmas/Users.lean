import Verif.Lemmas.SortedMap
import Verif.Spec.Users
namespace Verif.Users
open SMap Spec.Users

theorem hexByte_digits : ∀ c d : UInt8, ∀ hi lo, hexVal? c = some hi → hexVal? d = some lo →
    hexByte c d = some (UInt8.ofNat (16 * hi + lo)) := by
  have key : ∀ c d : UInt8, (hexVal? c).isSome = true → (hexVal? d).isSome = true →
      hexByte c d = some (UInt8.ofNat (16 * (hexVal? c).getD 0 + (hexVal? d).getD 0)) := by
    intro c d hc hd
    have hcases : ∀ c : UInt8, (hexVal? c).isSome = true →
        isSpaceC c = false ∧ c ≠ c! "-" ∧ c ≠ c! "+" ∧ (hexVal? c).getD 0 < 16 := by decide +kernel
    obtain ⟨h1, h2, h3, h4⟩ := hcases c hc
    obtain ⟨-, -, -, h5⟩ := hcases d hd
    obtain ⟨hi, hhi⟩ := Option.isSome_iff_exists.1 hc
    obtain ⟨lo, hlo⟩ := Option.isSome_iff_exists.1 hd
    rw [hhi] at h4; rw [hlo] at h5
    simp only [Option.getD_some] at h4 h5
    have hs : strtol16 [c, d] = ((16 * hi + lo : Nat) : Int) := by
      unfold strtol16
      rw [List.dropWhile_cons, h1]
      simp only [Bool.false_eq_true, if_false, h2, h3, skip0x, hexDigits, hhi, hlo, LONG_MAX]
      congr 1
      omega
    unfold hexByte
    rw [hs, hhi, hlo]
    simp only [Option.getD_some]
    rw [if_pos (by omega), Int.toNat_natCast]
  intro c d hi lo hc hd
  rw [key c d (by simp [hc]) (by simp [hd]), hc, hd]; rfl

theorem hexLoop_unhex : ∀ (t : Bytes) (x : Bytes), unhex t = some x → hexLoop t = (x, true)
  | [], x, h => by simp [unhex] at h; subst h; rfl
  | [_], x, h => by simp [unhex] at h
  | c :: d :: r, x, h => by
    rw [unhex] at h
    cases hc : hexVal? c with
    | none => simp [hc] at h
    | some hi =>
      cases hd : hexVal? d with
      | none => simp [hc, hd] at h
      | some lo =>
        cases hr : unhex r with
        | none => simp [hc, hd, hr] at h
        | some y =>
          simp [hc, hd, hr] at h
          subst h
          rw [hexLoop, hexByte_digits c d hi lo hc hd, hexLoop_unhex r y hr]
          simp

theorem unhex_length : ∀ (t x : Bytes), unhex t = some x → t.length = 2 * x.length
  | [], x, h => by simp [unhex] at h; subst h; rfl
  | [_], x, h => by simp [unhex] at h
  | c :: d :: r, x, h => by
    rw [unhex] at h
    cases hc : hexVal? c with
    | none => simp [hc] at h
    | some hi =>
      cases hd : hexVal? d with
      | none => simp [hc, hd] at h
      | some lo =>
        cases hr : unhex r with
        | none => simp [hc, hd, hr] at h
        | some y =>
          simp [hc, hd, hr] at h
          subst h
          have := unhex_length r y hr
          simp only [List.length_cons]; omega

/-- The object stored for a user represents the credential. -/
def Rep (b : Build) : User → Cred → Prop
  | u, .plain p => b.ssl = false ∧ u.password = p
  | u, .digest256 d => b.ssl = true ∧ u.hashType = .sha256 ∧ d.length = 32 ∧ u.hash.take 32 = d
  | u, .digest1 d => b.ssl = true ∧ u.hashType = .sha1 ∧ d.length = 20 ∧ u.hash.take 20 = d

theorem take_overwrite {old new : Bytes} {n : Nat} (h : new.length = n) : (overwrite old new).take n = new := by
  subst h; simp [overwrite]

theorem rep_setPassword {b : Build} (hb : Digests b) (u : User) (pw : Bytes) :
    Rep b (setPassword b u pw) (ofPassword b pw) := by
  unfold setPassword ofPassword
  cases hs : b.ssl with
  | true => exact ⟨hs, rfl, hb.len256 pw, take_overwrite (hb.len256 pw)⟩
  | false => exact ⟨hs, rfl⟩

theorem rep_match {b : Build} (hb : Digests b) {u : User} {c : Cred} (h : Rep b u c) (pw : Bytes) :
    matchPassword b u pw = true ↔ Fits b c pw := by
  cases c with
  | plain p => obtain ⟨h1, h2⟩ := h; simp [matchPassword, h1, Fits, h2]
  | digest256 d =>
    obtain ⟨h1, h2, h3, h4⟩ := h
    have := hb.len256 pw
    simp [matchPassword, h1, h2, Fits, h4, List.take_of_length_le (Nat.le_of_eq this)]
  | digest1 d =>
    obtain ⟨h1, h2, h3, h4⟩ := h
    have := hb.len1 pw
    simp [matchPassword, h1, h2, Fits, h4, List.take_of_length_le (Nat.le_of_eq this)]

/-- A hash text of the right form is accepted and stored. -/
theorem setPasswordHash_ok {b : Build} (hs : b.ssl = true) (u : User) {t : Bytes} {c : Cred} (h : ofText t = some c) :
    (setPasswordHash u t).2 = true ∧ Rep b (setPasswordHash u t).1 c := by
  unfold ofText at h
  unfold setPasswordHash
  split at h
  next hl =>
    obtain ⟨x, hx, rfl⟩ := Option.map_eq_some_iff.1 h
    have hlen := unhex_length t x hx
    rw [if_pos hl, hexLoop_unhex t x hx]
    exact ⟨rfl, hs, rfl, by omega, take_overwrite (by omega)⟩
  next hl =>
    rw [if_neg hl]
    split at h
    next hl2 =>
      obtain ⟨x, hx, rfl⟩ := Option.map_eq_some_iff.1 h
      have hlen := unhex_length t x hx
      rw [if_pos hl2, hexLoop_unhex t x hx]
      exact ⟨rfl, hs, rfl, by omega, take_overwrite (by omega)⟩
    · cases h

theorem setPasswordHash_bad (u : User) {t : Bytes} (hx : (t.length = 64 ∨ t.length = 40) → (unhex t).isSome)
    (h : ofText t = none) : setPasswordHash u t = (u, false) := by
  unfold ofText at h
  unfold setPasswordHash
  split at h
  next hl => have := hx (.inl hl); rw [Option.map_eq_none_iff] at h; simp [h] at this
  next hl =>
    rw [if_neg hl]
    split at h
    next hl2 => have := hx (.inr hl2); rw [Option.map_eq_none_iff] at h; simp [h] at this
    next hl2 => rw [if_neg hl2]

/-- The manager represents the map of credentials. -/
def RepMap (b : Build) (m : Manager) (t : Bytes → Option Cred) : Prop :=
  Sorted m ∧ ∀ n, match m.lookup n, t n with
    | none, none => True
    | some u, some c => Rep b u c
    | _, _ => False

theorem RepMap.none {b : Build} {m : Manager} {t : Bytes → Option Cred} (h : RepMap b m t) (n : Bytes) :
    m.lookup n = none ↔ t n = none := by
  have := h.2 n
  cases h1 : m.lookup n <;> cases h2 : t n <;> simp_all

theorem RepMap.step {b : Build} (hb : Digests b) {m : Manager} {t : Bytes → Option Cred} (h : RepMap b m t)
    (op : Op) (hx : HexOk op) (ha : Available b op) :
    RepMap b (Users.step b m op).1 (Spec.Users.step b t op) := by
  have hn := h.none
  cases op with
  | add n pw =>
    simp only [Users.step]
    split
    next hs =>
      have hne : t n ≠ Option.none := fun e => by rw [(hn n).2 e] at hs; cases hs
      refine ⟨h.1, fun x => ?_⟩
      simp only [Spec.Users.step, hne, and_false, if_false]; exact h.2 x
    next hs =>
      have h0 : m.lookup n = Option.none := by simpa using hs
      refine ⟨sorted_insert h.1 _ _, fun x => ?_⟩
      simp only [Spec.Users.step, lookup_insert h.1, h0, (hn n).1 h0, Option.none_or, and_true]
      by_cases hxn : x = n
      · simp only [hxn, if_true]; exact rep_setPassword hb _ _
      · simp only [hxn, if_false]; exact h.2 x
  | update n pw =>
    simp only [Users.step]
    cases hl : m.lookup n with
    | none =>
      refine ⟨h.1, fun x => ?_⟩
      simp only [Spec.Users.step, (hn n).1 hl, ne_eq, not_true, and_false, if_false]; exact h.2 x
    | some u =>
      have hne : t n ≠ Option.none := fun e => by rw [(hn n).2 e] at hl; cases hl
      refine ⟨sorted_assign h.1 _ _, fun x => ?_⟩
      simp only [Spec.Users.step, lookup_assign, hl, hne, ne_eq, not_false_eq_true, and_true, Option.map_some]
      by_cases hxn : x = n
      · simp only [hxn, if_true]; exact rep_setPassword hb _ _
      · simp only [hxn, if_false]; exact h.2 x
  | remove n =>
    simp only [Users.step]
    split
    next hs =>
      refine ⟨sorted_erase h.1 _, fun x => ?_⟩
      simp only [Spec.Users.step, lookup_erase]
      by_cases hxn : x = n
      · simp [hxn]
      · simp only [hxn, if_false]; exact h.2 x
    next hs =>
      have h0 : m.lookup n = Option.none := by simpa using hs
      refine ⟨h.1, fun x => ?_⟩
      simp only [Spec.Users.step]
      by_cases hxn : x = n
      · simp [hxn, h0]
      · simp only [hxn, if_false]; exact h.2 x
  | addHash n s =>
    simp only [Users.step]
    split
    next hs =>
      have hne : t n ≠ Option.none := fun e => by rw [(hn n).2 e] at hs; cases hs
      refine ⟨h.1, fun x => ?_⟩
      simp only [Spec.Users.step, hne, and_false, if_false]; exact h.2 x
    next hs =>
      have h0 : m.lookup n = Option.none := by simpa using hs
      cases hc : ofText s with
      | none =>
        rw [setPasswordHash_bad {} hx hc]
        refine ⟨h.1, fun x => ?_⟩
        simp only [Spec.Users.step, (hn n).1 h0, and_true, hc]
        by_cases hxn : x = n
        · simp [hxn, h0]
        · simp only [hxn, if_false]; exact h.2 x
      | some c =>
        obtain ⟨h1, h2⟩ := setPasswordHash_ok (b := b) ha {} hc
        rw [h1, if_pos rfl]
        refine ⟨sorted_insert h.1 _ _, fun x => ?_⟩
        simp only [Spec.Users.step, lookup_insert h.1, h0, (hn n).1 h0, Option.none_or, and_true, hc]
        by_cases hxn : x = n
        · simp only [hxn, if_true]; exact h2
        · simp only [hxn, if_false]; exact h.2 x
  | updateHash n s =>
    simp only [Users.step]
    cases hl : m.lookup n with
    | none =>
      refine ⟨h.1, fun x => ?_⟩
      simp only [Spec.Users.step, (hn n).1 hl, ne_eq, not_true, false_and, and_false, if_false]; exact h.2 x
    | some u =>
      have hne : t n ≠ Option.none := fun e => by rw [(hn n).2 e] at hl; cases hl
      cases hc : ofText s with
      | none =>
        simp only
        rw [setPasswordHash_bad u hx hc]
        refine ⟨sorted_assign h.1 _ _, fun x => ?_⟩
        simp only [Spec.Users.step, hc, ne_eq, not_true, and_false, if_false, lookup_assign, hl, Option.map_some]
        have := h.2 x
        by_cases hxn : x = n
        · subst hxn; rw [hl] at this; simpa using this
        · simp only [hxn, if_false]; exact this
      | some c =>
        obtain ⟨h1, h2⟩ := setPasswordHash_ok (b := b) ha u hc
        refine ⟨sorted_assign h.1 _ _, fun x => ?_⟩
        simp only [Spec.Users.step, lookup_assign, hl, hne, hc, ne_eq, not_false_eq_true, and_true, Option.map_some,
          reduceCtorEq]
        by_cases hxn : x = n
        · simp only [hxn, if_true]; exact h2
        · simp only [hxn, if_false]; exact h.2 x

theorem RepMap.run {b : Build} (hb : Digests b) (ops : List Op) (hx : ∀ op ∈ ops, HexOk op)
    (ha : ∀ op ∈ ops, Available b op) : RepMap b (Users.run b ops) (Spec.Users.run b ops) := by
  unfold Users.run Spec.Users.run
  suffices ∀ m t, RepMap b m t → RepMap b (ops.foldl (fun m op => (Users.step b m op).1) m)
      (ops.foldl (Spec.Users.step b) t) from this [] _ ⟨sorted_nil, fun n => trivial⟩
  induction ops with
  | nil => exact fun m t h => h
  | cons op ops ih =>
    intro m t h
    exact ih (fun o ho => hx o (List.mem_cons_of_mem _ ho)) (fun o ho => ha o (List.mem_cons_of_mem _ ho)) _ _
      (h.step hb op (hx op (List.mem_cons_self ..)) (ha op (List.mem_cons_self ..)))

end Verif.Users
