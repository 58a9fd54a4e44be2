import Verif.Model.AdminRights
import Verif.Spec.AdminRights
import Verif.Lemmas.Digits
import Verif.Lemmas.Path
import Mathlib.Tactic.Common
import Mathlib.Data.List.Induction
/-
C59: administrative rights are held by one object at a time and given back. C60: the user and group to run as.
-/
namespace Verif.Props.AdminRights
open Verif.AdminRights Verif.Spec.AdminRights

/-! ### C59 -/

private structure Inv (p : Proc) (s : St) : Prop where
  owner : ∀ i, s.owner = some i → ∃ o, s.objs[i]? = some o ∧ o.has = true
  has : ∀ (i : Nat) (o : Obj), s.objs[i]? = some o → o.has = true → s.owner = some i ∧ s.proc = { p with euid := 0 } ∧ o.saved = toInt16 p.euid

private theorem seteuid_same (p : Proc) (u : Nat) (hp : p.euid = 0) (hu : u ≠ 2 ^ 32 - 1) :
    p.seteuid u = ({ p with euid := u }, true) := by
  rw [Proc.seteuid, if_neg hu, if_pos (.inl hp)]

/-- The ids that survive being stored in 16 bits. -/
def Fits (u : Nat) : Prop := u < 32768 ∨ 2 ^ 32 - 32768 ≤ u ∧ u < 2 ^ 32 - 1

private theorem toUid_toInt16 (u : Nat) : toUid (toInt16 u) =
    if u % 65536 < 32768 then u % 65536 else 2 ^ 32 - 65536 + u % 65536 := by
  unfold toUid toInt16
  split <;> omega

private theorem fits_iff (u : Nat) (hu : u < 2 ^ 32) : toUid (toInt16 u) = u ∧ u ≠ 2 ^ 32 - 1 ↔ Fits u := by
  rw [toUid_toInt16]
  unfold Fits
  split <;> omega

/-- The effective user after rights have been given back, for a process that had user `u` before. -/
def after (u : Nat) : Nat := if u % 65536 = 65535 then 0 else toUid (toInt16 u)

private theorem after_fits (u : Nat) (h : Fits u) : after u = u := by
  unfold after
  rw [toUid_toInt16]
  unfold Fits at h
  split
  · omega
  · split <;> omega

private theorem inv_step {p : Proc} (hp : Fits p.euid) {s : St} (h : Inv p s) (hn : s.owner = none → s.proc = p) (a : Act) :
    Inv p (s.step a) ∧ ((s.step a).owner = none → (s.step a).proc = p) := by
  cases a with
  | construct =>
    simp only [St.step, St.construct]
    cases ho : s.owner with
    | some i => exact ⟨h, fun h' => hn h'⟩
    | none =>
      have hnone : ∀ (i : Nat) (o : Obj), s.objs[i]? = some o → o.has = false := by
        intro i o hi
        cases hb : o.has with
        | false => rfl
        | true => have := (h.has i o hi hb).1; rw [ho] at this; cases this
      have hproc := hn ho
      rw [hproc]
      cases hq : p.seteuid 0 with
      | mk q b =>
        cases b with
        | true =>
          have hq' : q = { p with euid := 0 } := by
            unfold Proc.seteuid at hq
            rw [if_neg (by decide)] at hq
            split at hq
            · exact (Prod.mk.inj hq).1.symm
            · exact absurd (Prod.mk.inj hq).2 (by decide)
          refine ⟨⟨?_, ?_⟩, ?_⟩
          · intro i hi
            simp only [Option.some.injEq] at hi
            subst hi
            exact ⟨{ saved := toInt16 p.euid, has := true }, by simp, rfl⟩
          · intro i o hi hb
            simp only at hi ⊢
            rw [List.getElem?_append] at hi
            split at hi
            · rw [hnone i o hi] at hb; cases hb
            · rename_i hlt
              have : i = s.objs.length := by
                by_contra hne
                rw [List.getElem?_eq_none (by simp; omega)] at hi
                cases hi
              subst this
              simp at hi
              exact ⟨rfl, hq', hi ▸ rfl⟩
          · intro h'; cases h'
        | false =>
          refine ⟨⟨?_, ?_⟩, fun _ => rfl⟩
          · intro i hi; simp only at hi; cases hi
          · intro i o hi hb
            simp only at hi
            rw [List.getElem?_append] at hi
            split at hi
            · rw [hnone i o hi] at hb; cases hb
            · rename_i hlt
              have : i = s.objs.length := by
                by_contra hne
                rw [List.getElem?_eq_none (by simp; omega)] at hi
                cases hi
              subst this
              simp at hi
              rw [← hi] at hb
              cases hb
  | release i =>
    simp only [St.step, St.release]
    cases hi : s.objs[i]? with
    | none => exact ⟨h, hn⟩
    | some o =>
      simp only
      by_cases hb : o.has = true
      · rw [if_pos hb]
        obtain ⟨ho, hproc, hs⟩ := h.has i o hi hb
        refine ⟨⟨fun j hj => (by cases hj), ?_⟩, fun _ => ?_⟩
        · intro j oj hj hbj
          simp only at hj
          rw [List.getElem?_set] at hj
          split at hj
          · split at hj
            · simp at hj; rw [← hj] at hbj; cases hbj
            · cases hj
          · rename_i hij
            have := (h.has j oj hj hbj).1
            rw [ho] at this
            exact absurd (Option.some.inj this) hij
        · have hu : (p.euid < 2 ^ 32) := by unfold Fits at hp; omega
          have := (fits_iff p.euid hu).2 hp
          simp only
          rw [hs, hproc, this.1, seteuid_same _ _ rfl this.2]
      · rw [if_neg hb]; exact ⟨h, hn⟩

private theorem inv_run {p : Proc} (hp : Fits p.euid) (as : List Act) :
    Inv p (run p as) ∧ ((run p as).owner = none → (run p as).proc = p) := by
  induction as using List.reverseRecOn with
  | nil => exact ⟨⟨fun i hi => (by cases hi), fun i o hi => (by simp [run] at hi)⟩, fun _ => rfl⟩
  | append_singleton as a ih =>
    have : run p (as ++ [a]) = (run p as).step a := by simp [run]
    rw [this]
    exact inv_step hp ih.1 ih.2 a

private structure Inv0 (s : St) : Prop where
  owner : ∀ i, s.owner = some i → ∃ o, s.objs[i]? = some o ∧ o.has = true
  has : ∀ (i : Nat) (o : Obj), s.objs[i]? = some o → o.has = true → s.owner = some i ∧ s.proc.euid = 0

private theorem inv0_run (p : Proc) (as : List Act) : Inv0 (run p as) := by
  induction as using List.reverseRecOn with
  | nil => exact ⟨fun i hi => (by cases hi), fun i o hi => (by simp [run] at hi)⟩
  | append_singleton as a h =>
    have : run p (as ++ [a]) = (run p as).step a := by simp [run]
    rw [this]
    generalize run p as = s at h
    cases a with
    | construct =>
      simp only [St.step, St.construct]
      cases ho : s.owner with
      | some i => exact h
      | none =>
        have hnone : ∀ (i : Nat) (o : Obj), s.objs[i]? = some o → o.has = false := by
          intro i o hi
          cases hb : o.has with
          | false => rfl
          | true => have := (h.has i o hi hb).1; rw [ho] at this; cases this
        have hlast : ∀ (i : Nat) (o x : Obj), (s.objs ++ [x])[i]? = some o → o.has = true → i = s.objs.length ∧ o = x := by
          intro i o x hi hb
          rw [List.getElem?_append] at hi
          split at hi
          · rw [hnone i o hi] at hb; cases hb
          · have hl : i = s.objs.length := by
              by_contra hne
              rw [List.getElem?_eq_none (by simp; omega)] at hi
              cases hi
            subst hl
            simp at hi
            exact ⟨rfl, hi.symm⟩
        cases hq : s.proc.seteuid 0 with
        | mk q b =>
          cases b with
          | true =>
            have hq' : q.euid = 0 := by
              unfold Proc.seteuid at hq
              rw [if_neg (by decide)] at hq
              split at hq
              · rw [← (Prod.mk.inj hq).1]
              · exact absurd (Prod.mk.inj hq).2 (by decide)
            refine ⟨fun i hi => ?_, fun i o hi hb => ?_⟩
            · simp only [Option.some.injEq] at hi
              subst hi
              exact ⟨{ saved := toInt16 s.proc.euid, has := true }, by simp, rfl⟩
            · exact ⟨congrArg some (hlast i o _ hi hb).1.symm, hq'⟩
          | false =>
            refine ⟨fun i hi => ?_, fun i o hi hb => ?_⟩
            · simp only at hi; cases hi
            · have := (hlast i o _ hi hb).2
              rw [this] at hb
              cases hb
    | release i =>
      simp only [St.step, St.release]
      cases hi : s.objs[i]? with
      | none => exact h
      | some o =>
        simp only
        by_cases hb : o.has = true
        · rw [if_pos hb]
          obtain ⟨ho, -⟩ := h.has i o hi hb
          refine ⟨fun j hj => (by cases hj), ?_⟩
          intro j oj hj hbj
          simp only at hj
          rw [List.getElem?_set] at hj
          split at hj
          · split at hj
            · simp at hj; rw [← hj] at hbj; cases hbj
            · cases hj
          · rename_i hij
            have := (h.has j oj hj hbj).1
            rw [ho] at this
            exact absurd (Option.some.inj this) hij
        · rw [if_neg hb]; exact h

/-- C59: whatever the threads do, at most one object has administrative rights. -/
theorem exclusive (p : Proc) (as : List Act) {i j : Nat} {a b : Obj} (hi : (run p as).objs[i]? = some a) (ha : a.has = true)
    (hj : (run p as).objs[j]? = some b) (hb : b.has = true) : i = j :=
  Option.some.inj (((inv0_run p as).has i a hi ha).1.symm.trans ((inv0_run p as).has j b hj hb).1)

/-- C59: while an object has the rights, the process, with all its threads, runs as the administrator. -/
theorem rights (p : Proc) (as : List Act) {i : Nat} {a : Obj} (hi : (run p as).objs[i]? = some a) (ha : a.has = true) :
    (run p as).proc.euid = 0 :=
  ((inv0_run p as).has i a hi ha).2

/-- C59: the constructor waits exactly while another object has the rights. -/
theorem waits_iff (p : Proc) (as : List Act) :
    run p (as ++ [.construct]) = run p as ↔ ∃ (i : Nat) (a : Obj), (run p as).objs[i]? = some a ∧ a.has = true := by
  have : run p (as ++ [.construct]) = (run p as).construct := by simp [run, St.step]
  rw [this]
  constructor
  · intro h
    cases ho : (run p as).owner with
    | some i => exact ⟨i, (inv0_run p as).owner i ho⟩
    | none =>
      have hl := congrArg (fun s => s.objs.length) h
      simp only [St.construct, ho] at hl
      split at hl <;> simp at hl
  · rintro ⟨i, a, hi, ha⟩
    rw [St.construct, ((inv0_run p as).has i a hi ha).1]

/-- C59, for user ids that fit: when no object has the rights, the process has the ids it started with. Missing:
    other user ids; `released` says what happens to them. -/
theorem restored_partial {p : Proc} (hp : Fits p.euid) (as : List Act)
    (h : ∀ (i : Nat) (a : Obj), (run p as).objs[i]? = some a → a.has = false) : (run p as).proc = p := by
  refine (inv_run hp as).2 ?_
  cases ho : (run p as).owner with
  | none => rfl
  | some i =>
    obtain ⟨o, h1, h2⟩ := (inv0_run p as).owner i ho
    rw [h i o h1] at h2
    cases h2

example : Fits 1000 ∧
    (run ⟨0, 1000, 0, 0, 0, 0⟩ [.construct]).proc.euid = 0 ∧
    (run ⟨0, 1000, 0, 0, 0, 0⟩ [.construct, .construct, .release 0]).proc.euid = 1000 := by
  refine ⟨.inl (by decide), by decide +kernel, by decide +kernel⟩

/-- C59: exactly what a process that may become the administrator gets when it takes the rights and gives them back.
    The user id is kept in 16 bits: ids from 32768 on become other ids, and an id that becomes -1 is not restored. -/
theorem released (p : Proc) (hp : p.euid = 0 ∨ p.ruid = 0 ∨ p.suid = 0) :
    (run p [.construct, .release 0]).proc = { p with euid := after p.euid } := by
  have h0 : p.seteuid 0 = ({ p with euid := 0 }, true) := by
    rw [Proc.seteuid, if_neg (by decide), if_pos (by omega)]
  have h1 : run p [.construct] = { proc := { p with euid := 0 }, owner := some 0, objs := [{ saved := toInt16 p.euid, has := true }] } := by
    simp only [run, List.foldl_cons, List.foldl_nil, St.step, St.construct, h0]
    rfl
  have h2 : run p [.construct, .release 0] = (run p [.construct]).release 0 := rfl
  rw [h2, h1]
  simp only [St.release, List.getElem?_cons_zero, if_true]
  unfold after
  by_cases hu : p.euid % 65536 = 65535
  · have e : toUid (toInt16 p.euid) = 2 ^ 32 - 1 := by rw [toUid_toInt16, hu]; rfl
    rw [if_pos hu, e, Proc.seteuid, if_pos rfl]
  · have e : toUid (toInt16 p.euid) ≠ 2 ^ 32 - 1 := by rw [toUid_toInt16]; split <;> omega
    rw [if_neg hu, seteuid_same _ _ rfl e]

/-- C59 fails for other ids: the user is the same as before exactly if the id fits. -/
theorem released_same_iff (p : Proc) (hp : p.euid = 0 ∨ p.ruid = 0 ∨ p.suid = 0) (hu : p.euid < 2 ^ 32 - 1) :
    (run p [.construct, .release 0]).proc = p ↔ Fits p.euid := by
  rw [released p hp]
  constructor
  · intro h
    have h' : after p.euid = p.euid := congrArg Proc.euid h
    unfold after at h'
    rw [toUid_toInt16] at h'
    unfold Fits
    split at h'
    · omega
    · split at h' <;> omega
  · intro h; rw [after_fits _ h]

/-- C59 fails: a user whose id is a multiple of 65536, or one below such a multiple, stays administrator. -/
theorem stays_administrator (p : Proc) (hp : p.ruid = 0 ∨ p.suid = 0) (h : p.euid % 65536 = 0 ∨ p.euid % 65536 = 65535) :
    (run p [.construct, .release 0]).proc.euid = 0 := by
  rw [released p (.inr hp)]
  show after p.euid = 0
  unfold after
  rcases h with h | h
  · rw [if_neg (by omega), toUid_toInt16, h]; rfl
  · rw [if_pos h]

/-- User 40000 goes on as another user; user 65536 (say, of a directory service) as administrator. -/
theorem released_violated :
    (run ⟨0, 40000, 0, 0, 0, 0⟩ [.construct, .release 0]).proc.euid = 4294941760 ∧
    (run ⟨0, 65536, 0, 0, 0, 0⟩ [.construct, .release 0]).proc.euid = 0 ∧
    (run ⟨0, 131071, 0, 0, 0, 0⟩ [.construct, .release 0]).proc.euid = 0 := by decide +kernel

/-- C59: a process that may not become the administrator goes on as before, and the mutex is free. -/
theorem refused (p : Proc) (hp : p.euid ≠ 0 ∧ p.ruid ≠ 0 ∧ p.suid ≠ 0) (as : List Act) :
    (run p as).proc = p ∧ (run p as).owner = none ∧ ∀ (i : Nat) (a : Obj), (run p as).objs[i]? = some a → a.has = false := by
  induction as using List.reverseRecOn with
  | nil => exact ⟨rfl, rfl, fun i a h => by simp [run] at h⟩
  | append_singleton as a ih =>
    have : run p (as ++ [a]) = (run p as).step a := by simp [run]
    rw [this]
    obtain ⟨h1, h2, h3⟩ := ih
    generalize run p as = s at *
    cases a with
    | construct =>
      have h0 : s.proc.seteuid 0 = (s.proc, false) := by
        rw [h1, Proc.seteuid, if_neg (by decide), if_neg (by omega)]
      simp only [St.step, St.construct, h2, h0]
      refine ⟨h1, trivial, fun i a hi => ?_⟩
      rw [List.getElem?_append] at hi
      split at hi
      · exact h3 i a hi
      · rcases hj : i - s.objs.length with _ | k
        · rw [hj] at hi; simp at hi; rw [← hi]
        · rw [hj] at hi; simp at hi
    | release i =>
      simp only [St.step, St.release]
      cases hi : s.objs[i]? with
      | none => exact ⟨h1, h2, h3⟩
      | some o =>
        simp only [h3 i o hi, Bool.false_eq_true, if_false]
        exact ⟨h1, h2, h3⟩

example : (run ⟨1000, 1000, 1000, 0, 0, 0⟩ [.construct, .construct]).objs = [{ saved := 1000 }, { saved := 1000 }] := by
  decide +kernel

/-! ### C60 -/

private theorem justNumbers_toDec (n : Nat) : justNumbers (toDec n) = true := by
  unfold justNumbers
  rw [Bool.and_eq_true, List.all_eq_true]
  exact ⟨by simp [toDec_ne_nil], toDec_isDigit n⟩

/-- C60: a number is taken as the id it is, whatever the file says. From 2147483648 on an exception is thrown. -/
theorem number (n : Nat) (file : Option Bytes) :
    findSystemId (toDec n) file = if n < 2 ^ 31 then .id n else .thrown := by
  rw [findSystemId.eq_def, if_pos (justNumbers_toDec n), castId, decVal_toDec]

private theorem line_no_newline {e : Entry} (h : e.Ok) : 0x0a ∉ e.line := by
  unfold Entry.line
  have hf := h.fields
  generalize e.fields = fs at hf
  induction fs with
  | nil => simp
  | cons f fs ih =>
    cases fs with
    | nil => simpa using (hf f (by simp)).2
    | cons g fs =>
      rw [List.intercalate_cons_cons]
      simp only [List.mem_append, List.mem_singleton, not_or]
      exact ⟨⟨(hf f (by simp)).2, by decide⟩, ih (fun x hx => hf x (List.mem_cons_of_mem _ hx))⟩

private theorem tokens_line {e : Entry} (h : e.Ok) : tokens e.line = e.fields.filter (· ≠ []) := by
  unfold tokens Entry.line
  rw [List.splitOn_intercalate _ (fun f hf => (h.fields f hf).1) (by simp [Entry.fields])]

private theorem lines_text {es : List Entry} (h : ∀ e ∈ es, e.Ok) : (text es).splitOn 0x0a = es.map Entry.line ++ [[]] := by
  induction es with
  | nil => rfl
  | cons e es ih =>
    have : text (e :: es) = e.line ++ 0x0a :: text es := by simp [text]
    rw [this, List.splitOn_append_cons_self_of_not_mem (line_no_newline (h e (by simp))),
      ih (fun x hx => h x (List.mem_cons_of_mem _ hx))]
    rfl

private theorem search_text (name : Bytes) (es : List Entry) (h : ∀ e ∈ es, e.Ok) :
    search name (es.map Entry.line ++ [[]]) =
      match es.find? (fun e => e.name = name) with
      | none => .none
      | some e => search name [e.line] := by
  induction es with
  | nil => rfl
  | cons e es ih =>
    have he := h e (by simp)
    have ht : tokens e.line = e.name :: (e.password :: toDec e.id :: e.more).filter (· ≠ []) := by
      rw [tokens_line he, Entry.fields, List.filter_cons_of_pos (by simpa using he.name)]
    rw [List.map_cons, List.cons_append, search, ht]
    simp only
    by_cases hn : e.name = name
    · rw [if_pos hn, List.find?_cons_of_pos (by simpa using hn)]
      simp only [search, ht, if_pos hn]
    · rw [if_neg hn, List.find?_cons_of_neg (by simpa using hn)]
      exact ih (fun x hx => h x (List.mem_cons_of_mem _ hx))

/-- C60: a name that is not a number stands for the id in the first entry with that name, if the passwords in the file
    are not empty; there is none if there is no such entry. Missing: empty passwords (`empty_password`). -/
theorem name_partial (name : Bytes) (es : List Entry) (hn : justNumbers name = false) (h : ∀ e ∈ es, e.Ok)
    (hp : ∀ e ∈ es, e.password ≠ []) :
    findSystemId name (some (text es)) =
      match es.find? (fun e => e.name = name) with
      | none => .none
      | some e => if e.id < 2 ^ 31 then .id e.id else .thrown := by
  simp only [findSystemId, hn, Bool.false_eq_true, if_false]
  rw [lines_text h, search_text name es h]
  cases hf : es.find? (fun e => e.name = name) with
  | none => rfl
  | some e =>
    have hm := List.mem_of_find?_eq_some hf
    have he : e.name = name := by simpa using List.find?_some hf
    simp only [search]
    rw [tokens_line (h e hm), Entry.fields, List.filter_cons_of_pos (by simpa using (h e hm).name),
      List.filter_cons_of_pos (by simpa using hp e hm), List.filter_cons_of_pos (by simpa using toDec_ne_nil _)]
    simp only
    rw [if_pos he, if_pos (justNumbers_toDec _), castId, decVal_toDec]

/-- C60 fails for a user with an empty password: the field after the user id is taken, the id of the group. -/
theorem empty_password (name : Bytes) (es : List Entry) (e : Entry) (g : Nat) (more : List Bytes)
    (hn : justNumbers name = false) (h : ∀ e ∈ es, e.Ok)
    (hf : es.find? (fun e => e.name = name) = some e) (hp : e.password = []) (hm : e.more = toDec g :: more) :
    findSystemId name (some (text es)) = if g < 2 ^ 31 then .id g else .thrown := by
  simp only [findSystemId, hn, Bool.false_eq_true, if_false]
  rw [lines_text h, search_text name es h, hf]
  have hmem := List.mem_of_find?_eq_some hf
  have he : e.name = name := by simpa using List.find?_some hf
  simp only [search]
  rw [tokens_line (h e hmem), Entry.fields, List.filter_cons_of_pos (by simpa using (h e hmem).name),
    List.filter_cons_of_neg (by simp [hp]), List.filter_cons_of_pos (by simpa using toDec_ne_nil _), hm,
    List.filter_cons_of_pos (by simpa using toDec_ne_nil _)]
  simp only
  rw [if_pos he, if_pos (justNumbers_toDec _), castId, decVal_toDec]

/-- Two users, one without a password. -/
def passwd : List Entry :=
  [{ name := b! "root", password := b! "x", id := 0, more := [b! "0", b! "root", b! "/root", b! "/bin/sh"] },
   { name := b! "web", password := b! "x", id := 33, more := [b! "33", [], b! "/var/www", b! "/bin/sh"] },
   { name := b! "joe", password := [], id := 1000, more := [b! "0", b! "Joe", b! "/", b! "/bin/sh"] }]

example : (∀ e ∈ passwd, e.Ok) ∧ ∀ e ∈ passwd.take 2, e.password ≠ [] := by
  refine ⟨fun e he => ?_, by decide +kernel⟩
  have h1 : ∀ e ∈ passwd, e.name ≠ [] := by decide +kernel
  have h2 : ∀ e ∈ passwd, ∀ f ∈ e.fields, Field f := by decide +kernel
  exact ⟨h1 e he, h2 e he⟩

example : text passwd = b! "root:x:0:0:root:/root:/bin/sh\nweb:x:33:33::/var/www:/bin/sh\njoe::1000:0:Joe:/:/bin/sh\n" ∧
    findSystemId (b! "web") (some (text passwd)) = .id 33 ∧ findSystemId (b! "webs") (some (text passwd)) = .none := by
  decide +kernel

/-- C60 fails: to run as joe, user 1000 of group 0, who has no password, is to run as the administrator. -/
theorem empty_password_administrator :
    runAsUser ⟨0, 0, 0, 0, 0, 0⟩ (b! "joe") (some (text passwd)) = (⟨0, 0, 0, 0, 0, 0⟩, some 0) := by decide +kernel

/-- C60: what `run_as_user` does. If the name stands for an id, the process gets that user, provided that it may, and
    otherwise stays as it is and -1 is returned. -/
theorem run_as_user {p : Proc} {name : Bytes} {file : Option Bytes} {n : Nat} (h : findSystemId name file = .id n) (hn : n < 2 ^ 31) :
    runAsUser p name file =
      if p.euid = 0 ∨ n = p.ruid ∨ n = p.euid ∨ n = p.suid then ({ p with euid := n }, some (n : Int)) else (p, some (-1)) := by
  unfold runAsUser
  simp only [h, Proc.seteuid]
  rw [if_neg (by omega)]
  split
  · rename_i heq; split at heq
    · rename_i hc; rw [if_pos hc]; cases heq; rfl
    · cases heq
  · rename_i heq; split at heq
    · cases heq
    · rename_i hc; rw [if_neg hc]; cases heq; rfl

/-- C60: the same for groups. -/
theorem run_as_group {p : Proc} {name : Bytes} {file : Option Bytes} {n : Nat} (h : findSystemId name file = .id n) (hn : n < 2 ^ 31) :
    runAsGroup p name file =
      if p.euid = 0 ∨ n = p.rgid ∨ n = p.egid ∨ n = p.sgid then ({ p with egid := n }, some (n : Int)) else (p, some (-1)) := by
  unfold runAsGroup
  simp only [h, Proc.setegid]
  rw [if_neg (by omega)]
  split
  · rename_i heq; split at heq
    · rename_i hc; rw [if_pos hc]; cases heq; rfl
    · cases heq
  · rename_i heq; split at heq
    · cases heq
    · rename_i hc; rw [if_neg hc]; cases heq; rfl

/-- C60 fails for a name without an entry: nothing is changed, and the result is the one for success with the current
    user. An administrator stays one. -/
theorem unknown_user {p : Proc} {name : Bytes} {file : Option Bytes} (h : findSystemId name file = .none) :
    runAsUser p name file = (p, some (p.euid : Int)) ∧ runAsGroup p name file = (p, some (p.egid : Int)) := by
  simp [runAsUser, runAsGroup, h]

example : (runAsUser ⟨0, 0, 0, 0, 0, 0⟩ (b! "webs") (some (text passwd))) = (⟨0, 0, 0, 0, 0, 0⟩, some 0) := by decide +kernel

/-- C60: the condition `n < 2 ^ 31` above is no restriction: greater numbers, also 4294967295, which the system calls do not take,
    are an exception, and the process keeps its user and group. -/
theorem ids_small {name : Bytes} {file : Option Bytes} {n : Nat} (h : findSystemId name file = .id n) : n < 2 ^ 31 := by
  have cast : ∀ s : Bytes, castId s = .id n → n < 2 ^ 31 := by
    intro s hs
    unfold castId at hs
    split at hs
    · cases hs; assumption
    · cases hs
  unfold findSystemId at h
  split at h
  · exact cast _ h
  · cases file with
    | none => cases h
    | some content =>
      dsimp only at h
      generalize content.splitOn 0x0a = ls at h
      induction ls with
      | nil => cases h
      | cons l ls ih =>
        unfold search at h
        split at h
        · exact ih h
        · split at h
          · split at h
            · split at h
              · exact cast _ h
              · cases h
            · cases h
          · exact ih h

theorem exception_changes_nothing {p : Proc} {name : Bytes} {file : Option Bytes} (h : findSystemId name file = .thrown) :
    runAsUser p name file = (p, none) ∧ runAsGroup p name file = (p, none) := by
  simp [runAsUser, runAsGroup, h]

example : findSystemId (b! "nobody") (some (b! "nobody:x:4294967295:4294967295::/:/bin/sh\n")) = .thrown := by decide +kernel

/-- Order: once the administrator has become another user, the group can only be one the process has. -/
theorem user_before_group {p : Proc} {user group : Bytes} {f1 f2 : Option Bytes} {u g : Nat} (hu : findSystemId user f1 = .id u)
    (hg : findSystemId group f2 = .id g) (hu31 : u < 2 ^ 31) (hg31 : g < 2 ^ 31) (h0 : u ≠ 0) (hp : p.euid = 0)
    (hgs : g ≠ p.rgid ∧ g ≠ p.egid ∧ g ≠ p.sgid) :
    (runAsGroup (runAsUser p user f1).1 group f2).2 = some (-1) ∧ (runAsGroup (runAsUser p user f1).1 group f2).1.egid = p.egid ∧
    (runAsUser (runAsGroup p group f2).1 user f1).1 = { p with euid := u, egid := g } := by
  have e1 : runAsUser p user f1 = ({ p with euid := u }, some (u : Int)) := by rw [run_as_user hu hu31, if_pos (.inl hp)]
  have e2 : runAsGroup p group f2 = ({ p with egid := g }, some (g : Int)) := by rw [run_as_group hg hg31, if_pos (.inl hp)]
  have e3 : runAsGroup { p with euid := u } group f2 = ({ p with euid := u }, some (-1)) := by
    rw [run_as_group hg hg31, if_neg (by simp only; omega)]
  have e4 : runAsUser { p with egid := g } user f1 = ({ p with euid := u, egid := g }, some (u : Int)) := by
    rw [run_as_user hu hu31, if_pos (.inl hp)]
  rw [e1, e2, e3, e4]
  exact ⟨rfl, rfl, rfl⟩

end Verif.Props.AdminRights
