import Verif.Spec.ServiceConfig
import Mathlib.Tactic.Common
/-
Lemmas for Props/ServiceConfig.
-/
namespace Verif.Config
open Verif.Spec.Config

theorem isAlpha_not_ws {c : UInt8} (h : isAlpha c = true) : ws c = false ∧ eol c = false ∧ c ≠ c! "#" := by
  revert h; revert c; decide +kernel

theorem ws_iff (c : UInt8) : (c = c! " " ∨ c = 0x09) ↔ ws c = true := by simp [ws]
theorem eol_iff (c : UInt8) : (c = 0x0d ∨ c = 0x0a) ↔ eol c = true := by simp [eol]
theorem ws_not_eol {c : UInt8} (h : ws c = true) : eol c = false := by revert h; revert c; decide +kernel
theorem eol_not {c : UInt8} (h : eol c = true) : ws c = false ∧ isAlpha c = false ∧ c ≠ c! "#" := by
  revert h; revert c; decide +kernel

variable (env : Env)

theorem loop_cons (s : St) (c : UInt8) (t : Bytes) :
    loop env s (c :: t) = match s.step env c with | .next s => loop env s t | .stop o => o := rfl

variable {cmd r u v : Bytes} {a : Option Auth} {cs : List Call}

theorem loop_comment (l t : Bytes) (hl : ∀ c ∈ l, eol c = false) :
    loop env ⟨.comment, cmd, r, u, v, a, cs⟩ (l ++ t) = loop env ⟨.comment, cmd, r, u, v, a, cs⟩ t := by
  induction l with
  | nil => rfl
  | cons c l ih =>
    have hc := hl c (by simp)
    rw [List.cons_append, loop_cons]
    simp only [St.step, eol_iff, hc]
    exact ih fun x hx => hl x (by simp [hx])

theorem loop_command (l t : Bytes) (hl : ∀ c ∈ l, isAlpha c = true) :
    loop env ⟨.command, cmd, r, u, v, a, cs⟩ (l ++ t) = loop env ⟨.command, cmd ++ l.map toLower, r, u, v, a, cs⟩ t := by
  induction l generalizing cmd with
  | nil => simp
  | cons c l ih =>
    have hc := hl c (by simp)
    rw [List.cons_append, loop_cons]
    simp only [St.step, ws_iff, (isAlpha_not_ws hc).1, hc, Bool.false_eq_true, if_false, Bool.not_true]
    rw [ih fun x hx => hl x (by simp [hx])]
    simp

/-- The value after some more characters. -/
def addValue (v l : Bytes) : Bytes := if v.isEmpty then l.dropWhile ws else v ++ l

theorem loop_value (l t : Bytes) (hl : ∀ c ∈ l, eol c = false) :
    loop env ⟨.value, cmd, r, u, v, a, cs⟩ (l ++ t) = loop env ⟨.value, cmd, r, u, addValue v l, a, cs⟩ t := by
  induction l generalizing v with
  | nil =>
    have : addValue v [] = v := by
      unfold addValue; cases hv : v <;> simp
    simp [this]
  | cons c l ih =>
    have hc := hl c (by simp)
    have hl' : ∀ x ∈ l, eol x = false := fun x hx => hl x (by simp [hx])
    rw [List.cons_append, loop_cons]
    simp only [St.step, eol_iff, hc, ws_iff, Bool.false_eq_true, if_false]
    by_cases hw : ws c = true
    · simp only [hw, if_true]
      by_cases hv : v.isEmpty = true
      · simp only [hv, if_true]
        rw [ih hl']
        simp [addValue, hv, hw]
      · simp only [hv]
        simp only [Bool.false_eq_true, if_false]
        rw [ih hl']
        simp [addValue, hv]
    · simp only [hw, Bool.false_eq_true, if_false]
      rw [ih hl']
      by_cases hv : v.isEmpty = true
      · have : v = [] := by simpa using hv
        simp [addValue, hw, this]
      · simp [addValue, hv]

theorem loop_resource_ws (l t : Bytes) (hl : ∀ c ∈ l, ws c = true) :
    loop env ⟨.resource, cmd, [], u, v, a, cs⟩ (l ++ t) = loop env ⟨.resource, cmd, [], u, v, a, cs⟩ t := by
  induction l with
  | nil => rfl
  | cons c l ih =>
    rw [List.cons_append, loop_cons]
    simp only [St.step, ws_iff, hl c (by simp)]
    exact ih fun x hx => hl x (by simp [hx])

theorem loop_resource_word (l t : Bytes) (hl : ∀ c ∈ l, ws c = false ∧ eol c = false) :
    loop env ⟨.resource, cmd, r, u, v, a, cs⟩ (l ++ t) = loop env ⟨.resource, cmd, (r ++ l), u, v, a, cs⟩ t := by
  induction l generalizing r with
  | nil => simp
  | cons c l ih =>
    have hc := hl c (by simp)
    rw [List.cons_append, loop_cons]
    simp only [St.step, ws_iff, eol_iff, hc.1, hc.2, Bool.false_eq_true, if_false]
    rw [ih fun x hx => hl x (by simp [hx])]
    simp

theorem loop_username_ws (l t : Bytes) (hl : ∀ c ∈ l, ws c = true) :
    loop env ⟨.username, cmd, r, [], v, a, cs⟩ (l ++ t) = loop env ⟨.username, cmd, r, [], v, a, cs⟩ t := by
  induction l with
  | nil => rfl
  | cons c l ih =>
    rw [List.cons_append, loop_cons]
    simp only [St.step, ws_iff, hl c (by simp)]
    exact ih fun x hx => hl x (by simp [hx])

theorem loop_username_word (l t : Bytes) (hl : ∀ c ∈ l, ws c = false ∧ eol c = false) :
    loop env ⟨.username, cmd, r, u, v, a, cs⟩ (l ++ t) = loop env ⟨.username, cmd, r, (u ++ l), v, a, cs⟩ t := by
  induction l generalizing u with
  | nil => simp
  | cons c l ih =>
    have hc := hl c (by simp)
    rw [List.cons_append, loop_cons]
    simp only [St.step, ws_iff, eol_iff, hc.1, hc.2, Bool.false_eq_true, if_false]
    rw [ih fun x hx => hl x (by simp [hx])]
    simp

theorem mem_takeWhile {p : UInt8 → Bool} {l : Bytes} {c : UInt8} (h : c ∈ l.takeWhile p) : p c = true ∧ c ∈ l := by
  induction l with
  | nil => simp at h
  | cons x l ih =>
    rw [List.takeWhile_cons] at h
    by_cases hx : p x = true
    · rw [if_pos hx] at h
      rcases List.mem_cons.1 h with rfl | h
      · exact ⟨hx, by simp⟩
      · exact ⟨(ih h).1, by simp [(ih h).2]⟩
    · rw [if_neg hx] at h; simp at h

theorem mem_dropWhile {p : UInt8 → Bool} {l : Bytes} {c : UInt8} (h : c ∈ l.dropWhile p) : c ∈ l :=
  (List.dropWhile_suffix p).subset h

theorem dropWhile_head {p : UInt8 → Bool} {l : Bytes} {c : UInt8} {r : Bytes} (h : l.dropWhile p = c :: r) :
    p c = false := by
  induction l with
  | nil => simp at h
  | cons x l ih =>
    rw [List.dropWhile_cons] at h
    by_cases hx : p x = true
    · rw [if_pos hx] at h; exact ih h
    · rw [if_neg hx] at h
      have : x = c := by injection h
      rw [← this]; simpa using hx

theorem loop_value_empty (e : UInt8) (t : Bytes) (he : eol e = true) :
    loop env ⟨.value, cmd, r, u, [], a, cs⟩ (e :: t) = .badConfig cs := by
  rw [loop_cons]
  simp [St.step, eol_iff, he, St.finishValue, St.bad]

theorem loop_resource (l : Bytes) (hl : ∀ c ∈ l, eol c = false) (e : UInt8) (t : Bytes) (he : eol e = true) :
    loop env ⟨.resource, cmd, [], u, v, a, cs⟩ (l ++ e :: t) = match twoParts (l.dropWhile ws) with
      | none => .badConfig cs
      | some (w, x) => loop env ⟨.value, cmd, w, u, x, a, cs⟩ (e :: t) := by
  have hbad : ∀ w, loop env ⟨.resource, cmd, w, u, v, a, cs⟩ (e :: t) = .badConfig cs := by
    intro w
    rw [loop_cons]
    simp [St.step, ws_iff, eol_iff, he, (eol_not he).1, St.bad]
  conv_lhs => rw [← List.takeWhile_append_dropWhile (p := ws) (l := l), List.append_assoc]
  rw [loop_resource_ws env _ _ fun c hc => (mem_takeWhile hc).1]
  have hl' : ∀ c ∈ l.dropWhile ws, eol c = false := fun c hc => hl c (mem_dropWhile hc)
  have hhead : ∀ c q, l.dropWhile ws = c :: q → ws c = false := fun c q => dropWhile_head
  generalize l.dropWhile ws = q at hl' hhead
  conv_lhs => rw [← List.takeWhile_append_dropWhile (p := fun c => !ws c) (l := q), List.append_assoc]
  rw [loop_resource_word env _ _ fun c hc => ⟨by simpa using (mem_takeWhile hc).1, hl' c (mem_takeWhile hc).2⟩,
    List.nil_append]
  unfold twoParts
  simp only
  have hd : ∀ c ∈ q.dropWhile (fun c => !ws c), eol c = false := fun c hc => hl' c (mem_dropWhile hc)
  have hwq : ∀ c z, q.dropWhile (fun c => !ws c) = c :: z → ws c = true := fun c z h => by
    simpa using dropWhile_head h
  by_cases hw : (q.takeWhile fun c => !ws c).isEmpty = true
  · rw [if_pos (by simp [hw])]
    cases q with
    | nil => exact hbad _
    | cons c q =>
      exfalso
      simp [hhead c q rfl] at hw
  · generalize q.takeWhile (fun c => !ws c) = w at hw
    generalize q.dropWhile (fun c => !ws c) = z at hd hwq
    cases z with
    | nil =>
      simp only [List.nil_append, List.dropWhile_nil, List.isEmpty_nil, Bool.or_true, if_true]
      exact hbad _
    | cons c z =>
      have hc := hwq c z rfl
      rw [List.cons_append, loop_cons]
      simp only [St.step, ws_iff, hc, if_true, hw, Bool.false_eq_true, if_false, Bool.false_or]
      rw [loop_value env _ _ fun x hx => hd x (by simp [hx])]
      have : addValue [] z = (c :: z).dropWhile ws := by simp [addValue, hc]
      rw [this]
      by_cases hz : ((c :: z).dropWhile ws).isEmpty = true
      · rw [if_pos hz, show (c :: z).dropWhile ws = [] by simpa using hz]
        exact loop_value_empty env e t he
      · rw [if_neg hz]

theorem loop_username (l : Bytes) (hl : ∀ c ∈ l, eol c = false) (e : UInt8) (t : Bytes) (he : eol e = true) :
    loop env ⟨.username, cmd, r, [], v, a, cs⟩ (l ++ e :: t) = match twoParts (l.dropWhile ws) with
      | none => .badConfig cs
      | some (w, x) => loop env ⟨.value, cmd, r, w, x, a, cs⟩ (e :: t) := by
  have hbad : ∀ w, loop env ⟨.username, cmd, r, w, v, a, cs⟩ (e :: t) = .badConfig cs := by
    intro w
    rw [loop_cons]
    simp [St.step, ws_iff, eol_iff, he, (eol_not he).1, St.bad]
  conv_lhs => rw [← List.takeWhile_append_dropWhile (p := ws) (l := l), List.append_assoc]
  rw [loop_username_ws env _ _ fun c hc => (mem_takeWhile hc).1]
  have hl' : ∀ c ∈ l.dropWhile ws, eol c = false := fun c hc => hl c (mem_dropWhile hc)
  have hhead : ∀ c q, l.dropWhile ws = c :: q → ws c = false := fun c q => dropWhile_head
  generalize l.dropWhile ws = q at hl' hhead
  conv_lhs => rw [← List.takeWhile_append_dropWhile (p := fun c => !ws c) (l := q), List.append_assoc]
  rw [loop_username_word env _ _ fun c hc => ⟨by simpa using (mem_takeWhile hc).1, hl' c (mem_takeWhile hc).2⟩,
    List.nil_append]
  unfold twoParts
  simp only
  have hd : ∀ c ∈ q.dropWhile (fun c => !ws c), eol c = false := fun c hc => hl' c (mem_dropWhile hc)
  have hwq : ∀ c z, q.dropWhile (fun c => !ws c) = c :: z → ws c = true := fun c z h => by
    simpa using dropWhile_head h
  by_cases hw : (q.takeWhile fun c => !ws c).isEmpty = true
  · rw [if_pos (by simp [hw])]
    cases q with
    | nil => exact hbad _
    | cons c q =>
      exfalso
      simp [hhead c q rfl] at hw
  · generalize q.takeWhile (fun c => !ws c) = w at hw
    generalize q.dropWhile (fun c => !ws c) = z at hd hwq
    cases z with
    | nil =>
      simp only [List.nil_append, List.dropWhile_nil, List.isEmpty_nil, Bool.or_true, if_true]
      exact hbad _
    | cons c z =>
      have hc := hwq c z rfl
      rw [List.cons_append, loop_cons]
      simp only [St.step, ws_iff, hc, if_true, hw, Bool.false_eq_true, if_false, Bool.false_or]
      rw [loop_value env _ _ fun x hx => hd x (by simp [hx])]
      have : addValue [] z = (c :: z).dropWhile ws := by simp [addValue, hc]
      rw [this]
      by_cases hz : ((c :: z).dropWhile ws).isEmpty = true
      · rw [if_pos hz, show (c :: z).dropWhile ws = [] by simpa using hz]
        exact loop_value_empty env e t he
      · rw [if_neg hz]

/-- Where a line starts. -/
def Ready (s : St) (q : State) : Prop := s.ps = .newline ∧ s.command = [] ∧ (s.auth, s.calls) = q

theorem loop_eol (s : St) (q : State) (h : Ready s q) (e : UInt8) (t : Bytes) (he : eol e = true) :
    loop env s (e :: t) = loop env s t := by
  obtain ⟨h1, h2, h3⟩ := h
  rw [loop_cons]
  have := (eol_iff e).2 he
  simp only [St.step, h1, eol_not he, if_false, Bool.false_eq_true]
  rw [if_neg (by tauto)]

theorem assignment_idxOf (x : Bytes) : assignment x = (x.idxOf? (c! "=")).map fun i => (x.take i, x.drop (i + 1)) := by
  induction x with
  | nil => rfl
  | cons c x ih =>
    unfold assignment at ih ⊢
    rw [List.idxOf?_cons]
    by_cases hc : c = c! "="
    · subst hc; simp
    · simp only [List.dropWhile_cons, List.takeWhile_cons, decide_not, hc, decide_false, Bool.not_false, if_true,
        beq_iff_eq, if_false]
      simp only [decide_not] at ih
      revert ih
      cases x.idxOf? (c! "=") <;> cases x.dropWhile (fun c' => !decide (c' = c! "=")) <;> simp

/-- The result `o` of a run is what `x` says: an error, or what the run from a state that agrees with `x` gives. -/
def Eff (t : Bytes) (x : Except Out State) (o : Out) : Prop :=
  match x with
  | .error o' => o = o'
  | .ok q => ∃ s, Ready s q ∧ o = loop env s t

/-- Outcome of `finishValue` as an `Except`. -/
def Step.res : Step → Except Out State
  | .next s => .ok (s.auth, s.calls)
  | .stop o => .error o

/-- The end of a value: effect of the command. -/
theorem loop_value_end (e : UInt8) (t : Bytes) (he : eol e = true) :
    Eff env t (St.finishValue env ⟨.value, cmd, r, u, v, a, cs⟩).res
      (loop env ⟨.value, cmd, r, u, v, a, cs⟩ (e :: t)) := by
  rw [loop_cons]
  simp only [St.step, eol_iff, he, if_true]
  cases St.finishValue env ⟨.value, cmd, r, u, v, a, cs⟩ with
  | next s => exact ⟨{ s with command := [], ps := .newline }, ⟨rfl, rfl, rfl⟩, rfl⟩
  | stop o => rfl

theorem make_res (c : Call) : (St.make env ⟨.value, cmd, r, u, v, a, cs⟩ c).res = make env (a, cs) c := by
  unfold St.make make
  by_cases h : env cs c = true <;> simp [h, Step.res]

/-- What a line does. -/
def lineEffect (q : State) (l : Bytes) : Except Out State :=
  match Spec.Config.parse l with
  | none => .error (.badConfig q.2)
  | some none => .ok q
  | some (some c) => perform env q c

/-- What a command does. -/
def cmdEffect (q : State) : Option Cmd → Except Out State
  | none => .error (.badConfig q.2)
  | some c => perform env q c

theorem twoParts_ne {x w y : Bytes} (h : twoParts x = some (w, y)) : w ≠ [] ∧ y ≠ [] := by
  unfold twoParts at h
  simp only at h
  split at h
  · cases h
  · next hn =>
    simp only [Bool.or_eq_true, List.isEmpty_iff, not_or] at hn
    injection h with h
    injection h with h1 h2
    rw [← h1, ← h2]; exact hn

theorem loop_args (w args : Bytes) (hl : ∀ c ∈ args, eol c = false) (d : UInt8) (hd : ws d = true)
    (e : UInt8) (t : Bytes) (he : eol e = true) :
    Eff env t (cmdEffect env (a, cs) (arguments w (args.dropWhile ws)))
      (loop env ⟨.command, w, r, u, v, a, cs⟩ (d :: args ++ e :: t)) := by
  have hv0 : addValue [] args = args.dropWhile ws := by simp [addValue]
  rw [List.cons_append, loop_cons]
  simp only [St.step, ws_iff, hd, if_true]
  by_cases h1 : w = b! "path"
  · subst h1
    simp only [true_or, if_true]
    rw [loop_value env _ _ hl, hv0]
    generalize args.dropWhile ws = x
    have := loop_value_end env (cmd := b! "path") (r := r) (u := u) (v := x) (a := a) (cs := cs) e t he
    convert this using 1
    unfold St.finishValue
    by_cases hx : x = [] <;> simp [arguments, cmdEffect, perform, hx, Step.res, St.bad]
  by_cases h2 : w = b! "auth"
  · subst h2
    simp only [true_or, or_true, if_true]
    rw [loop_value env _ _ hl, hv0]
    generalize args.dropWhile ws = x
    have := loop_value_end env (cmd := b! "auth") (r := r) (u := u) (v := x) (a := a) (cs := cs) e t he
    convert this using 1
    unfold St.finishValue arguments
    by_cases hx : x = []
    · subst hx; simp [cmdEffect, Step.res, St.bad]
    by_cases hb : x = b! "basic"
    · subst hb; simp [cmdEffect, perform, Step.res]
    by_cases hc : x = b! "cookie"
    · subst hc; simp [cmdEffect, perform, Step.res]
    simp [cmdEffect, hx, hb, hc, Step.res, St.bad]
  by_cases h3 : w = b! "restrict"
  · subst h3
    simp only [or_true, if_true]
    rw [loop_value env _ _ hl, hv0]
    generalize args.dropWhile ws = x
    have := loop_value_end env (cmd := b! "restrict") (r := r) (u := u) (v := x) (a := a) (cs := cs) e t he
    convert this using 1
    unfold St.finishValue arguments
    by_cases hx : x = []
    · subst hx; simp [cmdEffect, Step.res, St.bad]
    cases a <;> simp [cmdEffect, perform, hx, Step.res, St.bad]
  rw [if_neg (by tauto)]
  by_cases h4 : w = b! "user"
  · subst h4
    rw [if_neg (by decide), if_pos rfl]
    simp only []
    rw [loop_username env _ hl e t he]
    have harg : arguments (b! "user") (args.dropWhile ws) =
        (twoParts (args.dropWhile ws)).map fun (n, p) => .user n p := by simp [arguments]
    rw [harg]
    cases hp : twoParts (args.dropWhile ws) with
    | none => simp [cmdEffect, Eff]
    | some p =>
      obtain ⟨n, x⟩ := p
      obtain ⟨hn, hx⟩ := twoParts_ne hp
      have := loop_value_end env (cmd := b! "user") (r := r) (u := n) (v := x) (a := a) (cs := cs) e t he
      simp only
      convert this using 1
      unfold St.finishValue
      cases a <;> simp [cmdEffect, perform, hx, Step.res, St.bad]
  by_cases h5 : w = b! "service"
  · subst h5
    rw [if_pos (Or.inl rfl)]
    simp only []
    rw [loop_resource env _ hl e t he]
    have harg : arguments (b! "service") (args.dropWhile ws) =
        (twoParts (args.dropWhile ws)).map fun (n, p) => .service n p := by simp [arguments]
    rw [harg]
    cases hp : twoParts (args.dropWhile ws) with
    | none => simp [cmdEffect, Eff]
    | some p =>
      obtain ⟨n, x⟩ := p
      obtain ⟨hn, hx⟩ := twoParts_ne hp
      have := loop_value_end env (cmd := b! "service") (r := n) (u := u) (v := x) (a := a) (cs := cs) e t he
      simp only
      convert this using 1
      unfold St.finishValue
      simp [cmdEffect, perform, hx, make_res]
  by_cases h6 : w = b! "option"
  · subst h6
    rw [if_pos (Or.inr rfl)]
    simp only []
    rw [loop_resource env _ hl e t he]
    have harg : arguments (b! "option") (args.dropWhile ws) =
        match twoParts (args.dropWhile ws) with
        | none => none
        | some (r, a) => (assignment a).map fun (n, v) => .option r n v := by simp [arguments]; rfl
    rw [harg]
    cases hp : twoParts (args.dropWhile ws) with
    | none => simp [cmdEffect, Eff]
    | some p =>
      obtain ⟨n, x⟩ := p
      obtain ⟨hn, hx⟩ := twoParts_ne hp
      have := loop_value_end env (cmd := b! "option") (r := n) (u := u) (v := x) (a := a) (cs := cs) e t he
      simp only
      convert this using 1
      unfold St.finishValue
      rw [assignment_idxOf]
      cases hi : x.idxOf? (c! "=") with
      | none => simp [cmdEffect, hx, Step.res, St.bad]
      | some i => simp [cmdEffect, perform, hx, make_res]
  · rw [if_neg (by tauto), if_neg h4]
    simp [arguments, h1, h2, h3, h4, h5, h6, cmdEffect, Eff, St.bad]

/-- A whole line. -/
theorem loop_line (s : St) (q : State) (h : Ready s q) (l : Bytes) (hl : ∀ c ∈ l, eol c = false) (e : UInt8) (t : Bytes)
    (he : eol e = true) : Eff env t (lineEffect env q l) (loop env s (l ++ e :: t)) := by
  cases l with
  | nil => exact ⟨s, h, loop_eol env s q h e t he⟩
  | cons c l =>
    obtain ⟨ps, cmd, r, u, v, a, cs⟩ := s
    obtain ⟨h1, h2, h3⟩ := h
    simp only at h1 h2 h3
    subst h1 h2 h3
    have hl' : ∀ x ∈ l, eol x = false := fun x hx => hl x (by simp [hx])
    have hc := hl c (by simp)
    have hc' : c ≠ 0x0d ∧ c ≠ 0x0a := by
      have := (eol_iff c).not.2 (by simp [hc]); tauto
    unfold lineEffect Spec.Config.parse
    simp only
    rw [List.cons_append, loop_cons]
    by_cases hh : c = c! "#"
    · rw [if_pos hh]
      simp only [St.step, hh, if_true]
      rw [loop_comment env _ _ hl']
      refine ⟨⟨.newline, [], r, u, v, a, cs⟩, ⟨rfl, rfl, rfl⟩, ?_⟩
      rw [loop_cons]
      simp [St.step, eol_iff, he]
    · rw [if_neg hh]
      by_cases ha : isAlpha c = true
      · simp only [St.step, hh, if_false, ha, if_true, List.nil_append]
        simp only [List.dropWhile_cons, List.takeWhile_cons, ha, if_true]
        have key : loop env ⟨.command, [toLower c], r, u, v, a, cs⟩ (l ++ e :: t) =
            loop env ⟨.command, ((c :: l.takeWhile isAlpha).map toLower), r, u, v, a, cs⟩
              (l.dropWhile isAlpha ++ e :: t) := by
          conv_lhs => rw [← List.takeWhile_append_dropWhile (p := isAlpha) (l := l), List.append_assoc]
          rw [loop_command env _ _ fun x hx => (mem_takeWhile hx).1]
          simp
        rw [key]
        have hr : ∀ x ∈ l.dropWhile isAlpha, eol x = false := fun x hx => hl' x (mem_dropWhile hx)
        have hhd : ∀ d z, l.dropWhile isAlpha = d :: z → isAlpha d = false := fun d z => dropWhile_head
        generalize l.dropWhile isAlpha = z at hr hhd
        cases z with
        | nil =>
          rw [List.nil_append, loop_cons]
          simp [St.step, ws_iff, (eol_not he).1, (eol_not he).2.1, Eff, St.bad]
        | cons d z =>
          by_cases hd : ws d = true
          · simp only [hd, if_true]
            have := loop_args env (r := r) (u := u) (v := v) (a := a) (cs := cs)
              ((c :: l.takeWhile isAlpha).map toLower) z (fun x hx => hr x (by simp [hx])) d hd e t he
            convert this using 1
            cases arguments ((c :: l.takeWhile isAlpha).map toLower) (z.dropWhile ws) <;> rfl
          · rw [List.cons_append, loop_cons]
            simp [St.step, ws_iff, hd, hhd d z rfl, Eff, St.bad]
      · simp only [St.step, hh, if_false, ha, Bool.false_eq_true]
        rw [if_pos hc']
        simp only [St.bad, List.dropWhile_cons, List.takeWhile_cons, ha, Bool.false_eq_true, if_false]
        by_cases hw : ws c = true
        · rw [if_pos hw]
          simp [arguments, Eff]
        · rw [if_neg hw]; rfl

/-- The beginning of a line at the end of the file. -/
theorem loop_tail (s : St) (q : State) (h : Ready s q) (l : Bytes) (hl : ∀ c ∈ l, eol c = false) :
    loop env s l = if startOk l then .finished q.1 q.2 else .badConfig q.2 := by
  obtain ⟨ps, cmd, r, u, v, a, cs⟩ := s
  obtain ⟨h1, h2, h3⟩ := h
  simp only at h1 h2 h3
  subst h1 h2 h3
  have hval : ∀ (cmd r u v : Bytes) (l : Bytes), (∀ c ∈ l, eol c = false) →
      loop env ⟨.value, cmd, r, u, v, a, cs⟩ l = .finished a cs := by
    intro cmd r u v l hl
    have := loop_value env (cmd := cmd) (r := r) (u := u) (v := v) (a := a) (cs := cs) l [] hl
    rw [List.append_nil] at this
    rw [this]; rfl
  have hres : ∀ (l : Bytes), (∀ c ∈ l, eol c = false) → ∀ cmd r u v,
      loop env ⟨.resource, cmd, r, u, v, a, cs⟩ l = .finished a cs := by
    intro l
    induction l with
    | nil => intros; rfl
    | cons c l ih =>
      intro hl cmd r u v
      have hc := hl c (by simp)
      have hl' : ∀ x ∈ l, eol x = false := fun x hx => hl x (by simp [hx])
      rw [loop_cons]
      simp only [St.step, ws_iff, eol_iff, hc, Bool.false_eq_true, if_false]
      by_cases hw : ws c = true
      · by_cases hr : r.isEmpty = true <;> simp [hw, hr, ih hl', hval _ _ _ _ _ hl']
      · simp [hw, ih hl']
  have husr : ∀ (l : Bytes), (∀ c ∈ l, eol c = false) → ∀ cmd r u v,
      loop env ⟨.username, cmd, r, u, v, a, cs⟩ l = .finished a cs := by
    intro l
    induction l with
    | nil => intros; rfl
    | cons c l ih =>
      intro hl cmd r u v
      have hc := hl c (by simp)
      have hl' : ∀ x ∈ l, eol x = false := fun x hx => hl x (by simp [hx])
      rw [loop_cons]
      simp only [St.step, ws_iff, eol_iff, hc, Bool.false_eq_true, if_false]
      by_cases hw : ws c = true
      · by_cases hr : u.isEmpty = true <;> simp [hw, hr, ih hl', hval _ _ _ _ _ hl']
      · simp [hw, ih hl']
  cases l with
  | nil => rfl
  | cons c l =>
    have hl' : ∀ x ∈ l, eol x = false := fun x hx => hl x (by simp [hx])
    have hc := hl c (by simp)
    have hc' : c ≠ 0x0d ∧ c ≠ 0x0a := by
      have := (eol_iff c).not.2 (by simp [hc]); tauto
    unfold startOk
    simp only
    rw [loop_cons]
    by_cases hh : c = c! "#"
    · simp only [St.step, hh, if_true, decide_true, Bool.true_or]
      have := loop_comment env (cmd := []) (r := r) (u := u) (v := v) (a := a) (cs := cs) l [] hl'
      rw [List.append_nil] at this
      rw [this]; rfl
    · by_cases ha : isAlpha c = true
      · simp only [St.step, hh, if_false, ha, if_true, List.nil_append, decide_false, Bool.false_or]
        simp only [List.dropWhile_cons, List.takeWhile_cons, ha, if_true]
        have key : loop env ⟨.command, [toLower c], r, u, v, a, cs⟩ l =
            loop env ⟨.command, ((c :: l.takeWhile isAlpha).map toLower), r, u, v, a, cs⟩
              (l.dropWhile isAlpha) := by
          conv_lhs => rw [← List.takeWhile_append_dropWhile (p := isAlpha) (l := l)]
          rw [loop_command env _ _ fun x hx => (mem_takeWhile hx).1]
          simp
        rw [key]
        have hr : ∀ x ∈ l.dropWhile isAlpha, eol x = false := fun x hx => hl' x (mem_dropWhile hx)
        have hhd : ∀ d z, l.dropWhile isAlpha = d :: z → isAlpha d = false := fun d z => dropWhile_head
        generalize l.dropWhile isAlpha = z at hr hhd
        generalize (c :: l.takeWhile isAlpha).map toLower = w
        cases z with
        | nil => rfl
        | cons d z =>
          have hz : ∀ x ∈ z, eol x = false := fun x hx => hr x (by simp [hx])
          rw [loop_cons]
          by_cases hd : ws d = true
          · simp only [St.step, ws_iff, hd, if_true, Bool.true_and]
            by_cases g1 : w = b! "path" ∨ w = b! "auth" ∨ w = b! "restrict"
            · rw [if_pos g1, if_pos (by rcases g1 with rfl | rfl | rfl <;> decide)]
              exact hval _ _ _ _ _ hz
            rw [if_neg g1]
            by_cases g2 : w = b! "service" ∨ w = b! "option"
            · rw [if_pos g2, if_pos (by rcases g2 with rfl | rfl <;> decide)]
              exact hres _ hz _ _ _ _
            rw [if_neg g2]
            by_cases g3 : w = b! "user"
            · rw [if_pos g3, if_pos (by rw [g3]; decide)]
              exact husr _ hz _ _ _ _
            rw [if_neg g3, if_neg (by simp only [names, List.contains_iff_mem, List.mem_cons, List.not_mem_nil]; tauto)]
            rfl
          · simp [St.step, ws_iff, hd, hhd d z rfl, St.bad]
      · simp only [St.step, hh, if_false, ha, Bool.false_eq_true]
        rw [if_pos hc']
        simp only [St.bad, List.dropWhile_cons, List.takeWhile_cons, ha, Bool.false_eq_true, if_false, decide_false,
          Bool.false_or]
        simp [names]

theorem lines_no_eol (t : Bytes) : (∀ l ∈ (lines t).1, ∀ c ∈ l, eol c = false) ∧ ∀ c ∈ (lines t).2, eol c = false := by
  induction t with
  | nil => simp [lines]
  | cons c t ih =>
    unfold lines
    by_cases hc : eol c = true
    · simp only [hc, if_true]
      exact ⟨fun l hl => by
        rcases List.mem_cons.1 hl with rfl | hl
        · simp
        · exact ih.1 l hl, ih.2⟩
    · have hc' : eol c = false := by simpa using hc
      simp only [hc, Bool.false_eq_true, if_false]
      revert ih
      rcases lines t with ⟨_ | ⟨l, ls⟩, r⟩
      · intro ih
        exact ⟨by simp, fun x hx => by
          rcases List.mem_cons.1 hx with rfl | hx
          · exact hc'
          · exact ih.2 x hx⟩
      · intro ih
        refine ⟨fun x hx => ?_, ih.2⟩
        rcases List.mem_cons.1 hx with rfl | hx
        · intro y hy
          rcases List.mem_cons.1 hy with rfl | hy
          · exact hc'
          · exact ih.1 l (by simp) y hy
        · exact ih.1 x (by simp [hx])

/-- A text with a line end starts with its first line. -/
theorem lines_split (t : Bytes) : ((lines t).1 = [] ∧ (lines t).2 = t) ∨
    ∃ l e r, t = l ++ e :: r ∧ eol e = true ∧ (lines t).1 = l :: (lines r).1 ∧ (lines t).2 = (lines r).2 := by
  induction t with
  | nil => exact Or.inl ⟨rfl, rfl⟩
  | cons c t ih =>
    by_cases hc : eol c = true
    · right
      exact ⟨[], c, t, rfl, hc, by simp [lines, hc], by simp [lines, hc]⟩
    · rcases ih with ⟨h1, h2⟩ | ⟨l, e, r, h1, h2, h3, h4⟩
      · left
        have : lines t = ([], t) := by
          exact Prod.ext h1 h2
        unfold lines
        simp [hc, this]
      · right
        refine ⟨c :: l, e, r, by simp [h1], h2, ?_⟩
        have : lines t = (l :: (lines r).1, (lines r).2) := by
          exact Prod.ext h3 h4
        rw [lines]
        simp [hc, this]

theorem loop_exact (n : Nat) : ∀ (t : Bytes), t.length ≤ n → ∀ (s : St) (q : State), Ready s q →
    loop env s t = match performAll env q (lines t).1 with
      | .error o => o
      | .ok q => if startOk (lines t).2 then .finished q.1 q.2 else .badConfig q.2 := by
  induction n with
  | zero =>
    intro t ht s q h
    have : t = [] := List.length_eq_zero_iff.1 (by omega)
    subst this
    rw [loop_tail env s q h [] (by simp)]
    rfl
  | succ n ih =>
    intro t ht s q h
    have hno := lines_no_eol t
    rcases lines_split t with ⟨h1, h2⟩ | ⟨l, e, r, h1, h2, h3, h4⟩
    · rw [h1, h2]
      rw [h2] at hno
      exact loop_tail env s q h t hno.2
    · rw [h3, h4]
      have hl : ∀ c ∈ l, eol c = false := hno.1 l (by simp [h3])
      have := loop_line env s q h l hl e r h2
      rw [← h1] at this
      have hr : r.length ≤ n := by
        rw [h1] at ht; simp at ht; omega
      unfold lineEffect at this
      unfold performAll
      cases hp : Spec.Config.parse l with
      | none => rw [hp] at this; exact this
      | some o =>
        rw [hp] at this
        cases o with
        | none =>
          obtain ⟨s', hs', he⟩ := this
          rw [he, ih r hr s' q hs']
        | some c =>
          simp only at this ⊢
          cases hq : perform env q c with
          | error o => rw [hq] at this; exact this
          | ok q' =>
            rw [hq] at this
            obtain ⟨s', hs', he⟩ := this
            rw [he, ih r hr s' q' hs']

end Verif.Config
