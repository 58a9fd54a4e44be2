import Verif.Lemmas.ServiceConfig
/-
C37: `load_service_config` applies exactly the commands written in the file, in order, and rejects malformed ones;
comments and blank lines have no effect. Shown for the lines that are ended by a line end; what comes after the last
line end is dropped (`last_line_ignored`).
-/
namespace Verif.Props.ServiceConfig
open Verif.Config Verif.Spec.Config

/-- Never throws. -/
def quiet : Env := fun _ _ => false

/-- A file with all commands, used in the examples. -/
def sample : Bytes :=
  b! "# example\r\nPath /opt\n\nauth basic\nuser bob  s3 cret \nrestrict /a\nservice /a  Foo\noption /a x=y=z\n"

/-- C37: the result of `load_service_config` on any text, for any behaviour of the called functions: the ended lines
    are performed one after the other up to the first error; an incomplete last line does nothing unless its beginning
    is an error already. -/
theorem load_exact (env : Env) (text : Bytes) :
    load env text = match performAll env (none, []) (lines text).1 with
      | .error o => o
      | .ok (a, cs) => if startOk (lines text).2 then .finished a cs else .badConfig cs := by
  have := loop_exact env text.length text (Nat.le_refl _) {} (none, []) ⟨rfl, rfl, rfl⟩
  unfold load
  rw [this]
  cases performAll env (none, []) (lines text).1 <;> rfl

example : load quiet sample = .finished
    (some { kind := .basic, restrict := [b! "/a"], users := [(b! "bob", b! "s3 cret ")] })
    [.addDirectory (b! "/opt"), .loadService (b! "/a") (b! "Foo"), .setOption (b! "/a") (b! "x") (b! "y=z")] := by
  decide +kernel

private theorem perform_ok {env : Env} {q q' : State} {c : Cmd} (h : perform env q c = .ok q') :
    q' = (authAfter q.1 c, q.2 ++ calls c) := by
  obtain ⟨a, cs⟩ := q
  cases c <;> simp only [perform, make] at h
  case path d => injection h with h; simp [← h, authAfter, calls]
  case auth k => injection h with h; simp [← h, authAfter, calls]
  case restrict r => cases a <;> simp at h; simp [← h, authAfter, calls]
  case user n p => cases a <;> simp at h; simp [← h, authAfter, calls]
  case service r n => split at h <;> simp at h; simp [← h, authAfter, calls]
  case option r n v => split at h <;> simp at h; simp [← h, authAfter, calls]

private theorem performAll_ok {env : Env} (ls : List Bytes) : ∀ {q q' : State}, performAll env q ls = .ok q' →
    (∀ l ∈ ls, (Spec.Config.parse l).isSome) ∧
      q' = ((commands ls).foldl authAfter q.1, q.2 ++ (commands ls).flatMap calls) := by
  induction ls with
  | nil =>
    intro q q' h
    unfold performAll at h
    injection h with h
    simp [← h, commands]
  | cons l ls ih =>
    intro q q' h
    unfold performAll at h
    cases hp : Spec.Config.parse l with
    | none => rw [hp] at h; cases h
    | some o =>
      rw [hp] at h
      cases o with
      | none =>
        obtain ⟨h1, h2⟩ := ih h
        refine ⟨fun x hx => ?_, ?_⟩
        · rcases List.mem_cons.1 hx with rfl | hx
          · simp [hp]
          · exact h1 x hx
        · rw [h2]; simp [commands, hp]
      | some c =>
        simp only at h
        cases hq : perform env q c with
        | error o => rw [hq] at h; cases h
        | ok q1 =>
          rw [hq] at h
          obtain ⟨h1, h2⟩ := ih h
          refine ⟨fun x hx => ?_, ?_⟩
          · rcases List.mem_cons.1 hx with rfl | hx
            · simp [hp]
            · exact h1 x hx
          · rw [h2, perform_ok hq]; simp [commands, hp]

/-- C37: when the function returns, every ended line was well-formed, and exactly the commands of these lines were
    applied, in the order of the file. Missing for the full property: a last line without line end. -/
theorem applied_partial (env : Env) (text : Bytes) (a : Option Auth) (cs : List Call)
    (h : load env text = .finished a cs) :
    (∀ l ∈ (lines text).1, (Spec.Config.parse l).isSome) ∧ cs = (commands (lines text).1).flatMap calls ∧
      a = (commands (lines text).1).foldl authAfter none := by
  rw [load_exact] at h
  cases hp : performAll env (none, []) (lines text).1 with
  | error o =>
    exfalso
    rw [hp] at h
    simp only at h
    subst h
    -- errors are never `finished`
    have key : ∀ (ls : List Bytes) (q : State), performAll env q ls ≠ .error (.finished a cs) := by
      intro ls
      induction ls with
      | nil => intro q h; cases h
      | cons l ls ih =>
        intro q h
        unfold performAll at h
        split at h
        · cases h
        · exact ih _ h
        · next c _ =>
          split at h
          · next o ho =>
            injection h with h
            subst h
            cases c <;> simp only [perform, make] at ho <;> (try split at ho) <;> cases ho
          · exact ih _ h
    exact key _ _ hp
  | ok q =>
    rw [hp] at h
    obtain ⟨h1, h2⟩ := performAll_ok _ hp
    obtain ⟨a', cs'⟩ := q
    simp only at h
    split at h
    · injection h with ha hc
      subst ha hc
      injection h2 with ha hc
      exact ⟨h1, by simpa using hc, ha⟩
    · cases h

/-- C37: a malformed line makes the function throw. -/
theorem malformed_rejected (env : Env) (text : Bytes) (l : Bytes) (hl : l ∈ (lines text).1)
    (hp : Spec.Config.parse l = none) (a : Option Auth) (cs : List Call) : load env text ≠ .finished a cs := by
  intro h
  have := (applied_partial env text a cs h).1 l hl
  rw [hp] at this; cases this

example : ∃ l ∈ (lines (b! "path /x\nservice /a\n")).1, Spec.Config.parse l = none := by decide +kernel
example : load quiet (b! "path /x\nservice /a\npath /y\n") = .badConfig [.addDirectory (b! "/x")] := by decide +kernel

/-- C37: if all ended lines are well-formed, users and restrictions come after an `auth` command, nothing called
    throws, and the file ends with a line end, then the file is accepted. -/
theorem wellformed_accepted (env : Env) (text : Bytes) (hend : (lines text).2 = [])
    (hw : ∀ l ∈ (lines text).1, (Spec.Config.parse l).isSome)
    (hauth : ∀ p c q, commands (lines text).1 = p ++ c :: q → (∃ r, c = .restrict r) ∨ (∃ n w, c = .user n w) →
      ∃ k, Cmd.auth k ∈ p)
    (henv : ∀ cs c, env cs c = false) :
    ∃ a cs, load env text = .finished a cs := by
  rw [load_exact, hend]
  have key : ∀ (ls : List Bytes) (p : List Cmd) (q : State), (∀ l ∈ ls, (Spec.Config.parse l).isSome) →
      (q.1.isSome = p.any fun c => match c with | .auth _ => true | _ => false) →
      (∀ p' c q', p ++ commands ls = p' ++ c :: q' → (∃ r, c = .restrict r) ∨ (∃ n w, c = .user n w) →
        ∃ k, Cmd.auth k ∈ p') →
      ∃ q', performAll env q ls = .ok q' := by
    intro ls
    induction ls with
    | nil => intro p q _ _ _; exact ⟨q, rfl⟩
    | cons l ls ih =>
      intro p q hw hq ha
      have hw' : ∀ x ∈ ls, (Spec.Config.parse x).isSome := fun x hx => hw x (by simp [hx])
      unfold performAll
      cases hp : Spec.Config.parse l with
      | none => have := hw l (by simp); rw [hp] at this; cases this
      | some o =>
        cases o with
        | none =>
          simp only
          apply ih p q hw' hq
          intro p' c q' h
          apply ha p' c q'
          simpa [commands, hp] using h
        | some c =>
          have hcm : commands (l :: ls) = c :: commands ls := by simp [commands, hp]
          rw [hcm] at ha
          have hsome : (∃ r, c = .restrict r) ∨ (∃ n w, c = .user n w) → q.1.isSome := by
            intro h
            obtain ⟨k, hk⟩ := ha p c (commands ls) rfl h
            rw [hq]
            exact List.any_eq_true.2 ⟨_, hk, rfl⟩
          have ⟨q1, h1⟩ : ∃ q1, perform env q c = .ok q1 := by
            cases c with
            | path d => exact ⟨_, rfl⟩
            | auth k => exact ⟨_, rfl⟩
            | restrict r =>
              have := hsome (Or.inl ⟨r, rfl⟩)
              obtain ⟨a, ha⟩ := Option.isSome_iff_exists.1 this
              exact ⟨_, by simp only [perform, ha]; rfl⟩
            | user n w =>
              have := hsome (Or.inr ⟨n, w, rfl⟩)
              obtain ⟨a, ha⟩ := Option.isSome_iff_exists.1 this
              exact ⟨_, by simp only [perform, ha]; rfl⟩
            | service r n => exact ⟨_, by simp only [perform, make, henv]; rfl⟩
            | option r n v => exact ⟨_, by simp only [perform, make, henv]; rfl⟩
          simp only [h1]
          apply ih (p ++ [c]) q1 hw'
          · rw [perform_ok h1]
            cases c <;> simp [authAfter, hq]
          · intro p' c' q' h
            apply ha p' c' q'
            rw [← h]; simp
  obtain ⟨⟨a, cs⟩, h⟩ := key (lines text).1 [] (none, []) hw (by simp) (by simpa using hauth)
  rw [h]
  exact ⟨a, cs, rfl⟩

/-- C37: a run that ends with an exception has applied the commands of some lines from the beginning of the file, in
    order, and nothing else. -/
theorem error_prefix (env : Env) (text : Bytes) (cs : List Call)
    (h : load env text = .badConfig cs ∨ load env text = .threw cs) :
    ∃ k, cs = (commands ((lines text).1.take k)).flatMap calls := by
  have key : ∀ (ls : List Bytes) (q : State) (o : Out), performAll env q ls = .error o →
      (o = .badConfig cs ∨ o = .threw cs) → ∃ k, cs = q.2 ++ (commands (ls.take k)).flatMap calls := by
    intro ls
    induction ls with
    | nil => intro q o h; cases h
    | cons l ls ih =>
      intro q o h ho
      unfold performAll at h
      cases hp : Spec.Config.parse l with
      | none =>
        rw [hp] at h
        injection h with h
        refine ⟨0, ?_⟩
        subst h
        rcases ho with ho | ho
        · injection ho with ho; simp [commands, ← ho]
        · cases ho
      | some o' =>
        rw [hp] at h
        cases o' with
        | none =>
          obtain ⟨k, hk⟩ := ih q o h ho
          exact ⟨k + 1, by rw [hk]; simp [commands, hp]⟩
        | some c =>
          simp only at h
          cases hq : perform env q c with
          | ok q1 =>
            rw [hq] at h
            obtain ⟨k, hk⟩ := ih q1 o h ho
            exact ⟨k + 1, by rw [hk, perform_ok hq]; simp [commands, hp]⟩
          | error o1 =>
            rw [hq] at h
            injection h with h
            subst h
            obtain ⟨a, cs0⟩ := q
            cases c <;> simp only [perform, make] at hq
            case path d => cases hq
            case auth k => cases hq
            case restrict r =>
              cases a <;> simp at hq
              subst hq
              rcases ho with ho | ho
              · injection ho with ho; exact ⟨0, by simp [commands, ← ho]⟩
              · cases ho
            case user n w =>
              cases a <;> simp at hq
              subst hq
              rcases ho with ho | ho
              · injection ho with ho; exact ⟨0, by simp [commands, ← ho]⟩
              · cases ho
            case service r n =>
              split at hq <;> simp at hq
              subst hq
              rcases ho with ho | ho
              · cases ho
              · injection ho with ho; exact ⟨1, by simp [commands, hp, calls, ← ho]⟩
            case option r n v =>
              split at hq <;> simp at hq
              subst hq
              rcases ho with ho | ho
              · cases ho
              · injection ho with ho; exact ⟨1, by simp [commands, hp, calls, ← ho]⟩
  rw [load_exact] at h
  cases hp : performAll env (none, []) (lines text).1 with
  | error o =>
    rw [hp] at h
    simpa using key _ _ _ hp h
  | ok q =>
    rw [hp] at h
    obtain ⟨a, cs'⟩ := q
    have h2 := (performAll_ok _ hp).2
    injection h2 with _ h2
    refine ⟨(lines text).1.length, ?_⟩
    rw [List.take_length, ← List.nil_append (List.flatMap _ _), ← h2]
    simp only at h
    split at h
    · rcases h with h | h <;> cases h
    · rcases h with h | h
      · injection h with h; exact h.symm
      · cases h

private theorem lines_cons (c : UInt8) (t : Bytes) : lines (c :: t) =
    if eol c then ([] :: (lines t).1, (lines t).2)
    else match lines t with
      | ([], r) => ([], c :: r)
      | (l :: ls, r) => ((c :: l) :: ls, r) := rfl

private theorem lines_append (x y : Bytes) (hx : (lines x).2 = []) :
    lines (x ++ y) = ((lines x).1 ++ (lines y).1, (lines y).2) := by
  induction x with
  | nil => simp [lines]
  | cons c x ih =>
    rw [List.cons_append]
    rw [lines_cons] at hx ⊢
    rw [lines_cons]
    by_cases hc : eol c = true
    · simp only [hc, if_true] at hx ⊢
      rw [ih hx]; rfl
    · simp only [hc, Bool.false_eq_true, if_false] at hx ⊢
      cases hl : lines x with
      | mk a b =>
        rw [hl] at hx ih
        cases a with
        | nil => simp at hx
        | cons l ls =>
          simp only at hx ih
          rw [ih hx]; rfl

private theorem lines_comment (l : Bytes) (e : UInt8) (y : Bytes) (hl : ∀ c ∈ l, eol c = false) (he : eol e = true) :
    lines (l ++ e :: y) = (l :: (lines y).1, (lines y).2) := by
  induction l with
  | nil => simp [lines, he]
  | cons c l ih =>
    rw [List.cons_append, lines_cons]
    rw [ih fun x hx => hl x (by simp [hx])]
    simp [hl c (by simp)]

/-- C37: a comment or blank line anywhere between lines has no effect at all. -/
theorem comment_no_effect (env : Env) (x y l : Bytes) (e : UInt8) (hx : (lines x).2 = [])
    (hl : ∀ c ∈ l, eol c = false) (he : eol e = true) (hc : l = [] ∨ l.head? = some (c! "#")) :
    load env (x ++ (l ++ e :: y)) = load env (x ++ y) := by
  have hp : Spec.Config.parse l = some none := by
    rcases hc with rfl | hc
    · rfl
    · cases l with
      | nil => rfl
      | cons c l => simp at hc; subst hc; simp [Spec.Config.parse]
  have key : ∀ (ls : List Bytes) (q : State) (m : List Bytes),
      performAll env q (ls ++ l :: m) = performAll env q (ls ++ m) := by
    intro ls
    induction ls with
    | nil => intro q m; simp [performAll, hp]
    | cons k ls ih =>
      intro q m
      simp only [List.cons_append, performAll, ih]
  rw [load_exact, load_exact, lines_append x _ hx, lines_append x _ hx, lines_comment l e y hl he]
  simp only [key]

example : (lines (b! "path /x\n")).2 = [] ∧
    load quiet (b! "path /x\n" ++ (b! "# user a b" ++ c! "\r" :: b! "\npath /y\n")) =
      load quiet (b! "path /x\npath /y\n") := by decide +kernel

private theorem rest_dropWhile {s : Bytes} (h : Rest s) : s.dropWhile ws = s := by
  obtain ⟨⟨c, t, rfl, hc⟩, -⟩ := h
  rw [List.dropWhile_cons_of_neg (by simp [hc])]

private theorem twoParts_words {a b : Bytes} (ha : Word a) (hb : Rest b) : twoParts (a ++ b! " " ++ b) = some (a, b) := by
  have hw : ∀ c ∈ a, (!ws c) = true := fun c hc => by rw [(ha.2 c hc).1]; rfl
  have hsp : ws (c! " ") = true := by decide
  unfold twoParts
  dsimp only
  rw [List.append_assoc, List.takeWhile_append_of_pos hw, List.dropWhile_append_of_pos hw]
  simp only [List.cons_append, List.nil_append]
  rw [List.takeWhile_cons_of_neg (by rw [hsp]; decide), List.dropWhile_cons_of_neg (by rw [hsp]; decide),
    List.dropWhile_cons_of_pos hsp, rest_dropWhile hb, List.append_nil, if_neg]
  obtain ⟨⟨c, t, rfl, -⟩, -⟩ := hb
  obtain ⟨x, l, rfl⟩ := List.exists_cons_of_ne_nil ha.1
  simp

private theorem word_dropWhile {a : Bytes} (b : Bytes) (ha : Word a) : (a ++ b).dropWhile ws = a ++ b := by
  obtain ⟨x, l, rfl⟩ := List.exists_cons_of_ne_nil ha.1
  rw [List.cons_append, List.dropWhile_cons_of_neg (by rw [(ha.2 x List.mem_cons_self).1]; decide)]

private theorem text_parsed {c : Cmd} (h : c.Ok) : Spec.Config.parse c.text = some (some c) := by
  cases c with
  | path d =>
    have e : Spec.Config.parse (Cmd.path d).text = (arguments (b! "path") (d.dropWhile ws)).map some := rfl
    obtain ⟨⟨x, t, rfl, -⟩, -⟩ := id (show Rest d from h)
    rw [e, rest_dropWhile h]
    rfl
  | auth k => cases k <;> decide +kernel
  | restrict r =>
    have e : Spec.Config.parse (Cmd.restrict r).text = (arguments (b! "restrict") (r.dropWhile ws)).map some := rfl
    obtain ⟨⟨x, t, rfl, -⟩, -⟩ := id (show Rest r from h)
    rw [e, rest_dropWhile h]
    rfl
  | user n p =>
    have e : Spec.Config.parse (Cmd.user n p).text = (arguments (b! "user") ((n ++ b! " " ++ p).dropWhile ws)).map some := by
      unfold Cmd.text; simp only [List.append_assoc]; rfl
    have e2 : ∀ x, arguments (b! "user") x = (twoParts x).map fun (n, p) => .user n p := fun _ => rfl
    rw [e, List.append_assoc, word_dropWhile _ h.1, ← List.append_assoc, e2, twoParts_words h.1 h.2]
    rfl
  | service r n =>
    have e : Spec.Config.parse (Cmd.service r n).text = (arguments (b! "service") ((r ++ b! " " ++ n).dropWhile ws)).map some := by
      unfold Cmd.text; simp only [List.append_assoc]; rfl
    have e2 : ∀ x, arguments (b! "service") x = (twoParts x).map fun (n, p) => .service n p := fun _ => rfl
    rw [e, List.append_assoc, word_dropWhile _ h.1, ← List.append_assoc, e2, twoParts_words h.1 h.2]
    rfl
  | option r n v =>
    have e : Spec.Config.parse (Cmd.option r n v).text =
        (arguments (b! "option") ((r ++ b! " " ++ (n ++ b! "=" ++ v)).dropWhile ws)).map some := by
      unfold Cmd.text; simp only [List.append_assoc]; rfl
    have e2 : ∀ x, arguments (b! "option") x = match twoParts x with
        | none => none
        | some (r, a) => (assignment a).map fun (n, v) => .option r n v := fun _ => rfl
    have hn : ∀ c ∈ n, decide (c ≠ c! "=") = true := fun c hc => by
      simp only [ne_eq, decide_not, Bool.not_eq_true', decide_eq_false_iff_not]
      rintro rfl; exact h.2.2 hc
    have h3 : assignment (n ++ b! "=" ++ v) = some (n, v) := by
      unfold assignment
      rw [List.append_assoc, List.takeWhile_append_of_pos hn, List.dropWhile_append_of_pos hn]
      simp only [List.cons_append, List.nil_append]
      rw [List.takeWhile_cons_of_neg (by decide), List.dropWhile_cons_of_neg (by decide), List.append_nil]
    rw [e, List.append_assoc, word_dropWhile _ h.1, ← List.append_assoc, e2, twoParts_words h.1 h.2.1]
    dsimp only
    rw [h3]
    rfl

private theorem text_no_eol {c : Cmd} (h : c.Ok) : ∀ x ∈ c.text, eol x = false := by
  have hw : ∀ {s : Bytes}, Word s → ∀ x ∈ s, eol x = false := fun h x hx => (h.2 x hx).2
  have hl : ∀ {s : Bytes}, (s.all fun x => !eol x) = true → ∀ x ∈ s, eol x = false := by
    intro s h x hx
    have := List.all_eq_true.1 h x hx
    simpa using this
  have happ : ∀ {s t : Bytes}, (∀ x ∈ s, eol x = false) → (∀ x ∈ t, eol x = false) → ∀ x ∈ s ++ t, eol x = false :=
    fun h1 h2 x hx => (List.mem_append.1 hx).elim (h1 x) (h2 x)
  cases c with
  | path d => exact happ (hl (by decide)) h.2
  | auth k => cases k <;> exact hl (by decide)
  | restrict r => exact happ (hl (by decide)) h.2
  | user n p => exact happ (happ (happ (hl (by decide)) (hw h.1)) (hl (by decide))) h.2.2
  | service r n => exact happ (happ (happ (hl (by decide)) (hw h.1)) (hl (by decide))) h.2.2
  | option r n v =>
    have := h.2.1.2
    show ∀ x ∈ b! "option " ++ r ++ b! " " ++ n ++ b! "=" ++ v, eol x = false
    rw [List.append_assoc, List.append_assoc]
    refine happ (happ (happ (hl (by decide)) (hw h.1)) (hl (by decide))) ?_
    rw [← List.append_assoc]
    exact this

/-- C37: a file in which commands are written, one in a line, has these commands. -/
theorem written_read (cs : List Cmd) (h : ∀ c ∈ cs, c.Ok) :
    lines (Spec.Config.written cs) = (cs.map Cmd.text, []) ∧ (∀ l ∈ cs.map Cmd.text, (Spec.Config.parse l).isSome) ∧
      commands (cs.map Cmd.text) = cs := by
  induction cs with
  | nil => exact ⟨rfl, by simp, rfl⟩
  | cons c cs ih =>
    obtain ⟨h1, h2, h3⟩ := ih fun x hx => h x (List.mem_cons_of_mem _ hx)
    have hc := h c List.mem_cons_self
    refine ⟨?_, ?_, ?_⟩
    · unfold Spec.Config.written at h1 ⊢
      rw [List.flatMap_cons, List.append_assoc]
      show lines (c.text ++ 0x0a :: cs.flatMap fun c => c.text ++ [0x0a]) = _
      rw [lines_comment _ _ _ (text_no_eol hc) (by decide), h1]
      rfl
    · intro l hl
      rcases List.mem_cons.1 hl with rfl | hl
      · rw [text_parsed hc]; rfl
      · exact h2 l hl
    · unfold commands at h3 ⊢
      rw [List.map_cons, List.filterMap_cons_some (b := c) (by rw [text_parsed hc]; rfl), h3]

/-- C37: so what happens is what the commands do, one after the other. -/
theorem written_loaded (env : Env) (cs : List Cmd) (h : ∀ c ∈ cs, c.Ok) (q : State)
    (hp : cs.foldlM (perform env) (none, []) = .ok q) : load env (Spec.Config.written cs) = .finished q.1 q.2 := by
  obtain ⟨h1, -, -⟩ := written_read cs h
  have key : ∀ (cs : List Cmd) (q0 : State), (∀ c ∈ cs, c.Ok) → performAll env q0 (cs.map Cmd.text) = cs.foldlM (perform env) q0 := by
    intro cs
    induction cs with
    | nil => intro q0 _; rfl
    | cons c cs ih =>
      intro q0 h
      rw [List.map_cons, performAll, text_parsed (h c List.mem_cons_self)]
      dsimp only
      rw [List.foldlM_cons]
      cases perform env q0 c with
      | error o => rfl
      | ok q1 => exact ih q1 fun x hx => h x (List.mem_cons_of_mem _ hx)
  rw [load_exact, h1]
  dsimp only
  rw [key cs _ h, hp]
  rfl

example : Spec.Config.written [.auth .basic, .user (b! "bob") (b! "s3 cret"), .restrict (b! "/a"), .service (b! "/a") (b! "Foo"),
    .option (b! "/a") (b! "x") (b! "y=z"), .path (b! "/opt")] =
    b! "auth basic\nuser bob s3 cret\nrestrict /a\nservice /a Foo\noption /a x=y=z\npath /opt\n" := by decide +kernel

/-- The letters that commands consist of, and their small forms, are those of the alphabet. -/
theorem command_letters (c : UInt8) : (isAlpha c = true ↔ c ∈ small ∨ c ∈ capital) ∧ toLower c = smallOf c := by
  have key : ∀ k : Fin 256, (isAlpha (UInt8.ofNat k.val) = true ↔ UInt8.ofNat k.val ∈ small ∨ UInt8.ofNat k.val ∈ capital) ∧
      toLower (UInt8.ofNat k.val) = smallOf (UInt8.ofNat k.val) := by decide +kernel
  have := key ⟨c.toNat, c.toNat_lt⟩
  simpa using this

theorem takeWhile_letters {w : Bytes} (hw : ∀ c ∈ w, c ∈ small ∨ c ∈ capital) (d : UInt8) (hd : isAlpha d = false) (r : Bytes) :
    (w ++ d :: r).takeWhile isAlpha = w ∧ (w ++ d :: r).dropWhile isAlpha = d :: r := by
  have h : ∀ c ∈ w, isAlpha c = true := fun c hc => (command_letters c).1.2 (hw c hc)
  rw [List.takeWhile_append_of_pos h, List.dropWhile_append_of_pos h]
  simp [hd]

/-- C37: a command may be written with small and capital letters: a line that begins with letters, followed by white space, is
    read by the small forms of the letters. -/
theorem any_case (w : Bytes) (hne : w ≠ []) (hw : ∀ c ∈ w, c ∈ small ∨ c ∈ capital) (d : UInt8) (hd : ws d = true) (r : Bytes) :
    Spec.Config.parse (w ++ d :: r) = (arguments (w.map smallOf) (r.dropWhile ws)).map some := by
  have hda : isAlpha d = false := by
    unfold ws at hd
    simp only [Bool.or_eq_true, beq_iff_eq] at hd
    rcases hd with rfl | rfl <;> decide +kernel
  obtain ⟨h1, h2⟩ := takeWhile_letters hw d hda r
  have hlow : w.map toLower = w.map smallOf := List.map_congr_left fun c _ => (command_letters c).2
  unfold Spec.Config.parse
  cases w with
  | nil => exact absurd rfl hne
  | cons c w =>
    have hc : c ≠ c! "#" := by
      rintro rfl
      have := hw (c! "#") List.mem_cons_self
      revert this
      decide +kernel
    rw [List.cons_append] at h1 h2 ⊢
    dsimp only
    rw [if_neg hc, h1, h2, hlow]
    dsimp only
    rw [if_pos hd]

/-- ... so the lines `auth basic`, `AUTH basic` and `Auth basic` do the same. -/
example : (b! "auth").map smallOf = b! "auth" ∧ (b! "AUTH").map smallOf = b! "auth" ∧ (b! "Auth").map smallOf = b! "auth" := by
  decide +kernel

example : load quiet (b! "AUTH basic\nUsEr a b\n") = load quiet (b! "auth basic\nuser a b\n") := by decide +kernel

/-- Violation of C37: a last line without line end is not applied, and no error is reported. -/
theorem last_line_ignored : load quiet (b! "auth basic\nuser a b\nrestrict /a") =
    load quiet (b! "auth basic\nuser a b\n") ∧
    load quiet (b! "auth basic\nuser a b\nrestrict /a") = .finished
      (some { kind := .basic, users := [(b! "a", b! "b")] }) [] ∧
    load quiet (b! "auth basic\nuser a b\nrestrict /a\n") = .finished
      (some { kind := .basic, restrict := [b! "/a"], users := [(b! "a", b! "b")] }) [] := by decide +kernel

/-- A second `auth` command discards the users and restrictions given before. -/
theorem second_auth_discards : load quiet (b! "auth basic\nuser a b\nrestrict /a\nauth cookie\n") =
    .finished (some { kind := .cookie }) [] := by decide +kernel

/-- A file without `auth` command removes the authentication of the server: `set_authentication` is called with a null
    pointer. -/
theorem no_auth_removes (env : Env) (text : Bytes) (a : Option Auth) (cs : List Call)
    (h : load env text = .finished a cs) (hn : ∀ k, Cmd.auth k ∉ commands (lines text).1) : a = none := by
  have h3 := (applied_partial env text a cs h).2.2
  rw [h3]
  have key : ∀ l : List Cmd, (∀ k, Cmd.auth k ∉ l) → l.foldl authAfter none = none := by
    intro l
    induction l with
    | nil => intro _; rfl
    | cons c l ih =>
      intro hn
      rw [List.foldl_cons]
      have : authAfter none c = none := by
        cases c with
        | auth k => exact absurd (List.mem_cons_self ..) (hn k)
        | _ => rfl
      rw [this]
      exact ih fun k hk => hn k (by simp [hk])
  exact key _ hn

example : load quiet (b! "path /x\n") = .finished none [.addDirectory (b! "/x")] := by decide +kernel

end Verif.Props.ServiceConfig
