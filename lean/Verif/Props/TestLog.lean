import Verif.Spec.TestLog
import Mathlib.Data.List.Induction
/-
C110: the log of a test that several threads write. The specification is `Spec/TestLog`.
-/
namespace Verif.Props.TestLog
open Verif Verif.TestLog Verif.Spec.TestLog

theorem run_append (cs ds : List (Nat × Call)) : ∀ s : St, s.run (cs ++ ds) = (s.run cs).bind fun s' => s'.run ds := by
  induction cs with
  | nil => intro s; rfl
  | cons c cs ih =>
    intro s
    obtain ⟨t, c⟩ := c
    rw [List.cons_append, St.run, St.run]
    cases s.step c with
    | none => rfl
    | some s' => exact ih s'

theorem own_append (t : Nat) (cs : List (Nat × Call)) (u : Nat) (c : Call) :
    own t (cs ++ [(u, c)]) = if u = t then own t cs ++ [c] else own t cs := by
  unfold own
  rw [List.filter_append, List.map_append]
  by_cases h : u = t
  · simp [h]
  · simp [h]

theorem said_append (cs : List Call) (c : Call) : said (cs ++ [c]) = (said cs).bind fun x => say x c := by
  unfold said
  rw [List.foldlM_append]
  cases List.foldlM say ([], none) cs with
  | none => rfl
  | some x =>
    change List.foldlM say x [c] = say x c
    rw [List.foldlM_cons]
    cases say x c <;> rfl

/-- The state after proper calls: whole entries and the one that is open. -/
structure Shape (cs : List (Nat × Call)) (s : St) (w : List (Nat × Entry)) (cur : Option (Nat × Entry)) : Prop where
  out : s.out = (w.map fun x => x.2.text).flatten ++ (cur.elim [] fun x => x.2.opened)
  busy : s.inProgress = cur.isSome
  tag : ∀ x ∈ cur, s.tag = x.2.tag
  whole : ∀ t, said (own t cs) = some ((w.filter (·.1 == t)).map (·.2), (cur.filter (·.1 == t)).map (·.2))

theorem shape {cs : List (Nat × Call)} : ∀ {s : St}, St.run {} cs = some s → Proper cs → ∃ w cur, Shape cs s w cur := by
  induction cs using List.reverseRecOn with
  | nil =>
    intro s h _
    obtain rfl : ({} : St) = s := by simpa [St.run] using h
    exact ⟨[], none, rfl, rfl, nofun, fun t => rfl⟩
  | append_singleton cs uc ih =>
    obtain ⟨u, c⟩ := uc
    intro s h hp
    rw [run_append] at h
    obtain ⟨s1, h1, h0⟩ := Option.bind_eq_some_iff.1 h
    have h2 : s1.step c = some s := by
      rw [St.run] at h0
      split at h0
      · cases h0
      · rename_i s' e
        rw [e]
        simpa [St.run] using h0
    clear h0
    have hp1 : Proper cs := by
      intro t
      have := hp t
      rw [own_append] at this
      split at this
      · rw [said_append] at this
        cases hs : said (own t cs) with
        | none => rw [hs] at this; cases this
        | some x => rfl
      · exact this
    obtain ⟨w, cur, hsh⟩ := ih h1 hp1
    have hu := hp u
    rw [own_append, if_pos rfl, said_append, hsh.whole u, Option.bind_some] at hu
    have other : ∀ t, t ≠ u → said (own t (cs ++ [(u, c)])) = said (own t cs) := by
      intro t ht
      rw [own_append, if_neg (Ne.symm ht)]
    have mine : said (own u (cs ++ [(u, c)])) = say ((w.filter (·.1 == u)).map (·.2), (cur.filter (·.1 == u)).map (·.2)) c := by
      rw [own_append, if_pos rfl, said_append, hsh.whole u, Option.bind_some]
    have hb := hsh.busy
    cases c with
    | start tag attrs =>
      unfold St.step at h2
      cases cur with
      | some x => rw [hb] at h2; simp at h2
      | none =>
        rw [hb] at h2
        simp only [Option.isSome_none, Bool.false_eq_true, if_false, Option.some.injEq] at h2
        subst h2
        refine ⟨w, some (u, ⟨tag, attrs, []⟩), ?_, rfl, by simp, fun t => ?_⟩
        · simp [hsh.out, Entry.opened]
        · by_cases ht : t = u
          · subst ht
            rw [mine]
            simp [say, Option.filter]
          · rw [other t ht, hsh.whole t]
            simp [Option.filter, Ne.symm ht]
    | value v =>
      cases cur with
      | none => simp [say] at hu
      | some x =>
        obtain ⟨t', e⟩ := x
        have htu : t' = u := by
          by_cases h : t' = u
          · exact h
          · simp [Option.filter, h, say] at hu
        subst htu
        unfold St.step at h2
        rw [hb] at h2
        simp only [Option.isSome_some, if_true, Option.some.injEq] at h2
        subst h2
        refine ⟨w, some (t', { e with values := e.values ++ [v] }), ?_, by simp, ?_, fun t => ?_⟩
        · simp [hsh.out, Entry.opened]
        · have := hsh.tag _ rfl
          simpa using this
        · by_cases ht : t = t'
          · subst ht
            rw [mine]
            simp [say, Option.filter]
          · rw [other t ht, hsh.whole t]
            simp [Option.filter, Ne.symm ht]
    | finish =>
      cases cur with
      | none => simp [say] at hu
      | some x =>
        obtain ⟨t', e⟩ := x
        have htu : t' = u := by
          by_cases h : t' = u
          · exact h
          · simp [Option.filter, h, say] at hu
        subst htu
        unfold St.step at h2
        rw [hb] at h2
        simp only [Option.isSome_some, if_true, Option.some.injEq] at h2
        subst h2
        refine ⟨w ++ [(t', e)], none, ?_, rfl, nofun, fun t => ?_⟩
        · have := hsh.tag _ rfl
          dsimp only at this
          simp [hsh.out, Entry.text, this]
        · by_cases ht : t = t'
          · subst ht
            rw [mine]
            simp [say, Option.filter]
          · rw [other t ht, hsh.whole t]
            simp [Option.filter, Ne.symm ht]
    | plain text =>
      revert hu
      cases (cur.filter (·.1 == u)).map (·.2) <;> simp [say]

/-- **C110 (entries are not mixed).** Whatever the order in which the threads get to write, the log consists of whole entries, and
    possibly the beginning of one more; the entries of each thread are those it has written, in its order. Partial: if no
    thread calls a function that does not lock the mutex meanwhile. -/
theorem whole_entries_partial {cs : List (Nat × Call)} {s : St} (h : St.run {} cs = some s) (hp : Proper cs) :
    ∃ (w : List (Nat × Entry)) (cur : Option (Nat × Entry)),
      s.out = (w.map fun x => x.2.text).flatten ++ (cur.elim [] fun x => x.2.opened) ∧
      ∀ t, said (own t cs) = some ((w.filter (·.1 == t)).map (·.2), (cur.filter (·.1 == t)).map (·.2)) := by
  obtain ⟨w, cur, hsh⟩ := shape h hp
  exact ⟨w, cur, hsh.out, hsh.whole⟩

/-- **C110 (nobody waits without need).** A thread that wants to begin an entry waits only while another has one open, and that
    one can end it at any time. -/
theorem not_blocked {cs : List (Nat × Call)} {s : St} (h : St.run {} cs = some s) (hp : Proper cs) :
    ((∀ tag attrs, (s.step (.start tag attrs)).isSome) ∨ ∃ t e, (said (own t cs)).map Prod.snd = some (some e)) ∧
    ∃ s', s.step .finish = some s' ∧ ∀ tag attrs, (s'.step (.start tag attrs)).isSome := by
  obtain ⟨w, cur, hsh⟩ := shape h hp
  constructor
  · cases cur with
    | none =>
      refine .inl fun tag attrs => ?_
      have := hsh.busy
      simp only [Option.isSome_none] at this
      simp [St.step, this]
    | some x =>
      obtain ⟨t, e⟩ := x
      refine .inr ⟨t, e, ?_⟩
      rw [hsh.whole t]
      simp [Option.filter]
  · refine ⟨_, rfl, fun tag attrs => ?_⟩
    by_cases hb : s.inProgress = true
    · simp [St.step, hb]
    · simp [St.step, hb]

/-- Two threads, whose calls alternate: the second waits until the first has ended its entry. -/
def twoThreads : List (Nat × Call) := [(1, .start (b! "Info") (b! " line=\"1\"")), (1, .value (b! "a")), (1, .value (b! "b")), (1, .finish),
  (2, .start (b! "Error") (b! " line=\"2\"")), (2, .value (b! "c"))]

example : (St.run {} twoThreads).map St.out =
    some (b! "<Info line=\"1\"><![CDATA[ab]]></Info>\n<Error line=\"2\"><![CDATA[c") := by decide +kernel
example : said (own 1 twoThreads) = some ([⟨b! "Info", b! " line=\"1\"", [b! "a", b! "b"]⟩], none) ∧
    said (own 2 twoThreads) = some ([], some ⟨b! "Error", b! " line=\"2\"", [b! "c"]⟩) ∧ said (own 3 twoThreads) = some ([], none) := by
  decide +kernel
example : Proper twoThreads := by
  intro t
  by_cases h1 : t = 1
  · subst h1
    decide +kernel
  · by_cases h2 : t = 2
    · subst h2
      decide +kernel
    · have : own t twoThreads = [] := by
        unfold own twoThreads
        simp [Ne.symm h1, Ne.symm h2]
      rw [this]
      rfl
example : St.run {} [(1, .start (b! "Info") []), (2, .start (b! "Error") [])] = none := by decide +kernel

/-- **C110 fails for exceptions**: `log_exception`, as all functions but three, does not lock the mutex, and what it writes
    gets into the entry another thread is writing. -/
theorem exception_mixed :
    (St.run {} [(1, .start (b! "Info") []), (1, .value (b! "a")), (2, .plain (b! "<Exception>x</Exception>\n")), (1, .value (b! "b")), (1, .finish)]).map
      St.out = some (b! "<Info><![CDATA[a<Exception>x</Exception>\nb]]></Info>\n") := by decide +kernel

theorem cdata_values (v rest : Bytes) (h : ¬b! "]]>" <:+: v) : cdata (v ++ b! "]]>" ++ rest) = some v := by
  induction v with
  | nil =>
    rw [List.nil_append]
    change cdata (0x5d :: ([0x5d, 0x3e] ++ rest)) = some []
    rw [cdata, if_pos]
    exact ⟨rest, rfl⟩
  | cons c v ih =>
    rw [List.cons_append, List.cons_append, cdata, if_neg, ih]
    · rfl
    · rintro ⟨a, b, e⟩
      exact h ⟨c :: a, b, by simp [← e]⟩
    · rintro ⟨r, e⟩
      match v, h, e with
      | [], _, e => simp at e
      | [d], _, e =>
        simp at e
      | d :: f :: v, h, e =>
        refine h ⟨[], v, ?_⟩
        simp at e
        simp [← e.1, ← e.2.1, ← e.2.2.1]

/-- **C110 (what is read back).** A reader of the log finds in each entry the text that was logged. Partial: if the text has no `]]>`. -/
theorem read_back_partial (e : Entry) (rest : Bytes) (h : ¬b! "]]>" <:+: e.values.flatten) :
    e.text = b! "<" ++ e.tag ++ e.attrs ++ b! "><![CDATA[" ++ e.values.flatten ++ b! "]]></" ++ e.tag ++ b! ">\n" ∧
    cdata (e.values.flatten ++ b! "]]></" ++ e.tag ++ b! ">\n" ++ rest) = some e.values.flatten := by
  refine ⟨by simp [Entry.text, Entry.opened], ?_⟩
  have := cdata_values e.values.flatten (b! "</" ++ e.tag ++ b! ">\n" ++ rest) h
  rw [← this]
  simp

example : ¬b! "]]>" <:+: (Entry.mk (b! "Info") [] [b! "a]", b! "]<b>"]).values.flatten := by decide +kernel

/-- **C110 fails for texts with `]]>`**: the rest of such a text is read as markup. -/
theorem cdata_not_escaped : cdata (b! "x]]><Error/>" ++ b! "]]></Info>\n") = some (b! "x") := by decide +kernel

end Verif.Props.TestLog
