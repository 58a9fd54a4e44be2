import Verif.Lemmas.HttpGrammarComplete
import Verif.Lemmas.HttpBody
/-
From the header machine to `parse`: the first pass of the main loop on a text of the grammar of heads.
-/
namespace Verif.Http.Text

/-- The state in which the head of a message is begun. -/
def start (cfg : Cfg) (m : Msg) : S := (enterH (fresh cfg m)).setL 0

theorem at_start (cfg : Cfg) (m : Msg) : At cfg m.headers (start cfg m) [] := by
  refine .inl ⟨?_, rfl⟩
  unfold First
  have hh : (start cfg m).hs = initHs cfg := rfl
  rw [hh]
  unfold initHs
  cases hr : cfg.isRequest with
  | true => exact ⟨rfl, rfl, by simp⟩
  | false =>
    simp only [Bool.false_eq_true, if_false]
    exact .inr ⟨hr, rfl⟩

theorem run_count {step : S → UInt8 → HRes} {s s' : S} {t rest : Bytes} (b : Bool) (h : run step s (t ++ rest) = (.yes, s', rest)) :
    count b (t ++ rest) (run step s (t ++ rest)) =
      (.yes, s'.upd t.length (s'.totalRead + t.length) (if b then s'.contentRead + t.length else s'.contentRead), rest) := by
  rw [h]
  simp [count]

theorem finishHeaders1_stored (cfg : Cfg) (m : Msg) (h : Head) (hs : Dict) (t : Bytes) (x : HState) (w n v : Bytes)
    (hr : cfg.isRequest = h.isRequest) :
    HeadDone cfg m h hs t (finishHeaders1 cfg (S.upd { stored (start cfg m) h with
      hs := x, raw := w, headerName := n, headerValue := v,
      msg := { (stored (start cfg m) h).msg with headers := m.headers ++ hs } } t.length (0 + t.length) 0)) := by
  cases h with
  | request meth r q major minor =>
    have hr' : cfg.isRequest = true := hr
    unfold finishHeaders1 updateMessage
    rw [if_pos hr']
    exact ⟨⟨rfl, rfl, rfl, rfl, rfl, rfl⟩, rfl, rfl, rfl, rfl, Nat.zero_add _, rfl, rfl, rfl, rfl, rfl, rfl, rfl, rfl⟩
  | response major minor code text =>
    have hr' : cfg.isRequest = false := hr
    unfold finishHeaders1 updateMessage
    rw [if_neg (by simp [hr'])]
    exact ⟨⟨rfl, rfl, rfl, rfl⟩, rfl, rfl, rfl, rfl, Nat.zero_add _, rfl, rfl, rfl, rfl, rfl, rfl, rfl, rfl⟩

/-- The cookies and the query parameters of a message with this head. -/
structure Dicts (cfg : Cfg) (m : Msg) (h : Head) (hs : Dict) (s : S) : Prop where
  cookies : h.isRequest = true → s.msg.cookies = addCookies false m.cookies (cfg.ord ((m.headers ++ hs : Dict).values (b! "Cookie")))
  setCookies : h.isRequest = false →
    s.msg.cookies = addCookies true m.cookies (cfg.ord ((m.headers ++ hs : Dict).values (b! "Set-Cookie")))
  queries : s.msg.queries = match h with
    | .request _ _ q _ _ => if q.isEmpty then m.queries else (Query.parseUrlEncoded m.queries q).2
    | .response .. => m.queries

theorem finishHeaders1_dicts (cfg : Cfg) (m : Msg) (h : Head) (hs : Dict) (t : Bytes) (x : HState) (w n v : Bytes)
    (hr : cfg.isRequest = h.isRequest) :
    Dicts cfg m h hs (finishHeaders1 cfg (S.upd { stored (start cfg m) h with
      hs := x, raw := w, headerName := n, headerValue := v,
      msg := { (stored (start cfg m) h).msg with headers := m.headers ++ hs } } t.length (0 + t.length) 0)) := by
  cases h with
  | request meth r q major minor =>
    have hr' : cfg.isRequest = true := hr
    unfold finishHeaders1 updateMessage
    rw [if_pos hr']
    exact ⟨fun _ => rfl, fun h => (by cases h), rfl⟩
  | response major minor code text =>
    have hr' : cfg.isRequest = false := hr
    unfold finishHeaders1 updateMessage
    rw [if_neg (by simp [hr'])]
    exact ⟨fun h => (by cases h), fun _ => rfl, rfl⟩

/-- The first pass of the main loop on a head of the grammar, with the cookies and query parameters. -/
theorem iter_messageHead_dicts {cfg : Cfg} (m : Msg) {h : Head} {hs : Dict} {t rest : Bytes} (hm : MessageHead h hs t rest)
    (hk : cfg.isRequest = h.isRequest) :
    ∃ s, HeadDone cfg m h hs t s ∧
      iter cfg (fresh cfg m) (t ++ rest) = ((finishHeaders2 cfg s).1, (finishHeaders2 cfg s).2, rest) ∧
      Dicts cfg m h hs s := by
  obtain ⟨x, w, n, v, e⟩ := run_complete (s := start cfg m) hm hk rfl rfl
  refine ⟨_, finishHeaders1_stored cfg m h hs t x w n v hk, ?_, finishHeaders1_dicts cfg m h hs t x w n v hk⟩
  rw [iter_headers cfg _ _ (.inl rfl), parseHeaders_eq]
  have := run_count false e
  unfold start at this
  rw [this]
  have hms : (stored (start cfg m) h).ms = .headers := by cases h <;> rfl
  have htr : (stored (start cfg m) h).totalRead = 0 := by cases h <;> rfl
  have hcr : (stored (start cfg m) h).contentRead = 0 := by cases h <;> rfl
  unfold postH
  rw [if_pos ⟨rfl, hms⟩]
  simp only [finishHeaders_eq, Bool.false_eq_true, if_false]
  unfold start at htr hcr
  rw [htr, hcr]
  rfl

/-- The first pass of the main loop on a head of the grammar. -/
theorem iter_messageHead {cfg : Cfg} (m : Msg) {h : Head} {hs : Dict} {t rest : Bytes} (hm : MessageHead h hs t rest)
    (hk : cfg.isRequest = h.isRequest) :
    ∃ s, HeadDone cfg m h hs t s ∧
      iter cfg (fresh cfg m) (t ++ rest) = ((finishHeaders2 cfg s).1, (finishHeaders2 cfg s).2, rest) := by
  obtain ⟨s, h1, h2, _⟩ := iter_messageHead_dicts m hm hk
  exact ⟨s, h1, h2⟩

theorem headOf_kind (cfg : Cfg) (s : S) : cfg.isRequest = (headOf cfg s).isRequest := by
  unfold headOf
  cases hr : cfg.isRequest <;> rfl

/-- If the first pass of the main loop does not end in an error, nor with all bytes read and more wanted, then the
    stream begins with a head of the grammar. -/
theorem head_of_iter {cfg : Cfg} {m : Msg} {stream : Bytes}
    (h : (iter cfg (fresh cfg m) stream).1 = .yes ∨
      ((iter cfg (fresh cfg m) stream).1 = .more ∧ (iter cfg (fresh cfg m) stream).2.2 ≠ [])) :
    ∃ h hs t rest, MessageHead h hs t rest ∧ stream = t ++ rest ∧ cfg.isRequest = h.isRequest := by
  rw [iter_headers cfg _ _ (.inl rfl), parseHeaders_eq] at h
  cases hrun : run (hstep cfg) ((enterH (fresh cfg m)).setL 0) stream with
  | mk rc p =>
    obtain ⟨s', rest⟩ := p
    rw [hrun] at h
    cases rc with
    | yes =>
      obtain ⟨hs, u, e1, e2, e3⟩ := run_sound cfg m.headers stream (start cfg m) [] s' rest (at_start cfg m) hrun
      exact ⟨_, hs, u, rest, e3, e2, headOf_kind cfg s'⟩
    | no => simp [postH, count] at h
    | more =>
      have hr : rest = [] := by
        have := run_more_rest (hstep cfg) ((enterH (fresh cfg m)).setL 0) stream (by rw [hrun])
        rw [hrun] at this; exact this
      subst hr
      simp [postH, count] at h

/-! ### The value of Content-Length -/

theorem takeWhile_space (s : Bytes) : ∀ c ∈ s.takeWhile isSpace, isSpace c = true := by
  induction s with
  | nil => simp
  | cons c s ih =>
    simp only [List.takeWhile_cons]
    split
    · rename_i h
      intro x hx
      rcases List.mem_cons.mp hx with rfl | hx
      · exact h
      · exact ih x hx
    · simp

theorem trim_split (v : Bytes) : ∃ sp sp', v = sp ++ trim v ++ sp' ∧ ∀ c ∈ sp ++ sp', isSpace c = true := by
  refine ⟨v.takeWhile isSpace, ((v.dropWhile isSpace).reverse.takeWhile isSpace).reverse, ?_, ?_⟩
  · have h1 := List.takeWhile_append_dropWhile (p := isSpace) (l := v)
    have h2 := List.takeWhile_append_dropWhile (p := isSpace) (l := (v.dropWhile isSpace).reverse)
    have h3 := congrArg List.reverse h2
    rw [List.reverse_append, List.reverse_reverse] at h3
    unfold trim
    rw [List.append_assoc, h3, h1]
  · intro c hc
    rcases List.mem_append.mp hc with hc | hc
    · exact takeWhile_space _ c hc
    · exact takeWhile_space _ c (List.mem_reverse.mp hc)

theorem lexDigits_iff (d : Bytes) (n : Nat) :
    lexDigits d = some n ↔ d ≠ [] ∧ (∀ c ∈ d, isDigit c = true) ∧ decVal d < 2 ^ 64 ∧ n = decVal d := by
  unfold lexDigits
  by_cases h1 : d = []
  · simp [h1]
  · by_cases h2 : ∀ c ∈ d, isDigit c = true
    · have : (d.isEmpty || !d.all isDigit) = false := by
        simp only [Bool.or_eq_false_iff, List.isEmpty_eq_false_iff, Bool.not_eq_false', List.all_eq_true]
        exact ⟨h1, h2⟩
      rw [this]
      simp only [Bool.false_eq_true, if_false]
      by_cases h3 : decVal d < SIZE_MOD
      · rw [if_pos h3]
        constructor
        · intro h; exact ⟨h1, h2, by unfold SIZE_MOD at h3; exact h3, (Option.some.inj h).symm⟩
        · rintro ⟨_, _, _, rfl⟩; rfl
      · rw [if_neg h3]
        constructor
        · intro h; exact nomatch h
        · rintro ⟨_, _, h, _⟩; exact absurd (by unfold SIZE_MOD; exact h) h3
    · have : (d.isEmpty || !d.all isDigit) = true := by
        simp only [Bool.or_eq_true, Bool.not_eq_true', List.all_eq_false]
        push Not at h2
        obtain ⟨c, hc, hd⟩ := h2
        exact .inr ⟨c, hc, hd⟩
      rw [this]
      simp only [if_true]
      constructor
      · intro h; exact nomatch h
      · rintro ⟨_, h, _⟩; exact absurd h h2

/-- The numbers `lexical_cast` accepts. -/
theorem cast_iff (v : Bytes) (n : Nat) : lexicalCastSize (trim v) = some n ↔ LengthValue n v := by
  constructor
  · intro h
    obtain ⟨sp, sp', hv, hsp⟩ := trim_split v
    cases ht : trim v with
    | nil => rw [ht] at h; simp [lexicalCastSize] at h
    | cons c r =>
      rw [ht] at h hv
      simp only [lexicalCastSize] at h
      split at h
      · rename_i hc
        cases hl : lexDigits r with
        | none => rw [hl] at h; simp at h
        | some k =>
          rw [hl] at h
          simp only [Option.map_some, Option.some.injEq] at h
          obtain ⟨h1, h2, h3, rfl⟩ := (lexDigits_iff r k).mp hl
          exact ⟨sp, [c], r, sp', hv, hsp, h1, h2, h3, .inr ⟨by rw [hc], by rw [← h]; rfl⟩⟩
      · split at h
        · rename_i hc
          obtain ⟨h1, h2, h3, rfl⟩ := (lexDigits_iff r n).mp h
          exact ⟨sp, [c], r, sp', hv, hsp, h1, h2, h3, .inl ⟨.inr (by rw [hc]), rfl⟩⟩
        · obtain ⟨h1, h2, h3, rfl⟩ := (lexDigits_iff (c :: r) n).mp h
          exact ⟨sp, [], c :: r, sp', hv, hsp, h1, h2, h3, .inl ⟨.inl rfl, rfl⟩⟩
  · rintro ⟨sp, sign, d, sp', rfl, hsp, h1, h2, h3, hs⟩
    have hd : ∀ c ∈ d, isSpace c = false := fun c hc => digit_not_space c (h2 c hc)
    rw [trim_pad sp (sign ++ d) sp' hsp ?_ (by simp [h1])]
    · rcases hs with ⟨rfl | rfl, rfl⟩ | ⟨rfl, rfl⟩
      · exact lexicalCastSize_digits d h1 h2 (by unfold SIZE_MOD; exact h3)
      · simp only [List.cons_append, List.nil_append, lexicalCastSize]
        rw [if_neg (by decide), if_pos trivial]
        exact (lexDigits_iff _ _).mpr ⟨h1, h2, h3, rfl⟩
      · simp only [List.cons_append, List.nil_append, lexicalCastSize]
        rw [if_pos trivial, (lexDigits_iff d _).mpr ⟨h1, h2, h3, rfl⟩]
        rfl
    · intro c hc
      rcases List.mem_append.mp hc with hc | hc
      · rcases hs with ⟨rfl | rfl, _⟩ | ⟨rfl, _⟩
        · simp at hc
        · rw [List.mem_singleton.mp hc]; decide
        · rw [List.mem_singleton.mp hc]; decide
      · exact hd c hc

theorem lengthValue_unique {v : Bytes} {n k : Nat} (h : LengthValue n v) (h' : LengthValue k v) : n = k := by
  have a := (cast_iff v n).mpr h
  rw [(cast_iff v k).mpr h'] at a
  exact (Option.some.inj a).symm

end Verif.Http.Text
